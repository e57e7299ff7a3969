import Verif.Lemmas.Embed
import Verif.Props.OpsAbaWitness

/-!
# C106: links may be added in any order, and robots on one base do not disturb each other

`Embeds f b b'`: link `i` of `b` is link `f i` of `b'` and nothing else hangs on these links.
-/

namespace SpatialDyn
open Finset Body

variable {E : Ext} {b b' : Body} {d d' : Bool} {f : ℕ → ℕ}

/-- C106: link `f i` of the larger robot is where link `i` of the smaller one is. -/
theorem C106_pose (h : Reach E b d) (h' : Reach E b' d') (he : Embeds f b b') {i : ℕ}
    (hi : i < b.dof) : ∃ X, (b.tToWorld i).map Prod.fst = .ok X ∧
      (b'.tToWorld (f i : ℕ)).map Prod.fst = .ok X := by
  refine ⟨b.freshTw i, ?_, ?_⟩
  · unfold Body.tToWorld
    rw [index_ofNat hi]
    show Out.ok _ = _
    rw [h.inv.viewTw i hi]
  · unfold Body.tToWorld
    rw [index_ofNat (he.lt i hi)]
    show Out.ok _ = _
    rw [h'.inv.viewTw _ (he.lt i hi), he.freshTw_eq h.inv.tree h'.inv.tree hi]

/-- C106: and moves in the same way: its Jacobian has the same columns, at their new places, and
zeros elsewhere. -/
theorem C106_jacobian (h : Reach E b d) (h' : Reach E b' d') (he : Embeds f b b') {i : ℕ}
    (hi : i < b.dof) (x : Vec3) : ∃ J J', b.jacobian i x = .ok J ∧
      b'.jacobian (f i : ℕ) x = .ok J' ∧ (∀ j < b.dof, J'.1 (f j) = J.1 j) ∧
      ∀ l < b'.dof, (∀ j < b.dof, l ≠ f j) → J'.1 l = 0 := by
  have hl : b.LinkIdx i i := ⟨hi, .inl rfl⟩
  have hl' : b'.LinkIdx (f i : ℕ) (f i) := ⟨he.lt i hi, .inl rfl⟩
  obtain ⟨J, hJ⟩ := jacobian_total b hl x
  obtain ⟨J', hJ'⟩ := jacobian_total b' hl' x
  have hm := he.emb h.inv h'.inv
  refine ⟨J, J', hJ, hJ', fun j hj => ?_, fun l hl2 hn => ?_⟩
  · rw [jacobian_val h.inv hl hJ, jacobian_val h'.inv hl' hJ', hm.jw hi hj,
      he.freshTw_eq h.inv.tree h'.inv.tree hi]
  · rw [jacobian_val h'.inv hl' hJ', hm.jw_row hi hn]
    ext <;> simp [Motion.atPoint]

/-- C106: the joint-space inertia has the same entries, at their new places, and zeros between the
smaller robot and the rest. -/
theorem C106_inertia (h : Reach E b d) (h' : Reach E b' d') (he : Embeds f b b') (hm : b.Massive)
    (hm' : b'.Massive) {i : ℕ} (hi : i < b.dof) :
    (∀ j < b.dof, b'.inertia.1 (f i) (f j) = b.inertia.1 i j) ∧
    ∀ l < b'.dof, (∀ j < b.dof, l ≠ f j) → b'.inertia.1 (f i) l = 0 := by
  have hs := he.emb h.inv h'.inv
  refine ⟨fun j hj => ?_, fun l hl hn => ?_⟩
  · rw [inertia_entry h hm i j hi hj, inertia_entry h' hm' _ _ (he.lt i hi) (he.lt j hj)]
    exact hs.mass hi hj
  · rw [inertia_entry h' hm' _ _ (he.lt i hi) hl]
    exact hs.mass_cross hi hn

/-- C106: velocity products, gravity and external forces act on the joints as before. -/
theorem C106_torques (h : Reach E b d) (h' : Reach E b' d') (he : Embeds f b b') {F F' : FExt}
    (hF : ∀ i < b.dof, F' (f i) = F i) {i : ℕ} (hi : i < b.dof) :
    b'.centrifugalCoriolis.1 (f i) = b.centrifugalCoriolis.1 i ∧
    b'.gravity.1 (f i) = b.gravity.1 i ∧
    (b'.externalTorques F').1 (f i) = (b.externalTorques F).1 i := by
  have hs := he.emb h.inv h'.inv
  have hj := he.lt i hi
  refine ⟨?_, ?_, ?_⟩
  · rw [(centrifugalCoriolis_run h.inv).2 i hi, (centrifugalCoriolis_run h'.inv).2 _ hj]
    exact hs.coriolis hi
  · rw [(gravity_run h.inv).2 i hi, (gravity_run h'.inv).2 _ hj]
    exact hs.gravity hi
  · rw [(externalTorques_run h.inv F).2 i hi, (externalTorques_run h'.inv F').2 _ hj]
    exact hs.ext hF hi

/-- C106: `InverseDynamics` asks for the same torques, whatever the other joints do. -/
theorem C106_inverse_dynamics (h : Reach E b d) (h' : Reach E b' d') (he : Embeds f b b')
    (hm : b.Massive) (hm' : b'.Massive) {F F' : FExt} (hF : ∀ i < b.dof, F' (f i) = F i)
    {a a' : ℕ → ℝ} (ha : ∀ i < b.dof, a' (f i) = a i) (o : IDOpts) {i : ℕ} (hi : i < b.dof) :
    (b'.inverseDynamics a' F' o).1 (f i) = (b.inverseDynamics a F o).1 i := by
  have hs := he.emb h.inv h'.inv
  rw [inverseDynamics_val h.inv hm.symI (hm.posMass h.inv.tree) _ _ _ i hi,
    inverseDynamics_val h'.inv hm'.symI (hm'.posMass h'.inv.tree) _ _ _ _ (he.lt i hi)]
  have e := hs.id ha hF o.cc o.gravity hi
  unfold Sys.addFriction Sys.friction
  cases o.friction
  · exact e
  · simp only [if_true]
    rw [e, hs.dq i hi, hs.fr i hi]

theorem Embeds.fd (h : Reach E b d) (h' : Reach E b' d') (he : Embeds f b b')
    (hm : b.Massive) (hm' : b'.Massive) (hn : DefiniteForm b.dof b.inertia.1)
    (hn' : DefiniteForm b'.dof b'.inertia.1) {F F' : FExt} (hF : ∀ i < b.dof, F' (f i) = F i)
    {t t' : ℕ → ℝ} (ht : ∀ i < b.dof, t' (f i) = t i) (o : FDOpts) {i : ℕ} (hi : i < b.dof) :
    (b'.fd E t' F' o).1 (f i) = (b.fd E t F o).1 i := by
  have hs := he.emb h.inv h'.inv
  refine Sys.solve_unique (x := fun j => (b'.fd E t' F' o).1 (f j)) (fresh_det h hm hn)
    (fun k hk => ?_) i hi
  rw [fd_solves h hm hn t F o k hk]
  refine (hs.rows hk).symm.trans ?_
  refine (fd_solves h' hm' hn' t' F' o (f k) (he.lt k hk)).trans ?_
  exact hs.fdRhs ht (fun j hj => hs.id (fun _ _ => rfl) hF _ _ hj) o hk

/-- C106: `ForwardDynamics` gives the same accelerations, whatever torques act on the other joints. -/
theorem C106_forward_dynamics (h : Reach E b d) (h' : Reach E b' d') (he : Embeds f b b')
    (hm : b.Massive) (hm' : b'.Massive) (hn : DefiniteForm b.dof b.inertia.1)
    (hn' : DefiniteForm b'.dof b'.inertia.1) {F F' : FExt} (hF : ∀ i < b.dof, F' (f i) = F i)
    {t t' : ℕ → ℝ} (ht : ∀ i < b.dof, t' (f i) = t i) (o : FDOpts) {i : ℕ} (hi : i < b.dof) :
    (b'.fd E t' F' o).1 (f i) = (b.fd E t F o).1 i :=
  Embeds.fd h h' he hm hm' hn hn' hF ht o hi

/-- C106: so does `ForwardDynamicsAba`. -/
theorem C106_forward_dynamics_aba (h : Reach E b d) (h' : Reach E b' d') (he : Embeds f b b')
    (hm : b.Massive) (hm' : b'.Massive) (hn : DefiniteForm b.dof b.inertia.1)
    (hn' : DefiniteForm b'.dof b'.inertia.1)
    {F F' : FExt} (hF : ∀ i < b.dof, F' (f i) = F i)
    {t t' : ℕ → ℝ} (ht : ∀ i < b.dof, t' (f i) = t i) (o : FDOpts) (hf : o.friction = false) {i : ℕ}
    (hi : i < b.dof) :
    (b'.forwardDynamicsAba t' F' o).1 (f i) = (b.forwardDynamicsAba t F o).1 i := by
  rw [C30_aba_base h hm hn t F o hf i hi,
    C30_aba_base h' hm' hn' t' F' o hf _ (he.lt i hi)]
  have key : ∀ {b : Body} {d : Bool}, Reach E b d → b.Massive → DefiniteForm b.dof b.inertia.1 →
      ∀ g, ∃ d1, Reach E (b.setG g) d1 ∧ (b.setG g).Massive ∧
        DefiniteForm (b.setG g).dof (b.setG g).inertia.1 := by
    intro b d h hm hn g
    have h1 : Reach E (b.setG g) _ := h.step (.setG g) trivial rfl
    have hm1 : (b.setG g).Massive := ⟨hm.symm, hm.nonneg, hm.merge, hm.tree⟩
    refine ⟨_, h1, hm1, hn.congr fun i hi j hj => ?_⟩
    rw [inertia_entry h hm i j hi hj, inertia_entry h1 hm1 i j hi hj]
    rfl
  obtain ⟨_, h1, hm1, hn1⟩ := key h hm hn (b.T0.R.mulVec b.g)
  obtain ⟨_, h2, hm2, hn2⟩ := key h' hm' hn' (b'.T0.R.mulVec b'.g)
  have he' : Embeds f (b.setG (b.T0.R.mulVec b.g)) (b'.setG (b'.T0.R.mulVec b'.g)) :=
    { he with g := by show b'.T0.R.mulVec b'.g = b.T0.R.mulVec b.g; rw [he.T0, he.g] }
  exact Embeds.fd h1 h2 he' hm1 hm2 hn1 hn2 hF ht o hi

theorem ajt_solves (h : Reach E b d) (hm : b.Massive) (hn : DefiniteForm b.dof b.inertia.1)
    (J : DMat) (k i : ℕ) (hi : i < b.dof) :
    ∑ j ∈ range b.dof, b.fresh.massSpec i j * (b.ajt E J).e j k = J.e k i := by
  have e : ∀ j, (b.ajt E J).e j k = E.solve b.dof b.fresh.massSpec (fun j => J.e k j) j := fun j =>
    congrFun (E.solve_congr (fun i hi j hj => inertia_entry h hm i j hi hj) fun _ _ => rfl) j
  simp only [e]
  unfold Ext.solve
  obtain ⟨x, hx⟩ : ∃ x, ldltSolve b.dof b.fresh.massSpec (fun j => J.e k j) = some x := by
    unfold ldltSolve
    rw [if_pos (hn.congr fun i hi j hj => inertia_entry h hm i j hi hj).mat]
    exact ⟨_, rfl⟩
  rw [hx]
  exact Sys.ldltSolve_sound hx i hi

/-- C106: the operational-space inertia of a task of the smaller robot (a Jacobian `J'` with the
columns of `J` at their new places and zeros elsewhere) is its own. -/
theorem C106_opspace_inertia (h : Reach E b d) (h' : Reach E b' d') (he : Embeds f b b')
    (hm : b.Massive) (hm' : b'.Massive) (hn : DefiniteForm b.dof b.inertia.1)
    (hn' : DefiniteForm b'.dof b'.inertia.1) {J J' : DMat} (hJ : J.cols = b.dof)
    (hJ' : J'.cols = b'.dof) (hd : 0 < b.dof) (hr : J'.rows = J.rows)
    (hc : ∀ r < J.rows, ∀ j < b.dof, J'.e r (f j) = J.e r j)
    (h0 : ∀ r < J.rows, ∀ l < b'.dof, (∀ j < b.dof, l ≠ f j) → J'.e r l = 0) :
    ∃ r r', b.opsInertiaInverse E J = .ok r ∧ b'.opsInertiaInverse E J' = .ok r' ∧
      ∀ i < J.rows, ∀ k < J.rows, r'.1.e i k = r.1.e i k := by
  have hs := he.emb h.inv h'.inv
  have hd' : 0 < b'.dof := lt_of_le_of_lt (Nat.zero_le _) (he.lt 0 hd)
  obtain ⟨r, hr1⟩ := opsInertiaInverse_total (E := E) h.inv hJ hd
  obtain ⟨r', hr2⟩ := opsInertiaInverse_total (E := E) h'.inv hJ' hd'
  refine ⟨r, r', hr1, hr2, fun i hi k hk => ?_⟩
  have e1 := (opsInertiaInverse_ans h.inv hr1).2
  have e2 := (opsInertiaInverse_ans h'.inv hr2).2
  have hX : ∀ j < b.dof, (b'.ajt E J').e (f j) k = (b.ajt E J).e j k := by
    intro j hj
    refine Sys.solve_unique (x := fun j => (b'.ajt E J').e (f j) k)
      (y := fun j => (b.ajt E J).e j k) (fresh_det h hm hn) (fun l hl => ?_) j hj
    rw [ajt_solves h hm hn J k l hl]
    refine (hs.rows (x' := fun j => (b'.ajt E J').e j k) hl).symm.trans ?_
    exact (ajt_solves h' hm' hn' J' k (f l) (he.lt l hl)).trans (hc k hk l hl)
  have a1 : r.1.rows = J.rows ∧ r.1.cols = J.rows := by
    have h1 := congrArg DMat.rows e1
    have h2 := congrArg DMat.cols e1
    exact ⟨h1, h2⟩
  have a2 : r'.1.rows = J.rows ∧ r'.1.cols = J.rows := by
    have h1 := congrArg DMat.rows e2
    have h2 := congrArg DMat.cols e2
    exact ⟨h1.trans hr, h2.trans hr⟩
  have b1 : r.1.e i k = (J.mul (b.ajt E J)).e i k := by
    have h1 := congrFun (congrFun (congrArg DMat.e e1) i) k
    unfold DMat.trunc at h1
    dsimp only at h1
    rwa [if_pos ⟨by omega, by omega⟩, if_pos ⟨hi, hk⟩] at h1
  have b2 : r'.1.e i k = (J'.mul (b'.ajt E J')).e i k := by
    have h1 := congrFun (congrFun (congrArg DMat.e e2) i) k
    unfold DMat.trunc at h1
    dsimp only at h1
    rwa [if_pos ⟨by omega, by omega⟩, if_pos ⟨by show i < J'.rows; omega, by show k < J'.rows; omega⟩] at h1
  rw [b1, b2]
  show ∑ l ∈ range J'.cols, _ = ∑ l ∈ range J.cols, _
  rw [hJ, hJ']
  exact hs.sum (fun l hl hn => by rw [h0 i hi l hl hn, zero_mul])
    fun j hj => by rw [hc i hi j hj, hX j hj]

/-! ## Witnesses -/

/-- Two sliders on the base. -/
noncomputable def twoOn (s t : JType) : Body where
  rbs := [{ ballRB s with id := 0, idParent := -1 }, { ballRB t with id := 1, idParent := -1 }]
  q := [0, 0]
  dq := [0, 0]
  g := ⟨0, 0, -9.81⟩
  load := fun _ => none
  T0 := 1
  inertiaBase := ⟨1, 0, 0⟩
  anc := [[0], [1]]
  sub := [[0], [1]]
  c := ((Body.init cache0).c.expand 0).expand 1

theorem twoOn_exec (E : Ext) (s t : JType) : execAll E (Body.init cache0)
    [.addRigidBody (ballRB s) (-1), .addRigidBody (ballRB t) (-1)] = some (twoOn s t) := by
  simp [execAll, Op.exec, Op.step, addRigidBody, Out.map, Out.bind, Body.init, pushSub, twoOn]

theorem twoOn_reach (E : Ext) (s t : JType) : ∃ d, Reach E (twoOn s t) d := by
  refine reach_execAll _ (Reach.init cache0) ?_ (twoOn_exec E s t)
  intro op hop
  simp only [List.mem_cons, List.not_mem_nil, or_false] at hop
  rcases hop with rfl | rfl <;> exact Iso.valid_one

/-- The hypotheses of the theorems hold for a robot whose links are added in the other order. -/
theorem twoOn_swap (s t : JType) : Embeds (fun i => 1 - i) (twoOn s t) (twoOn t s) where
  lt i _ := by show 1 - i < 2; omega
  inj i hi j hj e := by
    change i < 2 at hi
    change j < 2 at hj
    change 1 - i = 1 - j at e
    omega
  root i hi _ := by
    change i < 2 at hi
    interval_cases i <;> exact (by decide : (-1 : ℤ) < 0)
  parent i hi p e := by
    change i < 2 at hi
    interval_cases i <;> (change (-1 : ℤ) = p at e; omega)
  closed k hk i hi e := by
    change k < 2 at hk
    interval_cases k <;> (change (-1 : ℤ) = _ at e; omega)
  pose i hi := by change i < 2 at hi; interval_cases i <;> rfl
  joint i hi := by change i < 2 at hi; interval_cases i <;> rfl
  total i hi := by change i < 2 at hi; interval_cases i <;> rfl
  q i hi := by change i < 2 at hi; interval_cases i <;> rfl
  dq i hi := by change i < 2 at hi; interval_cases i <;> rfl
  g := rfl
  T0 := rfl

/-- They hold for a robot next to another on one base. -/
theorem twoOn_second (s t : JType) : Embeds (fun _ => 1) (solo t) (twoOn s t) where
  lt i _ := by show 1 < 2; omega
  inj i hi j hj _ := by
    change i < 1 at hi
    change j < 1 at hj
    omega
  root i hi _ := (by decide : (-1 : ℤ) < 0)
  parent i hi p e := by
    change i < 1 at hi
    interval_cases i
    change (-1 : ℤ) = p at e
    omega
  closed k hk i hi e := by
    change k < 2 at hk
    interval_cases k <;> (change (-1 : ℤ) = _ at e; omega)
  pose i hi := by change i < 1 at hi; interval_cases i; rfl
  joint i hi := by change i < 1 at hi; interval_cases i; rfl
  total i hi := by change i < 1 at hi; interval_cases i; rfl
  q i hi := by change i < 1 at hi; interval_cases i; rfl
  dq i hi := by change i < 1 at hi; interval_cases i; rfl
  g := rfl
  T0 := rfl

theorem twoOn_definite : (twoOn .px .pz).Definite := by
  have h0 : ∀ k < (twoOn .px .pz).dof, k = 0 ∨ k = 1 := fun k hk => by
    change k < 2 at hk; omega
  refine ⟨fun k hk => ?_, fun k hk => ?_, fun k hk v hv => ?_, fun k hk L hL => ?_, fun k hk h => ?_⟩
  · rcases h0 k hk with rfl | rfl <;> (show (0 : ℝ) < 1; norm_num)
  · rcases h0 k hk with rfl | rfl <;> exact ball_phys.2.1
  · rcases h0 k hk with rfl | rfl <;> exact ball_pd v hv
  · cases hL
  · rcases h0 k hk with rfl | rfl
    · have := congrArg (fun m : Motion => m.lin.x) h
      simp [twoOn, Body.rb, ballRB, mkJoint, JType.subspace] at this
    · have := congrArg (fun m : Motion => m.lin.z) h
      simp [twoOn, Body.rb, ballRB, mkJoint, JType.subspace] at this

/-- All hypotheses together: a vertical slider next to a horizontal one. -/
example (E : Ext) : ∃ d d', Reach E (solo .pz) d ∧ Reach E (twoOn .px .pz) d' ∧
    Embeds (fun _ => 1) (solo .pz) (twoOn .px .pz) ∧ (solo .pz).Massive ∧ (twoOn .px .pz).Massive ∧
    DefiniteForm (solo .pz).dof (solo .pz).inertia.1 ∧
    DefiniteForm (twoOn .px .pz).dof (twoOn .px .pz).inertia.1 := by
  have hS : JType.pz.subspace ≠ 0 := by
    intro h
    have := congrArg (fun m : Motion => m.lin.z) h
    simp [JType.subspace] at this
  obtain ⟨d, h⟩ := solo_reach E .pz
  obtain ⟨d', h'⟩ := twoOn_reach E .px .pz
  have hd := solo_definite hS
  exact ⟨d, d', h, h', twoOn_second _ _, hd.massive h.inv.tree, twoOn_definite.massive h'.inv.tree,
    hd.form h, twoOn_definite.form h'⟩

end SpatialDyn
