import Verif.Spec.Params
import Verif.Lemmas.Weld
import Verif.Props.Similar
import Verif.Props.Alike

/-!
# C137: torques are linear in the inertial parameters
-/

namespace SpatialDyn
open Finset Body

variable {E : Ext} {b b' : Body} {d d' : Bool}

/-- Momentum of a body of which one parameter is one and the others are zero. -/
def paramForce (p : Fin 10) (m : Motion) : Force :=
  match p with
  | 0 => ⟨m.lin, 0⟩
  | 1 => ⟨⟨0, m.ang.z, -m.ang.y⟩, ⟨0, -m.lin.z, m.lin.y⟩⟩
  | 2 => ⟨⟨-m.ang.z, 0, m.ang.x⟩, ⟨m.lin.z, 0, -m.lin.x⟩⟩
  | 3 => ⟨⟨m.ang.y, -m.ang.x, 0⟩, ⟨-m.lin.y, m.lin.x, 0⟩⟩
  | 4 => ⟨0, ⟨m.ang.x, 0, 0⟩⟩
  | 5 => ⟨0, ⟨0, m.ang.y, 0⟩⟩
  | 6 => ⟨0, ⟨0, 0, m.ang.z⟩⟩
  | 7 => ⟨0, ⟨m.ang.y, m.ang.x, 0⟩⟩
  | 8 => ⟨0, ⟨m.ang.z, 0, m.ang.x⟩⟩
  | 9 => ⟨0, ⟨0, m.ang.z, m.ang.y⟩⟩

theorem Inertia.app_params {I : Inertia} (hs : I.Icom.IsSymm) (m : Motion) :
    I.app m = ∑ p, I.params p • paramForce p m := by
  obtain ⟨h1, h2, h3⟩ : I.Icom.m10 = I.Icom.m01 ∧ I.Icom.m20 = I.Icom.m02 ∧ I.Icom.m21 = I.Icom.m12 := by
    have := hs
    simp only [Mat3.IsSymm, Mat3.T, Mat3.ext_iff] at this
    tauto
  simp only [Fin.sum_univ_succ, Fin.sum_univ_zero, Inertia.params, paramForce]
  ext <;> simp [Inertia.app, Vec3.cross, Mat3.mulVec, h1, h2, h3] <;> ring

theorem linkMomentum_params (hm : b.Massive) {k : ℕ} (hk : k < b.dof) (m : Motion) :
    b.linkMomentum k m = ∑ p, b.params k p • paramForce p m := by
  unfold linkMomentum params
  have hs := hm.symm k hk
  generalize b.parts k = l at hs
  induction l with
  | nil => simp
  | cons I l ih =>
    rw [List.map_cons, List.sum_cons, List.map_cons, List.sum_cons,
      ih fun J hJ => hs J (List.mem_cons_of_mem _ hJ), Inertia.app_params (hs I (.head _)),
      ← sum_add_distrib]
    exact sum_congr rfl fun p _ => by rw [Pi.add_apply, add_smul]

/-- Force on link `k` in the world for one parameter. -/
noncomputable def Body.probe (b : Body) (k : ℕ) (p : Fin 10) (m : Motion) : Force :=
  (b.freshTw k).actF (paramForce p ((b.freshTw k).inv.actM m))

theorem Iw_params (hm : b.Massive) {k : ℕ} (hk : k < b.dof) (m : Motion) :
    b.fresh.Iw k m = ∑ p, b.params k p • b.probe k p m := by
  rw [hm.Iw_eq hk, linkMomentum_params hm hk, Iso.actF_sum]
  exact sum_congr rfl fun p _ => by rw [Iso.actF_smul]; rfl

namespace Body.SameGeometry

theorem par (h : b.SameGeometry b') {i : ℕ} (hi : i < b.dof) : b'.par i = b.par i := by
  unfold Body.par
  rw [h.parent i hi]

theorem tp (h : b.SameGeometry b') {i : ℕ} (hi : i < b.dof) : b'.freshTp i = b.freshTp i := by
  unfold freshTp TpAt
  rw [h.T i hi, h.type i hi, h.q]

theorem tw (h : b.SameGeometry b') (hb : b.Tree) (hb' : b'.Tree) : ∀ i < b.dof,
    b'.freshTw i = b.freshTw i := by
  intro i
  induction i using Nat.strong_induction_on with
  | _ i ih =>
    intro hi
    rw [freshTw_top hb hi, freshTw_top hb' (by rw [h.dof]; exact hi), h.par hi, h.tp hi]
    cases e : b.par i with
    | none => show b'.T0 * _ = b.T0 * _; rw [h.T0]
    | some p =>
      have hp : p < i := hb.parLt i hi p e
      show b'.freshTw p * _ = b.freshTw p * _
      rw [ih p hp (by omega)]

theorem probe (h : b.SameGeometry b') (hb : b.Tree) (hb' : b'.Tree) {k : ℕ} (hk : k < b.dof)
    (p : Fin 10) (m : Motion) : b'.probe k p m = b.probe k p m := by
  unfold Body.probe
  rw [h.tw hb hb' k hk]

theorem jw (h : b.SameGeometry b') (hb : b.Tree) (hb' : b'.Tree) {k j : ℕ} (hk : k < b.dof)
    (hj : j < b.dof) : b'.fresh.Jw k j = b.fresh.Jw k j := by
  classical
  unfold Sys.Jw Sys.axis
  rw [fresh_Tw hj, fresh_Tw (by rw [h.dof]; exact hj), h.tw hb hb' j hj,
    show b'.fresh.S j = b.fresh.S j from h.axis j hj]
  exact if_congr (Anc.congr hb.parLt (fun i hi => h.par hi) hk j) rfl rfl

theorem v (h : b.SameGeometry b') (hb : b.Tree) (hb' : b'.Tree) {k : ℕ} (hk : k < b.dof)
    (u : ℕ → ℝ) : b'.fresh.V u k = b.fresh.V u k := by
  unfold Sys.V
  rw [show b'.fresh.n = b.fresh.n from h.dof]
  exact sum_congr rfl fun j hj => by rw [h.jw hb hb' hk (mem_range.1 hj)]

theorem fdq (h : b.SameGeometry b') : b'.fresh.dq = b.fresh.dq := by
  show (fun i => b'.dq.getD i 0) = fun i => b.dq.getD i 0
  rw [h.dq]

theorem bias (h : b.SameGeometry b') (hb : b.Tree) (hb' : b'.Tree) {k : ℕ} (hk : k < b.dof) :
    b'.fresh.bias k = b.fresh.bias k := by
  unfold Sys.bias
  rw [show b'.fresh.n = b.fresh.n from h.dof, h.fdq]
  refine sum_congr rfl fun j hj => ?_
  have hj := mem_range.1 hj
  rw [h.jw hb hb' hk hj, h.v hb hb' hj]

/-- A force on every link that is linear in its parameters acts on the joints linearly in them. -/
theorem genForce (h : b.SameGeometry b') (hb : b.Tree) (hb' : b'.Tree) {F : ℕ → Force}
    {G : ℕ → Fin 10 → Force} (hF : ∀ k < b.dof, F k = ∑ p, b'.params k p • G k p) {i : ℕ}
    (hi : i < b.dof) : b'.fresh.genForce F i =
      ∑ k ∈ range b.dof, ∑ p, (b.fresh.Jw k i).dot (G k p) * b'.params k p := by
  unfold Sys.genForce
  rw [show b'.fresh.n = b.dof from h.dof]
  refine sum_congr rfl fun k hk => ?_
  have hk := mem_range.1 hk
  rw [h.jw hb hb' hk hi, hF k hk, Motion.dot_sum]
  exact sum_congr rfl fun p _ => by rw [Motion.dot_smul, mul_comm]

theorem mass (h : b.SameGeometry b') (hb : b.Tree) (hb' : b'.Tree) (hm : b'.Massive) {i j : ℕ}
    (hi : i < b.dof) (hj : j < b.dof) : b'.fresh.massSpec i j =
      ∑ k ∈ range b.dof, ∑ p, (b.fresh.Jw k i).dot (b.probe k p (b.fresh.Jw k j)) * b'.params k p := by
  refine h.genForce hb hb' (F := fun k => b'.fresh.Iw k (b'.fresh.Jw k j)) (fun k hk => ?_) hi
  rw [Iw_params hm (by rw [h.dof]; exact hk), h.jw hb hb' hk hj]
  exact sum_congr rfl fun p _ => by rw [h.probe hb hb' hk]

theorem coriolis (h : b.SameGeometry b') (hb : b.Tree) (hb' : b'.Tree) (hm : b'.Massive) {i : ℕ}
    (hi : i < b.dof) : b'.fresh.coriolisSpec i =
      ∑ k ∈ range b.dof, ∑ p, (b.fresh.Jw k i).dot (b.probe k p (b.fresh.bias k) +
        (b.fresh.V b.fresh.dq k).crossF (b.probe k p (b.fresh.V b.fresh.dq k))) * b'.params k p := by
  have hcs : ∀ (v : Motion) (F : Fin 10 → Force),
      v.crossF (∑ k, F k) = ∑ k, v.crossF (F k) := by
    intro v F
    simp only [Fin.sum_univ_succ, Fin.sum_univ_zero, Motion.crossF_add]
    simp
  refine h.genForce hb hb' (fun k hk => ?_) hi
  have hk' : k < b'.dof := by rw [h.dof]; exact hk
  rw [Iw_params hm hk', Iw_params hm hk', h.bias hb hb' hk, h.fdq, h.v hb hb' hk, hcs,
    ← sum_add_distrib]
  exact sum_congr rfl fun p _ => by
    rw [h.probe hb hb' hk, h.probe hb hb' hk, Motion.crossF_smul, smul_add]

theorem gravity (h : b.SameGeometry b') (hb : b.Tree) (hb' : b'.Tree) (hm : b'.Massive) {i : ℕ}
    (hi : i < b.dof) : b'.fresh.gravitySpec i =
      ∑ k ∈ range b.dof, ∑ p, (b.fresh.Jw k i).dot (b.probe k p (-⟨b.g, 0⟩)) * b'.params k p := by
  refine h.genForce hb hb' (fun k hk => ?_) hi
  rw [Iw_params hm (by rw [h.dof]; exact hk)]
  refine sum_congr rfl fun p _ => ?_
  rw [h.probe hb hb' hk, ← h.g]
  rfl

theorem ext (h : b.SameGeometry b') (hb : b.Tree) (hb' : b'.Tree) (F : FExt) {i : ℕ} (hi : i < b.dof) :
    b'.fresh.extSpec F i = b.fresh.extSpec F i := by
  unfold Sys.extSpec Sys.genForce
  rw [show b'.fresh.n = b.fresh.n from h.dof]
  rw [sum_congr rfl fun k hk => by rw [h.jw hb hb' (mem_range.1 hk) hi]]

end Body.SameGeometry

/-- C137: for every geometry and state there are numbers, the same for all robots of that geometry, with
which every entry of the joint-space inertia, every velocity-product torque and every gravity torque is a
linear function of the inertial parameters of the links with their loads. -/
theorem C137_terms (h : Reach E b d) :
    ∃ (A : ℕ → ℕ → ℕ → Fin 10 → ℝ) (C G : ℕ → ℕ → Fin 10 → ℝ),
      ∀ b' d', Reach E b' d' → b'.Massive → b.SameGeometry b' → ∀ i < b.dof,
        (∀ j < b.dof, b'.inertia.1 i j = ∑ k ∈ range b.dof, ∑ p, A i j k p * b'.params k p) ∧
        b'.centrifugalCoriolis.1 i = ∑ k ∈ range b.dof, ∑ p, C i k p * b'.params k p ∧
        b'.gravity.1 i = ∑ k ∈ range b.dof, ∑ p, G i k p * b'.params k p := by
  refine ⟨fun i j k p => (b.fresh.Jw k i).dot (b.probe k p (b.fresh.Jw k j)),
    fun i k p => (b.fresh.Jw k i).dot (b.probe k p (b.fresh.bias k) +
      (b.fresh.V b.fresh.dq k).crossF (b.probe k p (b.fresh.V b.fresh.dq k))),
    fun i k p => (b.fresh.Jw k i).dot (b.probe k p (-⟨b.g, 0⟩)), fun b' d' h' hm hs i hi =>
    ⟨fun j hj => ?_, ?_, ?_⟩⟩
  rotate_left
  · have hi' : i < b'.dof := by rw [hs.dof]; exact hi
    rw [(centrifugalCoriolis_run h'.inv).2 i hi']
    exact hs.coriolis h.inv.tree h'.inv.tree hm hi
  · have hi' : i < b'.dof := by rw [hs.dof]; exact hi
    rw [(gravity_run h'.inv).2 i hi']
    exact hs.gravity h.inv.tree h'.inv.tree hm hi
  · rw [inertia_entry h' hm i j (by rw [hs.dof]; exact hi) (by rw [hs.dof]; exact hj)]
    exact hs.mass h.inv.tree h'.inv.tree hm hi hj

/-- C137: the regressor.  For every geometry, state and accelerations there is a matrix, the same for all
robots of that geometry, that multiplied with the inertial parameters gives the torques of
`InverseDynamics`, those of the external forces apart. -/
theorem C137_regressor (h : Reach E b d) (a : ℕ → ℝ) (F : FExt) (o : IDOpts) (hf : o.friction = false) :
    ∃ Y : ℕ → ℕ → Fin 10 → ℝ, ∀ b' d', Reach E b' d' → b'.Massive → b.SameGeometry b' →
      ∀ i < b.dof, (b'.inverseDynamics a F o).1 i =
        ∑ k ∈ range b.dof, ∑ p, Y i k p * b'.params k p + (b.externalTorques F).1 i := by
  refine ⟨fun i k p => ∑ j ∈ range b.dof, (b.fresh.Jw k i).dot (b.probe k p (b.fresh.Jw k j)) * a j +
      (if o.cc then (b.fresh.Jw k i).dot (b.probe k p (b.fresh.bias k) +
        (b.fresh.V b.fresh.dq k).crossF (b.probe k p (b.fresh.V b.fresh.dq k))) else 0) +
      (if o.gravity then (b.fresh.Jw k i).dot (b.probe k p (-⟨b.g, 0⟩)) else 0),
    fun b' d' h' hm hs i hi => ?_⟩
  have hi' : i < b'.dof := by rw [hs.dof]; exact hi
  rw [inverseDynamics_val h'.inv hm.symI (hm.posMass h'.inv.tree) _ _ _ i hi',
    (externalTorques_run h.inv F).2 i hi]
  unfold Sys.addFriction
  rw [hf]
  show b'.fresh.idSpec a F o.cc o.gravity i = _
  unfold Sys.idSpec
  rw [hs.ext h.inv.tree h'.inv.tree F hi, hs.coriolis h.inv.tree h'.inv.tree hm hi,
    hs.gravity h.inv.tree h'.inv.tree hm hi]
  congr 1
  have e : ∑ j ∈ range b'.fresh.n, b'.fresh.massSpec i j * a j = ∑ k ∈ range b.dof, ∑ p,
      (∑ j ∈ range b.dof, (b.fresh.Jw k i).dot (b.probe k p (b.fresh.Jw k j)) * a j) *
        b'.params k p := by
    rw [show b'.fresh.n = b.dof from hs.dof]
    rw [sum_congr rfl fun j hj => by
      rw [hs.mass h.inv.tree h'.inv.tree hm hi (mem_range.1 hj), sum_mul]]
    rw [sum_comm]
    refine sum_congr rfl fun k _ => ?_
    rw [sum_congr rfl fun j _ => sum_mul _ _ _, sum_comm]
    refine sum_congr rfl fun p _ => ?_
    rw [sum_mul]
    exact sum_congr rfl fun j _ => by ring
  rw [e]
  simp only [add_mul, sum_add_distrib]
  congr 1
  · congr 1
    cases o.cc <;> simp
  · cases o.gravity <;> simp

/-- C137: two robots of the same geometry whose links have the same inertial parameters, however these are
made up of links and loads, have the same inertia and need the same torques, and the same torques cause
the same accelerations. -/
theorem C137_same (h : Reach E b d) (h' : Reach E b' d') (hm : b.Massive) (hm' : b'.Massive)
    (hs : b.SameGeometry b') (hp : ∀ k < b.dof, b'.params k = b.params k) :
    (∀ i < b.dof, ∀ j < b.dof, b'.inertia.1 i j = b.inertia.1 i j) ∧
    (∀ i < b.dof, b'.centrifugalCoriolis.1 i = b.centrifugalCoriolis.1 i) ∧
    (∀ i < b.dof, b'.gravity.1 i = b.gravity.1 i) ∧
    (∀ a F o, o.friction = false → ∀ i < b.dof,
      (b'.inverseDynamics a F o).1 i = (b.inverseDynamics a F o).1 i) ∧
    (DefiniteForm b.dof b.inertia.1 → ∀ tau F o, o.friction = false → ∀ i < b.dof,
      (b'.fd E tau F o).1 i = (b.fd E tau F o).1 i) := by
  have hr : b.SameGeometry b := ⟨rfl, fun _ _ => rfl, fun _ _ => rfl, fun _ _ => rfl, fun _ _ => rfl,
    rfl, rfl, rfl, rfl⟩
  obtain ⟨A, C, G, key⟩ := C137_terms (E := E) h
  have k1 := key b d h hm hr
  have k2 := key b' d' h' hm' hs
  have hsum : ∀ Y : ℕ → Fin 10 → ℝ, ∑ k ∈ range b.dof, ∑ p, Y k p * b'.params k p =
      ∑ k ∈ range b.dof, ∑ p, Y k p * b.params k p := fun Y =>
    sum_congr rfl fun k hk => by rw [hp k (mem_range.1 hk)]
  have hid : ∀ a F o, o.friction = false → ∀ i < b.dof,
      (b'.inverseDynamics a F o).1 i = (b.inverseDynamics a F o).1 i := by
    intro a F o ho i hi
    obtain ⟨Y, hY⟩ := C137_regressor (E := E) h a F o ho
    rw [hY b d h hm hr i hi, hY b' d' h' hm' hs i hi, hsum]
  have hM : ∀ i < b.dof, ∀ j < b.dof, b'.inertia.1 i j = b.inertia.1 i j := fun i hi j hj => by
    rw [(k1 i hi).1 j hj, (k2 i hi).1 j hj, hsum]
  refine ⟨hM, fun i hi => ?_, fun i hi => ?_, hid, fun hn tau F o ho i hi => ?_⟩
  · rw [(k1 i hi).2.1, (k2 i hi).2.1, hsum]
  · rw [(k1 i hi).2.2, (k2 i hi).2.2, hsum]
  · have hn' : DefiniteForm b'.dof b'.inertia.1 := by
      rw [hs.dof]
      exact hn.congr fun i hi j hj => (hM i hi j hj).symm
    have hmass : ∀ i < b.dof, ∀ j < b.dof, b'.fresh.massSpec i j = b.fresh.massSpec i j :=
      fun i hi j hj => by
        rw [← inertia_entry h hm i j hi hj,
          ← inertia_entry h' hm' i j (by rw [hs.dof]; exact hi) (by rw [hs.dof]; exact hj), hM i hi j hj]
    refine Sys.solve_unique (fresh_det h hm hn) (fun k hk => ?_) i hi
    have e := fd_solves h' hm' hn' tau F o k (by rw [hs.dof]; exact hk)
    rw [hs.dof, sum_congr rfl fun j hj => by rw [hmass k hk j (mem_range.1 hj)]] at e
    rw [e, fd_solves h hm hn tau F o k hk]
    have e2 := hid (fun _ => 0) F ⟨o.gravity, o.cc, false, 0⟩ rfl k hk
    rw [inverseDynamics_val h'.inv hm'.symI (hm'.posMass h'.inv.tree) _ _ _ k (by rw [hs.dof]; exact hk),
      inverseDynamics_val h.inv hm.symI (hm.posMass h.inv.tree) _ _ _ k hk] at e2
    change b'.fresh.idSpec _ F _ _ k = b.fresh.idSpec _ F _ _ k at e2
    unfold Sys.fdRhs
    rw [ho]
    simp only [Bool.false_eq_true, if_false]
    rw [e2]

/-- A slider, the same one with a heavier link, and the first one with a load as heavy as its link: one
geometry; the last two have the same parameters, the first one has others. -/
example (E : Ext) : (∃ d, Reach E (solo .px) d) ∧ (∃ d, Reach E soloHeavy d) ∧ (∃ d, Reach E soloLoaded d) ∧
    (solo .px).Massive ∧ soloHeavy.Massive ∧ soloLoaded.Massive ∧
    (solo .px).SameGeometry soloHeavy ∧ (solo .px).SameGeometry soloLoaded ∧
    soloHeavy.SameGeometry soloLoaded ∧ (∀ k < soloHeavy.dof, soloLoaded.params k = soloHeavy.params k) ∧
    (solo .px).params 0 ≠ soloHeavy.params 0 := by
  have h0 : soloLoaded.load 0 = some ball := by
    exact Function.update_self (0 : ℤ) (some ball) (fun _ : ℤ => (none : Option Inertia))
  have hS : JType.px.subspace ≠ 0 := by
    intro h
    have := congrArg (fun m : Motion => m.lin.x) h
    simp [JType.subspace] at this
  have e1 : soloLoaded.params 0 = ball.params + (ball.params + 0) := by
    show ((soloLoaded.rb 0).inertia.params ::
      ((soloLoaded.load 0).toList.map Inertia.params)).sum = _
    rw [h0]
    rfl
  have e2 : soloHeavy.params 0 = (ball.add ball).params + 0 := rfl
  have e3 : (solo .px).params 0 = ball.params + 0 := rfl
  obtain ⟨hc, hI⟩ := ball_two
  have hm : (ball.add ball).mass = 2 := by show (1 : ℝ) + 1 = 2; norm_num
  obtain ⟨d, h⟩ := soloHeavy_reach E
  obtain ⟨d', h'⟩ := soloLoaded_reach E
  obtain ⟨d'', h''⟩ := solo_reach E .px
  refine ⟨⟨_, h''⟩, ⟨_, h⟩, ⟨_, h'⟩, (solo_definite hS).massive h''.inv.tree,
    soloHeavy_definite.massive h.inv.tree,
    soloLoaded_definite.massive h'.inv.tree, ?_, ?_, ?_, fun k hk => ?_, ?_⟩
  · refine ⟨rfl, fun i hi => ?_, fun i hi => ?_, fun i hi => ?_, fun i hi => ?_, rfl, rfl, rfl, rfl⟩ <;>
      cases i <;> rfl
  · refine ⟨rfl, fun i hi => ?_, fun i hi => ?_, fun i hi => ?_, fun i hi => ?_, rfl, rfl, rfl, rfl⟩ <;>
      cases i <;> rfl
  · refine ⟨rfl, fun i hi => ?_, fun i hi => ?_, fun i hi => ?_, fun i hi => ?_, rfl, rfl, rfl, rfl⟩ <;>
      cases i <;> rfl
  · obtain rfl : k = 0 := Nat.lt_one_iff.1 hk
    rw [e1, e2]
    funext p
    simp only [Inertia.params, hc, hI, hm]
    fin_cases p <;> simp [ball] <;> norm_num
  · rw [e2, e3]
    intro e
    have := congrFun e 0
    simp only [Inertia.params, hc, hI, hm] at this
    simp [ball] at this

end SpatialDyn
