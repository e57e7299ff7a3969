import Verif.Props.Forward

/-!
# C76: moving the base and turning gravity with it
-/

namespace SpatialDyn
open Body Finset

variable {E : Ext} {b b' : Body} {d d' : Bool} {X : Iso}

/-- `b'` is `b` with its base moved by the rigid motion `X`, and gravity turned along. -/
structure Body.Moved (b b' : Body) (X : Iso) : Prop where
  rigid : X.Valid
  rbs : b'.rbs = b.rbs
  q : b'.q = b.q
  dq : b'.dq = b.dq
  load : b'.load = b.load
  base : b'.T0 = X * b.T0
  g : b'.g = X.R.mulVec b.g

namespace Body.Moved

theorem dof (h : b.Moved b' X) : b'.dof = b.dof := by unfold Body.dof; rw [h.rbs]
theorem rb (h : b.Moved b' X) : b'.rb = b.rb := by unfold Body.rb; rw [h.rbs]

theorem tw (h : b.Moved b' X) (ht : b.Tree) (ht' : b'.Tree) :
    ∀ k < b.dof, b'.freshTw k = X * b.freshTw k := by
  have hp : b'.par = b.par := by unfold Body.par; rw [h.rb]
  have hT : ∀ i, b'.TpAt i (b'.pos i) = b.TpAt i (b.pos i) := by
    intro i; unfold Body.TpAt Body.pos; rw [h.rb, h.q]
  intro k
  induction k using Nat.strong_induction_on with
  | _ k ih =>
    intro hk
    have e1 := twAt_rec ht b.pos hk
    have e2 := twAt_rec ht' b'.pos (show k < b'.dof by rw [h.dof]; exact hk)
    change b.freshTw k = _ at e1
    change b'.freshTw k = _ at e2
    rw [e1, e2, hp, hT]
    cases hpar : b.par k with
    | none => simp only [h.base, Iso.mul_assoc']
    | some p =>
      have hlt := ht.parLt k hk p hpar
      have := ih p hlt (by omega)
      change b'.twAt b'.pos p = X * b.twAt b.pos p at this
      simp only [this, Iso.mul_assoc']

theorem jw (h : b.Moved b' X) (hi : Inv E b) (hi' : Inv E b') (k : ℕ) {j : ℕ} (hj : j < b.dof) :
    b'.fresh.Jw k j = X.actM (b.fresh.Jw k j) := by
  classical
  have hp : b'.fresh.par = b.fresh.par := by
    show b'.par = b.par
    unfold Body.par; rw [h.rb]
  have ha : b'.fresh.axis j = X.actM (b.fresh.axis j) := by
    rw [fresh_axis hj, fresh_axis (show j < b'.dof by rw [h.dof]; exact hj),
      h.tw hi.tree hi'.tree j hj, Iso.actM_mul _ _ h.rigid, h.rb]
  unfold Sys.Jw
  rw [hp, ha]
  split <;> simp

theorem v (h : b.Moved b' X) (hi : Inv E b) (hi' : Inv E b') (u : ℕ → ℝ) (k : ℕ) :
    b'.fresh.V u k = X.actM (b.fresh.V u k) := by
  unfold Sys.V
  rw [Iso.actM_sum]
  refine sum_congr (by show range b'.dof = range b.dof; rw [h.dof]) fun j hj => ?_
  rw [h.jw hi hi' k (mem_range.1 hj), Iso.actM_smul]

theorem itot (h : b.Moved b' X) (k : ℕ) : b'.fresh.Itot k = b.fresh.Itot k := by
  unfold Sys.Itot
  show (match b'.load k with
    | none => (b'.rb k).inertia
    | some L => (b'.rb k).inertia.add L) = _
  rw [h.load, h.rb]
  rfl

theorem iw (h : b.Moved b' X) (hi : Inv E b) (hi' : Inv E b') {k : ℕ} (hk : k < b.dof) (m : Motion) :
    b'.fresh.Iw k (X.actM m) = X.actF (b.fresh.Iw k m) := by
  have hT : (b.freshTw k).Valid := by
    have := hi.wf.Tw_valid k hk; rwa [fresh_Tw hk] at this
  have hT' : (X * b.freshTw k).Valid := h.rigid.mul hT
  unfold Sys.Iw
  rw [fresh_Tw hk, fresh_Tw (show k < b'.dof by rw [h.dof]; exact hk), h.tw hi.tree hi'.tree k hk,
    h.itot]
  have e : (X * b.freshTw k).inv.actM (X.actM m) = (b.freshTw k).inv.actM m := by
    conv_lhs => rw [← hT.actM_inv m, ← Iso.actM_mul _ _ h.rigid]
    exact hT'.inv_actM _
  rw [e, Iso.actF_mul _ _ h.rigid]

theorem vel (h : b.Moved b' X) : b'.vel = b.vel := by unfold Body.vel; rw [h.dq]

theorem bias (h : b.Moved b' X) (hi : Inv E b) (hi' : Inv E b') (k : ℕ) :
    b'.fresh.bias k = X.actM (b.fresh.bias k) := by
  unfold Sys.bias
  rw [Iso.actM_sum]
  refine sum_congr (by show range b'.dof = range b.dof; rw [h.dof]) fun j hj => ?_
  show b'.vel j • (b'.fresh.V b'.vel j).crossM _ = X.actM (b.vel j • (b.fresh.V b.vel j).crossM _)
  rw [h.vel, h.jw hi hi' k (mem_range.1 hj), h.v hi hi', Iso.actM_smul, h.rigid.actM_crossM]

theorem genForce (h : b.Moved b' X) (hi : Inv E b) (hi' : Inv E b') {F F' : ℕ → Force}
    (hF : ∀ k < b.dof, F' k = X.actF (F k)) {i : ℕ} (hib : i < b.dof) :
    b'.fresh.genForce F' i = b.fresh.genForce F i := by
  unfold Sys.genForce
  refine sum_congr (by show range b'.dof = range b.dof; rw [h.dof]) fun k hk => ?_
  rw [h.jw hi hi' k hib, hF k (mem_range.1 hk), h.rigid.dot_act]

theorem mass (h : b.Moved b' X) (hi : Inv E b) (hi' : Inv E b') {i j : ℕ} (hib : i < b.dof)
    (hjb : j < b.dof) : b'.fresh.massSpec i j = b.fresh.massSpec i j := by
  refine h.genForce hi hi' (F' := fun k => b'.fresh.Iw k (b'.fresh.Jw k j))
    (F := fun k => b.fresh.Iw k (b.fresh.Jw k j)) (fun k hk => ?_) hib
  rw [h.jw hi hi' k hjb, h.iw hi hi' hk]

theorem coriolis (h : b.Moved b' X) (hi : Inv E b) (hi' : Inv E b') {i : ℕ} (hib : i < b.dof) :
    b'.fresh.coriolisSpec i = b.fresh.coriolisSpec i := by
  refine h.genForce hi hi' (fun k hk => ?_) hib
  show b'.fresh.Iw k (b'.fresh.bias k) + (b'.fresh.V b'.vel k).crossF (b'.fresh.Iw k
    (b'.fresh.V b'.vel k)) = X.actF (_ + (b.fresh.V b.vel k).crossF (b.fresh.Iw k
    (b.fresh.V b.vel k)))
  rw [h.bias hi hi', h.vel, h.v hi hi', h.iw hi hi' hk, h.iw hi hi' hk, Iso.actF_add,
    h.rigid.actF_crossF]

theorem gravity (h : b.Moved b' X) (hi : Inv E b) (hi' : Inv E b') {i : ℕ} (hib : i < b.dof) :
    b'.fresh.gravitySpec i = b.fresh.gravitySpec i := by
  refine h.genForce hi hi' (fun k hk => ?_) hib
  have e : -b'.fresh.g = X.actM (-b.fresh.g) := by
    show -(⟨b'.g, 0⟩ : Motion) = X.actM (-⟨b.g, 0⟩)
    rw [h.g, Iso.actM_neg]
    congr 1
    ext <;> simp [Iso.actM]
  show b'.fresh.Iw k (-b'.fresh.g) = _
  rw [e, h.iw hi hi' hk]

theorem ext (h : b.Moved b' X) (hi : Inv E b) (hi' : Inv E b') (fext : FExt) {i : ℕ}
    (hib : i < b.dof) :
    b'.fresh.extSpec (fun k => (fext k).map X.actF) i = b.fresh.extSpec fext i := by
  unfold Sys.extSpec
  rw [h.genForce hi hi' (F := fun k => (fext k).getD 0) (fun k hk => ?_) hib]
  show ((fext k).map X.actF).getD 0 = X.actF ((fext k).getD 0)
  cases fext k <;> simp

theorem id (h : b.Moved b' X) (hi : Inv E b) (hi' : Inv E b') (ddq : ℕ → ℝ) (fext : FExt)
    (cc g : Bool) {i : ℕ} (hib : i < b.dof) :
    b'.fresh.idSpec ddq (fun k => (fext k).map X.actF) cc g i = b.fresh.idSpec ddq fext cc g i := by
  unfold Sys.idSpec
  rw [h.coriolis hi hi' hib, h.gravity hi hi' hib, h.ext hi hi' fext hib]
  congr 3
  refine sum_congr (by show range b'.dof = range b.dof; rw [h.dof]) fun j hj => ?_
  rw [h.mass hi hi' hib (mem_range.1 hj)]

theorem massive (h : b.Moved b' X) (ht : b.Tree) (ht' : b'.Tree) (hm : b.Massive) : b'.Massive := by
  classical
  have hp : b'.parts = b.parts := by unfold Body.parts; rw [h.rb, h.load]
  have hl : b'.linkMass = b.linkMass := by unfold Body.linkMass; rw [hp]
  have hpar : b'.par = b.par := by unfold Body.par; rw [h.rb]
  refine ⟨?_, ?_, ?_, ?_⟩
  · rw [h.dof, hp]; exact hm.symm
  · rw [h.dof, hp]; exact hm.nonneg
  · rw [h.dof, hl, h.load]; exact hm.merge
  · intro k hk hid
    have hk' : k < b.dof := by rw [h.dof] at hk; exact hk
    have := hm.tree k hk' (by rw [h.rb] at hid; exact hid)
    rw [ht.sum_sub hk'] at this
    rw [ht'.sum_sub hk, h.dof, hl, hpar]
    exact this

end Body.Moved

/-- C76, kinematics: the links move along with the base. -/
theorem C76_poses (h : Reach E b d) (h' : Reach E b' d') (hX : b.Moved b' X) {i : ℤ} {k : ℕ}
    (hk : b.LinkIdx i k) {T T' : Iso × Body} (hT : b.tToWorld i = .ok T)
    (hT' : b'.tToWorld i = .ok T') : T'.1 = X * T.1 := by
  have hk' : b'.LinkIdx i k := by unfold Body.LinkIdx; rw [hX.dof]; exact hk
  unfold Body.tToWorld at hT hT'
  rw [hk.index] at hT
  rw [hk'.index] at hT'
  rw [← Out.ok.inj hT, ← Out.ok.inj hT']
  show b'.viewTw k = X * b.viewTw k
  rw [h.inv.viewTw k hk.1, h'.inv.viewTw k hk'.1, hX.tw h.inv.tree h'.inv.tree k hk.1]

/-- C76, Jacobians: the columns are turned with the base. -/
theorem C76_jacobian (h : Reach E b d) (h' : Reach E b' d') (hX : b.Moved b' X) {i : ℤ} {k : ℕ}
    (hk : b.LinkIdx i k) {x : Vec3} {J J' : (ℕ → Motion) × Body} (hJ : b.jacobian i x = .ok J)
    (hJ' : b'.jacobian i x = .ok J') {j : ℕ} (hj : j < b.dof) :
    (J'.1 j).lin = X.R.mulVec (J.1 j).lin ∧ (J'.1 j).ang = X.R.mulVec (J.1 j).ang := by
  have hk' : b'.LinkIdx i k := by unfold Body.LinkIdx; rw [hX.dof]; exact hk
  rw [jacobian_val h.inv hk hJ, jacobian_val h'.inv hk' hJ', hX.jw h.inv h'.inv k hj,
    hX.tw h.inv.tree h'.inv.tree k hk.1]
  generalize b.fresh.Jw k j = m
  have e : (X * b.freshTw k).app x = X.R.mulVec ((b.freshTw k).app x) + X.t := by
    simp only [Iso.app, Iso.mul_R, Iso.mul_t, ← Mat3.mulVec_mulVec, Mat3.mulVec_add]
    abel
  rw [e]
  generalize (b.freshTw k).app x = p
  constructor
  · simp only [Motion.atPoint, Iso.actM, Mat3.mulVec_add, ← hX.rigid.cross, Vec3.cross_add]
    abel
  · rfl

/-- C76, joint-space dynamics: nothing changes, when external forces are turned along. -/
theorem C76_dynamics (h : Reach E b d) (h' : Reach E b' d') (hX : b.Moved b' X) (hm : b.Massive)
    (fext : FExt) {i : ℕ} (hi : i < b.dof) :
    (∀ j < b.dof, b'.inertia.1 i j = b.inertia.1 i j) ∧
    b'.centrifugalCoriolis.1 i = b.centrifugalCoriolis.1 i ∧
    b'.gravity.1 i = b.gravity.1 i ∧
    (b'.externalTorques fun k => (fext k).map X.actF).1 i = (b.externalTorques fext).1 i ∧
    ∀ (ddq : ℕ → ℝ) (o : IDOpts),
      (b'.inverseDynamics ddq (fun k => (fext k).map X.actF) o).1 i =
        (b.inverseDynamics ddq fext o).1 i := by
  have hm' := hX.massive h.inv.tree h'.inv.tree hm
  have hi' : i < b'.dof := by rw [hX.dof]; exact hi
  refine ⟨fun j hj => ?_, ?_, ?_, ?_, fun ddq o => ?_⟩
  · rw [inertia_entry h hm i j hi hj, inertia_entry h' hm' i j hi' (by rw [hX.dof]; exact hj),
      hX.mass h.inv h'.inv hi hj]
  · rw [(centrifugalCoriolis_run h.inv).2 i hi, (centrifugalCoriolis_run h'.inv).2 i hi',
      hX.coriolis h.inv h'.inv hi]
  · rw [(gravity_run h.inv).2 i hi, (gravity_run h'.inv).2 i hi', hX.gravity h.inv h'.inv hi]
  · rw [(externalTorques_run h.inv fext).2 i hi, (externalTorques_run h'.inv _).2 i hi',
      hX.ext h.inv h'.inv fext hi]
  · rw [inverseDynamics_val h.inv hm.symI (hm.posMass h.inv.tree) ddq fext o i hi,
      inverseDynamics_val h'.inv hm'.symI (hm'.posMass h'.inv.tree) ddq _ o i hi']
    have key := hX.id h.inv h'.inv ddq fext o.cc o.gravity hi
    unfold Sys.addFriction Sys.friction
    have hfr : b'.fresh.fr = b.fresh.fr := by
      unfold Body.fresh Body.sysWith
      simp only [hX.rb]
    have hdq : b'.fresh.dq = b.fresh.dq := by
      show b'.vel = b.vel
      exact hX.vel
    rw [hfr, hdq]
    cases o.friction
    · simpa using key
    · simp only [if_true]
      rw [key]

/-- C76, forward dynamics. -/
theorem C76_forward (h : Reach E b d) (h' : Reach E b' d') (hX : b.Moved b' X) (hm : b.Massive)
    (hn : DefiniteForm b.dof b.inertia.1) (tau : ℕ → ℝ) (fext : FExt) (o : FDOpts) {i : ℕ}
    (hi : i < b.dof) :
    (b'.fd E tau (fun k => (fext k).map X.actF) o).1 i = (b.fd E tau fext o).1 i := by
  have hm' := hX.massive h.inv.tree h'.inv.tree hm
  have hn' : DefiniteForm b'.dof b'.inertia.1 := by
    rw [hX.dof]
    exact hn.congr fun i hi j hj => ((C76_dynamics h h' hX hm fext hi).1 j hj).symm
  refine Sys.solve_unique (fresh_det h hm hn) (fun k hk => ?_) i hi
  rw [fd_solves h hm hn tau fext o k hk]
  have hk' : k < b'.dof := by rw [hX.dof]; exact hk
  have h1 := fd_solves h' hm' hn' tau (fun k => (fext k).map X.actF) o k hk'
  rw [hX.dof] at h1
  have h2 : ∑ j ∈ range b.dof, b'.fresh.massSpec k j *
      (b'.fd E tau (fun k => (fext k).map X.actF) o).1 j =
      ∑ j ∈ range b.dof, b.fresh.massSpec k j *
      (b'.fd E tau (fun k => (fext k).map X.actF) o).1 j :=
    sum_congr rfl fun j hj => by rw [hX.mass h.inv h'.inv hk (mem_range.1 hj)]
  rw [← h2, h1]
  have key := hX.id h.inv h'.inv (fun _ => 0) fext o.cc o.gravity hk
  have hfr : b'.fresh.fr = b.fresh.fr := by
    unfold Body.fresh Body.sysWith
    simp only [hX.rb]
  have hdq : b'.fresh.dq = b.fresh.dq := by
    show b'.vel = b.vel
    exact hX.vel
  unfold Sys.fdRhs Sys.friction
  rw [hfr, hdq]
  cases o.friction
  · simp only [Bool.false_eq_true, if_false]; rw [key]
  · simp only [if_true]; rw [key]

/-! ## Witness -/

/-- A quarter turn about x, and a displacement. -/
def shiftX : Iso := ⟨tiltX.R, ⟨1, 2, 3⟩⟩

theorem shiftX_valid : shiftX.Valid := tiltX_valid

/-- The witness body, on a base moved by `shiftX`. -/
noncomputable def movedDemo : Body :=
  { demo with
    T0 := shiftX
    c := (((((init cache0).setBase shiftX).c.expand 0).expand 1).expand 2).clearQ.clearDq }

/-- The hypotheses of C76 hold for the moving witness body with a load, and a base that is turned
and displaced. -/
example (E : Ext) : ∃ d d' b', Reach E demoLoaded d ∧ Reach E b' d' ∧
    demoLoaded.Moved b' shiftX ∧ demoLoaded.Massive ∧
    DefiniteForm demoLoaded.dof demoLoaded.inertia.1 := by
  obtain ⟨d, h⟩ := demoLoaded_reach E
  have h1 : Reach E ((init cache0).setBase shiftX) _ :=
    (Reach.init cache0).step (.setBase shiftX) ⟨shiftX_valid, rfl⟩ rfl
  obtain ⟨d1, h2⟩ : ∃ d, Reach E movedDemo d := by
    refine reach_execAll demoOps h1 ?_ ?_
    · intro op hop
      simp only [demoOps, List.mem_cons, List.not_mem_nil, or_false] at hop
      rcases hop with rfl | rfl | rfl | rfl | rfl <;> first | trivial | exact quarterTurn_valid
    · simp [demoOps, execAll, Op.exec, Op.step, addRigidBody, setQ, setDq, Out.map, Out.bind, init,
        dof, pushSub, demo, movedDemo, setBase]
  have h3 : Reach E (movedDemo.addLoad unitInertia 2) _ := h2.step (.addLoad unitInertia 2) trivial rfl
  have h4 : Reach E ((movedDemo.addLoad unitInertia 2).setG (shiftX.R.mulVec demo.g)) _ :=
    h3.step (.setG _) trivial rfl
  exact ⟨d, _, _, h, h4, ⟨shiftX_valid, rfl, rfl, rfl, rfl, (mul_one shiftX).symm, rfl⟩,
    demoLoaded_definite.massive h.inv.tree, demoLoaded_definite.form h⟩

end SpatialDyn
