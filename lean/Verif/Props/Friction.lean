import Verif.Props.Forward

/-!
# Joint friction (C32, C52)

`Coef j c v s` says that joint `j` has finite friction coefficients: Coulomb `c`, viscous `v`,
stiction `s`.
-/

namespace SpatialDyn
open Finset Body
open Sys (signum frictionJoint)

variable {E : Ext} {b : Body} {d : Bool}

/-- Finite, nonnegative friction coefficients. -/
structure Coef (j : Joint) (c v s : ℝ) : Prop where
  coulomb : j.fCoulomb = .fin c
  viscous : j.fViscous = .fin v
  stiction : j.fStiction = .fin s
  c0 : 0 ≤ c
  v0 : 0 ≤ v
  s0 : 0 ≤ s

/-- A joint is at rest up to the threshold. -/
def Slow (x eps : ℝ) : Prop := |x| ≤ eps

theorem signum_slow {x eps : ℝ} (h : Slow x eps) : signum x eps = 0 := by
  unfold signum
  obtain ⟨h1, h2⟩ := abs_le.1 h
  rw [if_neg (not_lt.2 h2), if_neg (not_lt.2 h1)]

theorem signum_zero (x : ℝ) : signum x 0 = if 0 < x then 1 else if x < 0 then -1 else 0 := by
  unfold signum
  rw [neg_zero]

theorem friction_joint (b : Body) (tau : ℕ → ℝ) (comp : Bool) (eps : ℝ) (i : ℕ) {c v s : ℝ}
    (hc : Coef (b.rb i).joint c v s) :
    b.friction tau comp eps i = frictionJoint ⟨c, v, s⟩ (b.vel i) (tau i) comp eps := by
  show frictionJoint (fric (b.rb i).joint) _ _ _ _ = _
  unfold fric
  rw [hc.coulomb, hc.viscous, hc.stiction]
  rfl

/-- C32: at rest, the dry friction resisting a torque is the torque itself up to the limit `c + s`,
and the limit in the direction of the torque beyond that. -/
theorem C32_rest (tau : ℕ → ℝ) {eps : ℝ} {i : ℕ} {c v s : ℝ} (hc : Coef (b.rb i).joint c v s)
    (hq : Slow (b.vel i) eps) :
    b.friction tau false eps i - v * b.vel i =
      if |tau i| ≤ c + s then tau i else if 0 < tau i then c + s else -(c + s) := by
  rw [friction_joint b tau false eps i hc]
  unfold frictionJoint
  simp only [signum_slow hq, mul_zero, if_true, Bool.not_false]
  rw [signum_zero, add_sub_cancel_left]
  rcases lt_trichotomy (tau i) 0 with h | h | h
  · rw [abs_of_neg h, if_neg (not_lt.2 h.le), if_pos h, if_neg (not_lt.2 h.le)]
    by_cases hm : -tau i ≤ c + s
    · rw [if_pos hm, min_eq_right hm]; ring
    · rw [if_neg hm, min_eq_left (not_le.1 hm).le]; ring
  · rw [h]
    have := add_nonneg hc.c0 hc.s0
    simp [this]
  · rw [abs_of_pos h, if_pos h]
    by_cases hm : tau i ≤ c + s
    · rw [if_pos hm, min_eq_right hm]; ring
    · rw [if_neg hm, min_eq_left (not_le.1 hm).le, if_pos h]; ring

/-- C32: at rest, dry friction never exceeds the driving torque, never exceeds the limit, and never
reverses the torque. -/
theorem C32_rest_bounds (tau : ℕ → ℝ) {eps : ℝ} {i : ℕ} {c v s : ℝ}
    (hc : Coef (b.rb i).joint c v s) (hq : Slow (b.vel i) eps) :
    |b.friction tau false eps i - v * b.vel i| ≤ |tau i| ∧
    |b.friction tau false eps i - v * b.vel i| ≤ c + s ∧
    0 ≤ (tau i - (b.friction tau false eps i - v * b.vel i)) * tau i := by
  rw [C32_rest tau hc hq]
  have hcs := add_nonneg hc.c0 hc.s0
  by_cases hm : |tau i| ≤ c + s
  · simp only [hm, if_true]
    simp [hm]
  · simp only [hm, if_false]
    have hm := not_le.1 hm
    by_cases h : 0 < tau i
    · rw [abs_of_pos h] at hm
      simp only [h, if_true, abs_of_nonneg hcs, abs_of_pos h]
      refine ⟨hm.le, le_rfl, mul_nonneg (by linarith) h.le⟩
    · have h' := not_lt.1 h
      rw [abs_of_nonpos h'] at hm
      simp only [h, if_false, abs_neg, abs_of_nonneg hcs, abs_of_nonpos h']
      refine ⟨hm.le, le_rfl, ?_⟩
      nlinarith

/-- C32: moving with Coulomb friction, the friction torque is `v dq ± c` with the sign of the
velocity, so it dissipates power `v dq² + c |dq|`. -/
theorem C32_moving_partial (tau : ℕ → ℝ) (comp : Bool) {eps : ℝ} {i : ℕ} {c v s : ℝ}
    (hc : Coef (b.rb i).joint c v s) (heps : 0 ≤ eps) (hq : ¬Slow (b.vel i) eps) (hpos : 0 < c) :
    b.vel i * b.friction tau comp eps i = v * b.vel i ^ 2 + c * |b.vel i| ∧
    0 ≤ b.vel i * b.friction tau comp eps i := by
  have key : b.vel i * b.friction tau comp eps i = v * b.vel i ^ 2 + c * |b.vel i| := by
    rw [friction_joint b tau comp eps i hc]
    unfold frictionJoint signum
    rcases lt_or_ge eps (b.vel i) with h | h
    · have hp : 0 < b.vel i := lt_of_le_of_lt heps h
      simp only [h, if_true, mul_one, hpos.ne', if_false, abs_of_pos hp]
      ring
    · have h2 : b.vel i < -eps := by
        by_contra hcon
        exact hq (abs_le.2 ⟨not_lt.1 hcon, h⟩)
      have hn : b.vel i < 0 := by linarith
      simp only [not_lt.2 h, if_false, h2, if_true, abs_of_neg hn]
      have : c * -1 ≠ 0 := by simp [hpos.ne']
      simp only [this, if_false]
      ring
  refine ⟨key, ?_⟩
  rw [key]
  have := hc.v0
  positivity

/-- C32: compensation adds the full static limit in the direction of the torque at rest. -/
theorem C32_compensate (tau : ℕ → ℝ) {eps : ℝ} {i : ℕ} {c v s : ℝ}
    (hc : Coef (b.rb i).joint c v s) (hq : Slow (b.vel i) eps) :
    b.friction tau true eps i - v * b.vel i =
      if 0 < tau i then c + s else if tau i < 0 then -(c + s) else 0 := by
  rw [friction_joint b tau true eps i hc]
  unfold frictionJoint
  simp only [signum_slow hq, mul_zero, if_true, Bool.not_true, Bool.false_eq_true, if_false]
  rw [signum_zero, add_sub_cancel_left]
  split
  · ring
  · split <;> ring

/-- C32: without coefficients there is no friction. -/
theorem C32_zero (tau : ℕ → ℝ) (comp : Bool) (eps : ℝ) {i : ℕ}
    (hc : Coef (b.rb i).joint 0 0 0) : b.friction tau comp eps i = 0 := by
  rw [friction_joint b tau comp eps i hc]
  unfold frictionJoint
  cases comp with
  | true => simp
  | false =>
    have : min 0 |tau i| = 0 := min_eq_left (abs_nonneg _)
    simp [this]

/-- C32: `InverseDynamics` with friction adds the compensation torque of the torque without. -/
theorem C32_inverse_dynamics (h : Reach E b d) (hm : b.Massive) (ddq : ℕ → ℝ) (fext : FExt)
    (o : IDOpts) (hf : o.friction = true) (i : ℕ) (hi : i < b.dof) :
    (b.inverseDynamics ddq fext o).1 i =
      (b.inverseDynamics ddq fext { o with friction := false }).1 i +
      b.friction (b.inverseDynamics ddq fext { o with friction := false }).1 true o.eps i := by
  have e := inverseDynamics_val h.inv hm.symI (hm.posMass h.inv.tree) ddq fext
    { o with friction := false } i hi
  rw [inverseDynamics_val h.inv hm.symI (hm.posMass h.inv.tree) ddq fext o i hi]
  unfold Sys.addFriction at e ⊢
  simp only [Bool.false_eq_true, if_false] at e
  rw [if_pos hf]
  show _ + frictionJoint _ _ _ _ _ = _ + frictionJoint _ _ _ _ _
  rw [← e]
  rfl

/-! ## Violation: stiction acts at speed when there is no Coulomb friction -/

namespace Body

/-- A vertically sliding joint with stiction `s` and no other friction. -/
noncomputable def stickJoint (s : ℝ) : Joint := { mkJoint .pz with fStiction := .fin s }

/-- One link on that joint at speed `w`. -/
noncomputable def sticky (s w : ℝ) : Body where
  rbs := [{ ({ T := 1, inertia := unitInertia, joint := stickJoint s } : RB) with
    id := 0, idParent := -1 }]
  q := [0]
  dq := [w]
  g := ⟨0, 0, -9.81⟩
  load := fun _ => none
  T0 := 1
  inertiaBase := ⟨1, 0, 0⟩
  anc := [[0]]
  sub := [[0]]
  c := if w = 0 then (init cache0).c.expand 0 else ((init cache0).c.expand 0).clearDq

theorem sticky_reach (E : Ext) (s w : ℝ) : ∃ d, Reach E (sticky s w) d := by
  refine reach_execAll [.addRigidBody { T := 1, inertia := unitInertia, joint := stickJoint s } (-1),
    .setDq [w]] (Reach.init cache0) ?_ ?_
  · intro op hop
    simp only [List.mem_cons, List.not_mem_nil, or_false] at hop
    rcases hop with rfl | rfl
    · exact Iso.valid_one
    · trivial
  · by_cases hw : w = 0
    · simp [execAll, Op.exec, Op.step, addRigidBody, Out.map, Out.bind, init, dof, pushSub, sticky,
        setDq, hw]
    · simp [execAll, Op.exec, Op.step, addRigidBody, Out.map, Out.bind, init, dof, pushSub, sticky,
        setDq, hw, eq_comm]

theorem sticky_coef {s w : ℝ} (hs : 0 ≤ s) : Coef ((sticky s w).rb 0).joint 0 0 s :=
  ⟨rfl, rfl, rfl, le_rfl, le_rfl, hs⟩

theorem sticky_definite (s w : ℝ) : (sticky s w).Definite := by
  have hl : ∀ k < (sticky s w).dof, k = 0 := by intro k hk; have : k < 1 := hk; omega
  refine ⟨fun k hk => ?_, fun k hk => ?_, fun k hk v hv => ?_, fun k hk L hL => ?_, fun k hk h0 => ?_⟩
  · rw [hl k hk]; show 0 < unitInertia.mass; norm_num [unitInertia]
  · rw [hl k hk]; exact unitInertia_phys.2.1
  · rw [hl k hk]; exact unitInertia_pd v hv
  · cases hL
  · rw [hl k hk] at h0
    have := congrArg (fun m : Motion => m.lin.z) h0
    simp [sticky, rb, stickJoint, mkJoint, JType.subspace] at this

end Body

/-- Negation of "friction opposes motion": with stiction but no Coulomb friction, a joint moving at
speed 1 is driven, not braked, by its friction when the applied torque brakes it. -/
theorem C32_violated (E : Ext) : ∃ (b : Body) (d : Bool), Reach E b d ∧
    Coef (b.rb 0).joint 0 0 1 ∧ ¬Slow (b.vel 0) 0.01 ∧
    b.vel 0 * b.friction (fun _ => -1) false 0.01 0 < 0 := by
  obtain ⟨d, h⟩ := sticky_reach E 1 1
  refine ⟨sticky 1 1, d, h, sticky_coef zero_le_one, ?_, ?_⟩
  · show ¬|(1 : ℝ)| ≤ 0.01
    norm_num
  · rw [friction_joint _ _ _ _ _ (sticky_coef zero_le_one)]
    show (1 : ℝ) * frictionJoint ⟨0, 0, 1⟩ 1 (-1) false 0.01 < 0
    norm_num [frictionJoint, signum]

/-! ## C52: static friction holds a resting body -/

/-- C52: if at every joint the torque not needed to hold the body at rest is within the static limit,
`ForwardDynamics` with friction returns zero acceleration. -/
theorem C52_holds_partial (h : Reach E b d) (hm : b.Massive) (hn : DefiniteForm b.dof b.inertia.1)
    (tau : ℕ → ℝ) (fext : FExt) (o : FDOpts) (hf : o.friction = true) (heps : 0 ≤ o.eps)
    (hrest : ∀ i < b.dof, b.vel i = 0)
    (hlim : ∀ i < b.dof, ∃ c v s, Coef (b.rb i).joint c v s ∧ |tau i -
      (b.inverseDynamics (fun _ => 0) fext ⟨o.gravity, o.cc, false, o.eps⟩).1 i| ≤ c + s)
    (i : ℕ) (hi : i < b.dof) : (b.fd E tau fext o).1 i = 0 := by
  refine Sys.solve_unique (y := fun _ => 0) (fresh_det h hm hn) (fun k hk => ?_) i hi
  rw [fd_solves h hm hn tau fext o k hk]
  simp only [mul_zero, sum_const_zero]
  obtain ⟨c, v, s, hc, hle⟩ := hlim k hk
  have e := inverseDynamics_val h.inv hm.symI (hm.posMass h.inv.tree) (fun _ => 0) fext
    ⟨o.gravity, o.cc, false, o.eps⟩ k hk
  unfold Sys.addFriction at e
  simp only [Bool.false_eq_true, if_false] at e
  rw [e] at hle
  have hs : Slow (b.vel k) o.eps := by
    unfold Slow
    rw [hrest k hk, abs_zero]
    exact heps
  have hr := C32_rest (b := b)
    (fun i => tau i - b.fresh.idSpec (fun _ => 0) fext o.cc o.gravity i) hc hs
  rw [if_pos hle, hrest k hk, mul_zero, sub_zero] at hr
  unfold Sys.fdRhs
  simp only [hf, if_true]
  have : b.fresh.friction (fun i => tau i - b.fresh.idSpec (fun _ => 0) fext o.cc o.gravity i) false
      o.eps k = tau k - b.fresh.idSpec (fun _ => 0) fext o.cc o.gravity k := hr
  rw [this, sub_self]

/-- The articulated body algorithm on a single root link at rest without load, with friction on:
friction has no effect when no torque is applied, whatever gravity does. -/
theorem aba_one {σ : Sys} (hn : σ.n = 1) (hr : σ.par 0 = none) (hq : σ.dq 0 = 0) (g : Bool)
    {eps : ℝ} (heps : 0 ≤ eps) (arr0 : ℕ → VAF) (c : AbaCache) :
    (σ.aba (fun _ => 0) (fun _ => none) ⟨g, false, true, eps⟩ false false arr0 c).ddq 0 =
      -(((σ.Itot 0).matrix.app (σ.S 0)).dot (if g then (σ.Tp 0).inv.actM (-σ.g) else 0) /
        (σ.S 0).dot ((σ.Itot 0).matrix.app (σ.S 0))) := by
  have hf : σ.abaForward (fun _ => none) ⟨g, false, true, eps⟩ false arr0 0 = ⟨0, 0, 0⟩ := by
    unfold Sys.abaForward
    rw [hn]
    simp [fwdLoop, List.range_succ, Sys.abaStep, Sys.velStep, Sys.subExt, hr]
  have hi : σ.abaInit false c 0 = (σ.Itot 0).matrix := Sys.abaInit_false c 0 (by omega)
  have hfr : ∀ x : Fric, Sys.abaFriction x 0 eps 0 = 0 := by
    intro x
    have h0 : signum 0 eps = 0 := signum_slow (by unfold Slow; rw [abs_zero]; exact heps)
    have h1 : signum 0 0 = 0 := by simp [signum]
    unfold Sys.abaFriction
    simp [h0, h1]
  unfold Sys.aba
  simp only
  have hb : ∀ B0 C0, B0 0 = ((σ.Itot 0).matrix, (0 : Force)) →
      (σ.abaBackward (fun _ => 0) ⟨g, false, true, eps⟩ false c (fun i =>
        (σ.abaForward (fun _ => none) ⟨g, false, true, eps⟩ false arr0 i).a) B0 C0).2 0 =
      ⟨(σ.Itot 0).matrix.app (σ.S 0), (σ.S 0).dot ((σ.Itot 0).matrix.app (σ.S 0)), 0⟩ := by
    intro B0 C0 hB
    unfold Sys.abaBackward
    rw [hn]
    simp [bwdLoop, List.range_succ, hr, hB, Sys.abaH, Sys.abaD, Sys.abaDdq, hq, hfr]
  rw [hn]
  simp only [fwdLoop, List.range_one, List.foldl_cons, List.foldl_nil, Function.update_self]
  unfold Sys.abaLastStep
  simp only [hr]
  rw [hb _ _ (by rw [hi, hf])]
  simp only [zero_sub]

/-- Negation of C52 for `ForwardDynamicsAba`: a resting link that `ForwardDynamics` holds (its weight
is within the static limit) is let go by the articulated body algorithm, whose friction ignores
gravity. -/
theorem C52_aba_violated (E : Ext) : ∃ (b : Body) (d : Bool), Reach E b d ∧ b.Definite ∧
    (∀ i < b.dof, b.vel i = 0) ∧
    (b.fd E (fun _ => 0) (fun _ => none) ⟨true, false, true, 0.01⟩).1 0 = 0 ∧
    (b.forwardDynamicsAba (fun _ => 0) (fun _ => none) ⟨true, false, true, 0.01⟩).1 0 ≠ 0 := by
  obtain ⟨d, h⟩ := sticky_reach E 100 0
  have hd := sticky_definite 100 0
  have hm := hd.massive h.inv.tree
  have hl : ∀ k < (sticky 100 0).dof, k = 0 := by intro k hk; have : k < 1 := hk; omega
  have hv : ∀ i < (sticky 100 0).dof, (sticky 100 0).vel i = 0 := by
    intro i hi; rw [hl i hi]; rfl
  have hTp : (sticky 100 0).fresh.Tp 0 = 1 := by
    rw [fresh_Tp (b := sticky 100 0) Nat.one_pos]
    show (1 : Iso) * JType.pz.Tjoint 0 = 1
    rw [one_mul]
    ext <;> simp [JType.Tjoint]
  have hTw : (sticky 100 0).fresh.Tw 0 = 1 := by
    rw [fresh_Tw (b := sticky 100 0) Nat.one_pos]
    have := worldLoop_spec h.inv.tree.parLt (sticky 100 0).T0 (sticky 100 0).freshTp (fun _ => 1) 0
      Nat.one_pos
    rw [show (sticky 100 0).par 0 = none from rfl] at this
    refine this.trans ?_
    rw [← fresh_Tp (b := sticky 100 0) Nat.one_pos, hTp]
    exact one_mul _
  refine ⟨sticky 100 0, d, h, hd, hv, ?_, ?_⟩
  · refine C52_holds_partial h hm (hd.form h) _ _ _ rfl (by norm_num) hv (fun i hi => ?_) 0
      Nat.one_pos
    rw [hl i hi]
    refine ⟨0, 0, 100, sticky_coef (by norm_num), ?_⟩
    rw [inverseDynamics_val h.inv hm.symI (hm.posMass h.inv.tree) _ _ _ 0 Nat.one_pos]
    have e : (sticky 100 0).fresh.gravitySpec 0 = unitInertia.mass * 9.81 := by
      change ∑ k ∈ range 1, ((sticky 100 0).fresh.Jw k 0).dot ((sticky 100 0).fresh.Iw k
        (-⟨⟨0, 0, -9.81⟩, 0⟩)) = _
      rw [sum_range_one]
      unfold Sys.Jw Sys.Iw Sys.axis
      rw [if_pos Anc.refl, hTw, show (sticky 100 0).fresh.Itot 0 = unitInertia from rfl,
        show (sticky 100 0).fresh.S 0 = JType.pz.subspace from rfl]
      simp [Iso.actM, Iso.actF, Iso.inv, Mat3.mulVec, Mat3.T, Vec3.cross, Inertia.app,
        Motion.dot, unitInertia, JType.subspace]
    simp [Sys.addFriction, Sys.idSpec, Sys.extSpec, Sys.genForce, e, unitInertia]
    norm_num
  · unfold Body.forwardDynamicsAba
    simp only [h.inv.view]
    have hvd : (sticky 100 0).c.velDone = false := by simp [sticky, Cache.expand]
    have had : (sticky 100 0).c.abaDone = false := by simp [sticky, Cache.expand]
    rw [hvd, had, aba_one (σ := (sticky 100 0).fresh) rfl rfl rfl true (by norm_num), hTp,
      show (sticky 100 0).fresh.Itot 0 = unitInertia from rfl,
      show (sticky 100 0).fresh.S 0 = JType.pz.subspace from rfl,
      show (sticky 100 0).fresh.g = ⟨⟨0, 0, -9.81⟩, 0⟩ from rfl]
    rw [Inertia.matrix_app _ unitInertia_phys.2.1]
    simp [Iso.actM, Iso.inv, Mat3.mulVec, Mat3.T, Vec3.cross, Inertia.app,
        Motion.dot, Force.dot, Vec3.dot, unitInertia, JType.subspace]
    norm_num

/-- The hypotheses of C32 and C52 hold for a joint at rest with stiction. -/
example (E : Ext) : ∃ d, Reach E (sticky 100 0) d ∧ Coef ((sticky 100 0).rb 0).joint 0 0 100 ∧
    Slow ((sticky 100 0).vel 0) 0.01 := by
  obtain ⟨d, h⟩ := sticky_reach E 100 0
  refine ⟨d, h, sticky_coef (by norm_num), ?_⟩
  show |(0 : ℝ)| ≤ 0.01
  norm_num

end SpatialDyn
