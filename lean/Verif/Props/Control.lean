import Verif.Lemmas.Control
import Verif.Props.Integrate
import Verif.Props.OpsAbaFlyer

/-!
# C51, C63, C64: the operational-space controller

`PdControl`, `NearQuaternion` and Eigen's quaternions are external; what is assumed of them is
`Ctl.Law`, met by the concrete `ctl0` below.
-/

namespace SpatialDyn
open Matrix Body

variable {E : Ext} {C : Ctl} {U : C.Quat → Prop} {b : Body} {d : Bool} {T : Set ℝ}

/-! ## C51: status word and state -/

theorem isConverged_iff {thr : ℝ} {v : Vec3} : isConverged thr v = true ↔ Below thr v := by
  unfold isConverged Below
  split
  · next h => simp [h]
  · next h => simp [h, pow_two]

theorem orMask_testBit (c : Bool) (k s i : ℕ) :
    (orMask c (1 <<< k) s).testBit i = (s.testBit i || (c && decide (k = i))) := by
  unfold orMask
  cases c with
  | false => simp
  | true =>
    simp only [if_true, Nat.testBit_or, Bool.true_and, Nat.one_shiftLeft, Nat.testBit_two_pow]

theorem ctlStatus_testBit (a : CtlArgs C) (m : Measured) (s : Bool × Bool) (i : ℕ) :
    (ctlStatus C a m s).testBit i =
      match i with
      | 0 => isConverged a.xThr m.pos.2
      | 1 => isConverged a.dxThr m.dx
      | 2 => isConverged a.oriThr m.ori.2
      | 3 => isConverged a.wThr m.w
      | 4 => s.1
      | 5 => s.2
      | _ => false := by
  unfold ctlStatus maskX maskDx maskOri maskW maskSingular6 maskSingular3
  simp only [orMask_testBit]
  match i with
  | 0 => simp
  | 1 => simp
  | 2 => simp
  | 3 => simp
  | 4 => simp
  | 5 => simp
  | (n + 6) => simp

theorem opsTask_total {b' : Body} (h : Inv E b') (hd : 0 < b'.dof) {J N : DMat}
    (hJ : J.cols = b'.dof) (hN : N.rows = b'.dof ∧ N.cols = b'.dof) (ddx : ℕ → ℝ) :
    ∃ t, b'.opsTask E J ddx N = .ok t ∧ t.2.1.rows = b'.dof ∧ t.2.1.cols = b'.dof := by
  obtain ⟨tau, N', b2, hr⟩ := opsInverseDynamics_total (o := OpsOpts.make) h hJ (.inr hN) hd ddx noExt
    rfl rfl rfl
  refine ⟨(tau, N', b2), by unfold opsTask; rw [hr]; rfl, ?_⟩
  obtain ⟨l, s1, s2, s3, s4, -, -, -, -, -, hNu, -, k0, k1, k2, k3, k4, k5⟩ :=
    opsInverseDynamics_parts h hr
  obtain ⟨s, -, hNu⟩ := Out.bind_ok hNu
  obtain ⟨-, -, hNu⟩ := Out.bind_ok hNu
  have hz : N.size ≠ 0 := by
    unfold DMat.size; rw [hN.1, hN.2]; exact (Nat.mul_pos hd hd).ne'
  simp only [if_neg hz, Out.ok.injEq, Prod.mk.injEq, Option.some.injEq] at hNu
  rw [← hNu.1]
  exact ⟨k4.dof_eq, hN.2⟩

theorem lastLink (hd : 0 < b.dof) : b.LinkIdx (-1) (b.dof - 1) := ⟨by omega, .inr ⟨by omega, by omega⟩⟩

theorem ctlMeasure_total (h : Inv E b) (hd : 0 < b.dof) (a : CtlArgs C) :
    ∃ m, b.ctlMeasure C a = .ok m := by
  obtain ⟨j, hj⟩ := jacobian_total b (lastLink hd) a.xTask
  have s1 := (jacobian_run h hj).1
  obtain ⟨b2, hx⟩ := position_of_index (h.step s1) (l := -1) (k := b.dof - 1)
    (by rw [s1.index]; exact (lastLink hd).index) a.xTask
  have s2 := s1.trans (position_run (h.step s1) hx).1
  obtain ⟨b3, ho⟩ := orientation_of_index (h.step s2) (l := -1) (k := b.dof - 1)
    (by rw [s2.index]; exact (lastLink hd).index)
  unfold ctlMeasure
  simp only [hj, Out.bind, hx, ho]
  exact ⟨_, rfl⟩

theorem ctlTorque_total (h : Inv E b) (hd : 0 < b.dof) (a : CtlArgs C) (m : Measured)
    (hq : a.qDes.length = b.dof) : ∃ t, b.ctlTorque E C a m = .ok t := by
  obtain ⟨l, hl⟩ := opsInertia_total (e := 0.01) (J := jac6 b.dof m.J) h rfl hd
  have h6 : b.opsIsSingular E (jac6 b.dof m.J) 0.01 = .ok (l.2.c.ops.singular, l.2) := by
    unfold opsIsSingular; rw [hl]; rfl
  have s1 := (opsIsSingular_run h h6).1
  have e1 := s1.dof_eq
  dsimp only at s1 e1
  have task : ∃ t, b.ctlTask E m = .ok t ∧ t.2.1.rows = b.dof ∧ t.2.1.cols = b.dof := by
    unfold ctlTask
    rw [h6]
    simp only [Out.bind]
    split
    · obtain ⟨t, ht, hN⟩ := opsTask_total (h.step s1) (by rw [e1]; exact hd)
        (J := jac3 b.dof m.J) (N := DMat.id b.dof) e1.symm ⟨e1.symm, e1.symm⟩
        (ddxDw m.pos.1 m.ori.1)
      have s2 := s1.trans (opsTask_step (h.step s1) ht)
      obtain ⟨l3, hl3⟩ := opsInertia_total (e := 0.01) (J := jac3 b.dof m.J) (h.step s2)
        (by rw [s2.dof_eq]; rfl) (by rw [s2.dof_eq]; exact hd)
      simp only [ht, opsIsSingular, hl3, Out.bind]
      exact ⟨_, rfl, by rw [hN.1, e1], by rw [hN.2, e1]⟩
    · obtain ⟨t, ht, hN⟩ := opsTask_total (h.step s1) (by rw [e1]; exact hd)
        (J := jac6 b.dof m.J) (N := DMat.id b.dof) e1.symm ⟨e1.symm, e1.symm⟩
        (ddxDw m.pos.1 m.ori.1)
      simp only [ht]
      exact ⟨_, rfl, by rw [hN.1, e1], by rw [hN.2, e1]⟩
  obtain ⟨t, ht, hN⟩ := task
  have s2 := (ctlTask_run h hd ht).1
  have e2 := s2.dof_eq
  have hneed : Out.need (a.qDes.length = t.2.2.2.dof) = .ok () := by
    unfold Out.need
    rw [if_pos]
    rw [e2]; exact hq
  unfold ctlTorque
  rw [ht]
  simp only [Out.bind, jointPd, hneed]
  obtain ⟨j, hj, -⟩ := opsTask_total (h.step s2) (by rw [e2]; exact hd) (J := DMat.id b.dof)
    (N := t.2.1) e2.symm ⟨by rw [hN.1, e2], by rw [hN.2, e2]⟩
    (padFin (C.pdN t.2.2.2.dof (vecOf t.2.2.2.dof t.2.2.2.q) (vecOf t.2.2.2.dof a.qDes)
      (vecOf t.2.2.2.dof t.2.2.2.dq) a.kpKvJoint 0).1)
  simp only [hj]
  split <;> exact ⟨_, rfl⟩

/-- C51: the controller answers for every body with at least one joint, for every goal, as soon as
the desired configuration has the right size. -/
theorem C51_answers (h : Reach E b d) (hm : b.Massive) (hd : 0 < b.dof) (a : CtlArgs C)
    (hq : a.qDes.length = b.dof) : ∃ r, b.opspaceControl E C a = .ok r := by
  obtain ⟨m, hm'⟩ := ctlMeasure_total h.inv hd a
  have s1 := (ctlMeasure_run h.inv hm').1
  obtain ⟨t, ht⟩ := ctlTorque_total (h.inv.step s1) (by rw [s1.dof_eq]; exact hd) a m.1
    (by rw [s1.dof_eq]; exact hq)
  have s2 := s1.trans (ctlTorque_run (h.inv.step s1) (by rw [s1.dof_eq]; exact hd) ht).1
  unfold opspaceControl
  simp only [hm', ht, Out.bind]
  split
  · have hs : t.2.2.fresh.SymI := by rw [s2.fresh_eq]; exact hm.symI
    have hp : t.2.2.fresh.PosMass := by rw [s2.fresh_eq]; exact hm.posMass h.inv.tree
    obtain ⟨b', hb', -⟩ := integrate_scheme (h.inv.step s2) hs hp (c := cache0)
      (by constructor <;> rfl) t.1 a.dt noExt IntOpts.make
    simp only [hb']
    exact ⟨_, rfl⟩
  · exact ⟨_, rfl⟩

/-- The call taken apart. -/
theorem opspaceControl_run (h : Inv E b) (hd : 0 < b.dof) {a : CtlArgs C}
    {r : ((ℕ → ℝ) × ℕ) × Body} (hr : b.opspaceControl E C a = .ok r) :
    ∃ m t, b.ctlMeasure C a = .ok m ∧ m.2.ctlTorque E C a m.1 = .ok t ∧
      Step E b m.2 ∧ Step E b t.2.2 ∧ r.1 = (t.1, ctlStatus C a m.1 t.2.1) ∧
      (t.2.1.1 = true ↔ b.Singular E (jac6 b.dof m.1.J) 0.01) ∧
      (t.2.1.2 = true ↔ b.Singular E (jac6 b.dof m.1.J) 0.01 ∧
        b.Singular E (jac3 b.dof m.1.J) 0.01) ∧
      (a.dt ≤ 0 → r.2 = t.2.2) ∧
      (0 < a.dt → t.2.2.integrate E t.1 a.dt noExt IntOpts.make = .ok r.2) := by
  obtain ⟨m, hm, hr⟩ := Out.bind_ok hr
  obtain ⟨t, ht, hr⟩ := Out.bind_ok hr
  have s1 := (ctlMeasure_run h hm).1
  have hd1 : 0 < m.2.dof := by rw [s1.dof_eq]; exact hd
  obtain ⟨k1, k2, k3⟩ := ctlTorque_run (h.step s1) hd1 ht
  have sing : ∀ J : DMat, J.cols = b.dof → (m.2.Singular E J 0.01 ↔ b.Singular E J 0.01) := by
    intro J hJ
    constructor
    · rintro ⟨b', hb'⟩
      exact (singular_iff h s1 hJ hd hb').1 rfl
    · intro hS
      obtain ⟨l, hl⟩ := opsInertia_total (e := 0.01) (h.step s1) (J := J)
        (by rw [s1.dof_eq]; exact hJ) hd1
      have h0 : m.2.opsIsSingular E J 0.01 = .ok (l.2.c.ops.singular, l.2) := by
        unfold opsIsSingular; rw [hl]; rfl
      have := (singular_iff h s1 hJ hd h0).2 hS
      exact ⟨l.2, by rw [h0]; exact congrArg (fun s => Out.ok (s, l.2)) this⟩
  rw [s1.dof_eq] at k2 k3
  rw [sing _ rfl] at k2 k3
  rw [sing _ rfl] at k3
  refine ⟨m, t, hm, ht, s1, s1.trans k1, ?_, k2, k3, ?_, ?_⟩
  · dsimp only at hr
    split at hr
    · obtain ⟨b', -, hr⟩ := Out.bind_ok hr
      cases hr; rfl
    · cases hr; rfl
  · intro hdt
    dsimp only at hr
    rw [if_neg (not_lt.2 hdt)] at hr
    cases hr; rfl
  · intro hdt
    dsimp only at hr
    rw [if_pos hdt] at hr
    obtain ⟨b', hb', hr⟩ := Out.bind_ok hr
    cases hr
    exact hb'

/-- C51: each bit of the status word says what its mask names: position, linear velocity,
orientation and angular velocity below their thresholds (a negative threshold always counts as met),
a Jacobian that `IsSingular` calls singular, and, only then, a singular position Jacobian.  No other
bit is ever set. -/
theorem C51_status (h : Reach E b d) (hL : C.Law U) (hd : 0 < b.dof) {a : CtlArgs C}
    {r : ((ℕ → ℝ) × ℕ) × Body} (hr : b.opspaceControl E C a = .ok r) :
    ∃ J x R, b.Reads (-1) a.xTask J x R ∧
      (let V := C.turn a.quatTask (jacVel b.dof J b.dqFun)
       let K := rotJac C a.quatTask J
       (r.1.2.testBit 0 ↔ Below a.xThr (x - a.xDes)) ∧
       (r.1.2.testBit 1 ↔ Below a.dxThr V.lin) ∧
       (r.1.2.testBit 2 ↔ Below a.oriThr (C.oriErr (C.seen a.quatTask R) a.quatDes)) ∧
       (r.1.2.testBit 3 ↔ Below a.wThr V.ang) ∧
       (r.1.2.testBit 4 ↔ b.Singular E (jac6 b.dof K) 0.01) ∧
       (r.1.2.testBit 5 ↔ b.Singular E (jac6 b.dof K) 0.01 ∧ b.Singular E (jac3 b.dof K) 0.01) ∧
       ∀ i, 6 ≤ i → r.1.2.testBit i = false) := by
  obtain ⟨m, t, hm, -, -, -, hr1, h6, h3, -, -⟩ := opspaceControl_run h.inv hd hr
  obtain ⟨-, -, J, x, R, hR, hme⟩ := ctlMeasure_run h.inv hm
  refine ⟨J, x, R, hR, ?_⟩
  have hs : r.1.2 = ctlStatus C a m.1 t.2.1 := by rw [hr1]
  have hJ : m.1.J = rotJac C a.quatTask J := by rw [hme]
  rw [hJ] at h6 h3
  rw [hs]
  dsimp only
  refine ⟨?_, ?_, ?_, ?_, ?_, ?_, ?_⟩
  · rw [ctlStatus_testBit]; show isConverged _ _ = true ↔ _; rw [isConverged_iff, hme]
    dsimp only
    rw [hL.pd3_err]
  · rw [ctlStatus_testBit]; show isConverged _ _ = true ↔ _; rw [isConverged_iff, hme]
  · rw [ctlStatus_testBit]; show isConverged _ _ = true ↔ _; rw [isConverged_iff, hme]
    dsimp only
    rw [hL.pdQ_err _ _ _ _ _ 0 (0, 0) 0]
    rfl
  · rw [ctlStatus_testBit]; show isConverged _ _ = true ↔ _; rw [isConverged_iff, hme]
  · rw [ctlStatus_testBit]; exact h6
  · rw [ctlStatus_testBit]; exact h3
  · intro i hi
    rw [ctlStatus_testBit]
    obtain ⟨n, rfl⟩ : ∃ n, i = n + 6 := ⟨i - 6, by omega⟩
    rfl

/-- C51: without a positive time step the controller leaves the body as it is. -/
theorem C51_no_step (h : Reach E b d) (hd : 0 < b.dof) {a : CtlArgs C} (hdt : a.dt ≤ 0)
    {r : ((ℕ → ℝ) × ℕ) × Body} (hr : b.opspaceControl E C a = .ok r) :
    b.ObsEq r.2 ∧ r.2.inertiaBase = b.inertiaBase := by
  obtain ⟨m, t, -, -, -, s2, -, -, -, h0, -⟩ := opspaceControl_run h.inv hd hr
  rw [h0 hdt]
  refine ⟨s2.obsEq, ?_⟩
  obtain ⟨c, hc, -⟩ := s2
  rw [hc]

/-- C51: with a positive time step the body moves exactly as `Integrate` would move it under the
returned torques. -/
theorem C51_step (h : Reach E b d) (hm : b.Massive) (hd : 0 < b.dof) {a : CtlArgs C}
    (hdt : 0 < a.dt) {c : Cache} (hc : c.Clear) {r : ((ℕ → ℝ) × ℕ) × Body}
    (hr : b.opspaceControl E C a = .ok r) :
    ∃ b', b.integrate E r.1.1 a.dt noExt IntOpts.make = .ok b' ∧ r.2.q = b'.q ∧ r.2.dq = b'.dq ∧
      (let y := scheme .rk4 (b.field E c r.1.1 noExt IntOpts.make) id a.dt b.state
       r.2.q = List.ofFn y.1 ∧ r.2.dq = List.ofFn y.2) := by
  obtain ⟨m, t, -, -, -, s2, hr1, -, -, -, hi⟩ := opspaceControl_run h.inv hd hr
  have hi := hi hdt
  rw [hr1]
  obtain ⟨b', hb', hq, hrest⟩ := C33_scheme h hm hc t.1 a.dt noExt IntOpts.make rfl
  obtain ⟨c', hc', hcoh⟩ := id s2
  have hs : t.2.2.fresh.SymI := by rw [s2.fresh_eq]; exact hm.symI
  have hp : t.2.2.fresh.PosMass := by rw [s2.fresh_eq]; exact hm.posMass h.inv.tree
  obtain ⟨b2, hb2, hq2⟩ := integrate_scheme (h.inv.step s2) hs hp hc t.1 a.dt noExt IntOpts.make
  rw [hb2] at hi
  cases hi
  have hf : t.2.2.codeFilter (IntOpts.make).jointLimits = id := by
    funext y
    unfold codeFilter
    simp [IntOpts.make]
  rw [hf] at hq2
  have e1 := hq2.q
  have e2 := hq2.dq
  clear hq2 hf hb2 hs hp
  revert e1 e2
  rw [hc']
  intro e1 e2
  have e1' : r.2.q = b'.q := e1.trans hq.1.symm
  have e2' : r.2.dq = b'.dq := e2.trans hq.2.symm
  exact ⟨b', hb', e1', e2', e1'.trans hq.1, e2'.trans hq.2⟩

/-- C51: the torques do not depend on the convergence thresholds nor on the time step. -/
theorem C51_torques_alone (h : Reach E b d) (hd : 0 < b.dof) {a : CtlArgs C} {x dx o w dt : ℝ}
    {r r' : ((ℕ → ℝ) × ℕ) × Body} (hr : b.opspaceControl E C a = .ok r)
    (hr' : b.opspaceControl E C { a with xThr := x, dxThr := dx, oriThr := o, wThr := w, dt := dt } =
      .ok r') : r'.1.1 = r.1.1 := by
  obtain ⟨m, t, hm, ht, -, -, hr1, -⟩ := opspaceControl_run h.inv hd hr
  obtain ⟨m', t', hm', ht', -, -, hr1', -⟩ := opspaceControl_run h.inv hd hr'
  have e1 : m' = m := by
    have : Out.ok m' = Out.ok m := hm'.symm.trans hm
    cases this; rfl
  rw [e1] at ht'
  have e2 : t' = t := by
    have : Out.ok t' = Out.ok t := ht'.symm.trans ht
    cases this; rfl
  rw [hr1, hr1', e2]

/-- C51: gravity compensation adds exactly the torques that hold the body against gravity. -/
theorem C51_gravity (h : Reach E b d) (hd : 0 < b.dof) {a : CtlArgs C}
    {r r' : ((ℕ → ℝ) × ℕ) × Body}
    (hr : b.opspaceControl E C { a with gravityComp := false } = .ok r)
    (hr' : b.opspaceControl E C { a with gravityComp := true } = .ok r') :
    ∀ i < b.dof, r'.1.1 i = r.1.1 i + b.gravity.1 i := by
  obtain ⟨m, t, hm, ht, s1, -, hr1, -⟩ := opspaceControl_run h.inv hd hr
  obtain ⟨m', t', hm', ht', -, -, hr1', -⟩ := opspaceControl_run h.inv hd hr'
  have e1 : m' = m := by
    have : Out.ok m' = Out.ok m := hm'.symm.trans hm
    cases this; rfl
  rw [e1] at ht'
  obtain ⟨s, hs, ht⟩ := Out.bind_ok ht
  obtain ⟨ddq, hq, ht⟩ := Out.bind_ok ht
  obtain ⟨j, hj, ht⟩ := Out.bind_ok ht
  unfold ctlTorque at ht'
  rw [hs] at ht'
  simp only [Out.bind] at ht'
  rw [hq] at ht'
  simp only at ht'
  rw [hj] at ht'
  simp only [if_true] at ht'
  simp only [Bool.false_eq_true, if_false] at ht
  cases ht; cases ht'
  intro i hi
  rw [hr1, hr1']
  have hd1 : 0 < m.2.dof := by rw [s1.dof_eq]; exact hd
  have s2 := s1.trans (ctlTask_run (h.inv.step s1) hd1 hs).1
  have s3 := s2.trans (opsTask_step (h.inv.step s2) hj)
  have g1 := (gravity_run (h.inv.step s3)).2 i (by rw [s3.dof_eq]; exact hi)
  have g2 := (gravity_run h.inv).2 i hi
  rw [s3.fresh_eq] at g1
  show _ + _ = _ + _
  rw [g1, g2]

/-- C51, what the Python documentation promises of the returned `converged` fails: a body at rest
gives a truthy value whatever the goal is, since the velocity alone meets its threshold. -/
theorem C51_violated_truthy (h : Reach E b d) (hd : 0 < b.dof) {a : CtlArgs C}
    (hrest : ∀ i < b.dof, b.dq.getD i 0 = 0) (hthr : a.dxThr ≠ 0)
    {r : ((ℕ → ℝ) × ℕ) × Body} (hr : b.opspaceControl E C a = .ok r) : r.1.2 ≠ 0 := by
  obtain ⟨m, t, hm, -, -, -, hr1, -⟩ := opspaceControl_run h.inv hd hr
  obtain ⟨-, -, J, x, R, hR, hme⟩ := ctlMeasure_run h.inv hm
  have hV : jacVel b.dof J b.dqFun = 0 := by
    unfold jacVel
    refine Finset.sum_eq_zero fun j hj => ?_
    rw [show b.dqFun j = 0 from hrest j (Finset.mem_range.1 hj), zero_smul]
  have hT : (C.turn a.quatTask (0 : Motion)).lin = 0 := by
    cases a.quatTask with
    | none => rfl
    | some q => ext <;> simp [Ctl.turn, Mat3.mulVec]
  have hb : r.1.2.testBit 1 = true := by
    rw [hr1]
    dsimp only
    rw [ctlStatus_testBit]
    show isConverged _ _ = true
    rw [isConverged_iff, hme]
    dsimp only
    rw [hV, hT]
    right
    simp [Vec3.dot]
    positivity
  intro h0
  rw [h0] at hb
  simp at hb

/-- What the front end `opspace_control` hands to `ComputeOpspaceControl`. -/
theorem pyOpspaceControl_run (h : Inv E b) {k : PyCtl C} {p o : ℝ × ℝ}
    (hp : k.posThreshold = some p) (ho : k.oriThreshold = some o) {r : ((ℕ → ℝ) × ℕ) × Body}
    (hr : b.pyOpspaceControl E C k = .ok r) : ∃ b' x Q, Step E b b' ∧ b'.c.ops = b.c.ops ∧
      (∀ y, k.pos = some y → x = y) ∧
      (k.pos = none → ∃ b1, b.position (-1) (k.taskPos.getD 0) = .ok (x, b1)) ∧
      (∀ y, k.ori = some y → Q = y.goal) ∧
      (k.ori = none → ∃ R b1, b.orientation (-1) = .ok (R, b1) ∧
        Q = C.seen (k.taskOri.map OriArg.task) R) ∧
      b'.opspaceControl E C
        { xDes := x, quatDes := Q, qDes := k.joint.getD b.q, kpKvPos := k.posGains
          kpKvOri := k.oriGains, kpKvJoint := k.jointGains, xTask := k.taskPos.getD 0
          quatTask := k.taskOri.map OriArg.task
          ddxMax := k.maxPosAcc.getD 0, dwMax := k.maxOriAcc.getD 0
          xThr := p.1, dxThr := p.2, oriThr := o.1, wThr := o.2
          gravityComp := k.gravityComp, dt := k.step.getD 0 } = .ok r := by
  obtain ⟨x, hx, hr⟩ := Out.bind_ok hr
  obtain ⟨q, hq, hr⟩ := Out.bind_ok hr
  rw [hp, ho] at hr
  have s1 : Step E b x.2 ∧ x.2.c.ops = b.c.ops ∧ (∀ y, k.pos = some y → x.1 = y) ∧
      (k.pos = none → ∃ b1, b.position (-1) (k.taskPos.getD 0) = .ok (x.1, b1)) := by
    unfold pyPos at hx
    cases hk : k.pos with
    | some y =>
      rw [hk] at hx
      cases hx
      exact ⟨Step.refl h, rfl, fun _ e => by cases e; rfl, fun e => by cases e⟩
    | none =>
      rw [hk] at hx
      have := position_run h hx
      exact ⟨this.1, this.2.1, fun _ e => (by cases e), fun _ => ⟨x.2, hx⟩⟩
  obtain ⟨s1, o1, f1, f2⟩ := s1
  have s2 : Step E b q.2 ∧ q.2.c.ops = b.c.ops ∧ (∀ y, k.ori = some y → q.1 = y.goal) ∧
      (k.ori = none → ∃ R b1, b.orientation (-1) = .ok (R, b1) ∧
        q.1 = C.seen (k.taskOri.map OriArg.task) R) := by
    unfold pyOri at hq
    cases hk : k.ori with
    | some y =>
      rw [hk] at hq
      cases hq
      exact ⟨s1, o1, fun _ e => by cases e; rfl, fun e => by cases e⟩
    | none =>
      rw [hk] at hq
      obtain ⟨R, hR, hq⟩ := Out.bind_ok hq
      have := orientation_run (h.step s1) hR
      obtain ⟨i, hi, -, e⟩ := this.2.2
      rw [s1.index] at hi
      rw [s1.freshTw] at e
      obtain ⟨b1, hb1⟩ := orientation_of_index h hi
      cases hq
      exact ⟨s1.trans this.1, this.2.1.trans o1, fun _ e => (by cases e), fun _ =>
        ⟨R.1, b1, by rw [e]; exact hb1, by cases k.taskOri <;> rfl⟩⟩
  obtain ⟨s2, o2, f3, f4⟩ := s2
  exact ⟨q.2, x.1, q.1, s2, o2, f1, f2, f3, f4, hr⟩

/-- C51, the documented optional arguments `pos_threshold` and `ori_threshold` are not optional: with
either left out, the Python controller raises for every body. -/
theorem C51_violated_optional (h : Reach E b d) (hd : 0 < b.dof) {k : PyCtl C}
    (hk : k.posThreshold = none ∨ k.oriThreshold = none) :
    b.pyOpspaceControl E C k = .throws := by
  have hp : ∃ x, b.pyPos k.pos (k.taskPos.getD 0) = .ok x ∧ Step E b x.2 := by
    unfold pyPos
    cases k.pos with
    | some y => exact ⟨_, rfl, Step.refl h.inv⟩
    | none =>
      obtain ⟨b1, hb1⟩ := position_of_index h.inv (lastLink hd).index (k.taskPos.getD 0)
      exact ⟨_, hb1, (position_run h.inv hb1).1⟩
  obtain ⟨x, hx, s1⟩ := hp
  have hq : ∃ q, x.2.pyOri C k.ori (k.taskOri.map OriArg.task) = .ok q := by
    unfold pyOri
    cases k.ori with
    | some y => exact ⟨_, rfl⟩
    | none =>
      obtain ⟨b1, hb1⟩ := orientation_of_index (h.inv.step s1) (l := -1) (k := b.dof - 1)
        (by rw [s1.index]; exact (lastLink hd).index)
      simp only [hb1, Out.bind]
      exact ⟨_, rfl⟩
  obtain ⟨q, hq⟩ := hq
  unfold pyOpspaceControl
  simp only [hx, Out.bind, hq]
  rcases hk with hk | hk
  · rw [hk]
  · rw [hk]
    cases k.posThreshold <;> rfl

/-! ## C63: the controller realises its control law -/

theorem jacVel_entry (n : ℕ) (J : ℕ → Motion) (x : ℕ → ℝ) (i : ℕ) :
    (jacVel n J x).entry i = ∑ j ∈ Finset.range n, (J j).entry i * x j := by
  unfold jacVel
  induction n with
  | zero =>
    simp only [Finset.range_zero, Finset.sum_empty]
    unfold Motion.entry
    split <;> rfl
  | succ n ih =>
    rw [Finset.sum_range_succ, Finset.sum_range_succ, ← ih]
    have : ∀ (A B : Motion) (c : ℝ), (A + c • B).entry i = A.entry i + B.entry i * c := by
      intro A B c
      unfold Motion.entry
      split <;> simp [mul_comm]
    exact this _ _ _

theorem jac6_mulVec (n : ℕ) (J : ℕ → Motion) (x : ℕ → ℝ) (i : Fin 6) :
    ((jac6 n J).mat 6 n *ᵥ vec n x) i = (jacVel n J x).entry i := by
  rw [jacVel_entry, Finset.sum_range]
  rfl

theorem jac3_mulVec (n : ℕ) (J : ℕ → Motion) (x : ℕ → ℝ) (i : Fin 3) :
    ((jac3 n J).mat 3 n *ᵥ vec n x) i = (jacVel n J x).entry i := by
  rw [jacVel_entry, Finset.sum_range]
  rfl

theorem Motion.ext_entry {A B : Motion} (h : ∀ i : Fin 6, A.entry i = B.entry i) : A = B := by
  ext
  · exact h 0
  · exact h 1
  · exact h 2
  · exact h 3
  · exact h 4
  · exact h 5

theorem idSpec_gravity {cc g : Bool} (hrest : cc = true → ∀ i < b.dof, b.dq.getD i 0 = 0) :
    vec b.dof (b.fresh.idSpec (fun _ => 0) noExt cc g) =
      if g then vec b.dof b.fresh.gravitySpec else 0 := by
  funext i
  have hc : (if cc then b.fresh.coriolisSpec i else 0) = 0 := by
    split
    · next hq => exact coriolis_rest (hrest hq) i
    · rfl
  have hx : b.fresh.extSpec noExt i = 0 := by
    unfold Sys.extSpec Sys.genForce
    rw [neg_eq_zero]
    refine Finset.sum_eq_zero fun k hk => ?_
    simp [noExt, Motion.dot]
  show b.fresh.idSpec _ _ _ _ i = _
  unfold Sys.idSpec
  rw [hc, hx]
  simp only [mul_zero, Finset.sum_const_zero, zero_add]
  cases g <;> simp [vec]

/-- C63: with the returned torques the tracked point and the last link accelerate exactly as the
proportional-derivative laws ask: `-kp * error - kv * velocity` for position and orientation.  The
joint task in the nullspace does not disturb them.  Here the Jacobian, in the task frame, is not
singular, the external functions keep their promises, gravity acts if and only if it is compensated,
and the velocity-dependent torques, which the controller leaves out, vanish. -/
theorem C63_pose (h : Careful E T b d) (hm : b.Massive) (hn : DefiniteForm b.dof b.inertia.1)
    (h0 : (0 : ℝ) ∈ T) (hL : C.Law U) (hd : 0 < b.dof) {a : CtlArgs C} (ha1 : a.ddxMax ≤ 0)
    (ha2 : a.dwMax ≤ 0) {J : ℕ → Motion} {x : Vec3} {R : Mat3} (hR : b.Reads (-1) a.xTask J x R)
    (hs : ¬ b.Singular E (jac6 b.dof (rotJac C a.quatTask J)) 0.01)
    (hreg : b.Regular E T (jac6 b.dof (rotJac C a.quatTask J)))
    {r : ((ℕ → ℝ) × ℕ) × Body} (hr : b.opspaceControl E C a = .ok r) (q : FDOpts)
    (hg : q.gravity = a.gravityComp) (hq : q.friction = false)
    (hrest : q.cc = true → ∀ i < b.dof, b.dq.getD i 0 = 0) :
    let V := C.turn a.quatTask (jacVel b.dof J b.dqFun)
    C.turn a.quatTask (jacVel b.dof J (b.fd E r.1.1 noExt q).1) =
      ⟨-a.kpKvPos.1.had (x - a.xDes) - a.kpKvPos.2.had V.lin,
       -(a.kpKvOri.1 • C.oriErr (C.seen a.quatTask R) a.quatDes) - a.kpKvOri.2 • V.ang⟩ := by
  obtain ⟨m, t, hme, ht, s1, -, hr1, h6, -⟩ := opspaceControl_run h.inv hd hr
  obtain ⟨-, ops, J', x', R', hR', hm'⟩ := ctlMeasure_run h.inv hme
  obtain ⟨⟨b1, j1⟩, ⟨b2, p1⟩, ⟨b3, o1⟩⟩ := hR
  obtain ⟨⟨c1, j2⟩, ⟨c2, p2⟩, ⟨c3, o2⟩⟩ := hR'
  have eJ : J' = J := by
    have := j2.symm.trans j1; cases this; rfl
  have eX : x' = x := by
    have := p2.symm.trans p1; cases this; rfl
  have eR : R' = R := by
    have := o2.symm.trans o1; cases this; rfl
  rw [eJ, eX, eR] at hm'
  have hJ : m.1.J = rotJac C a.quatTask J := by rw [hm']
  rw [hJ] at h6
  have hf : t.2.1.1 = false := by
    cases e : t.2.1.1 with
    | false => rfl
    | true => exact absurd (h6.1 e) hs
  have key := ctlTorque_task h hm hn h0 s1 (by rw [ops]; exact h.tol) ht
    (K := jac6 b.dof (rotJac C a.quatTask J)) (by rw [hf, hJ]; rfl) hreg
  have fd := fd_matrix h.reach hm hn r.1.1 noExt q hq
  rw [idSpec_gravity hrest, hg, hr1] at fd
  dsimp only at fd
  rw [← fd] at key
  intro V
  rw [← jacVel_rot]
  apply Motion.ext_entry
  intro i
  have := congrFun key i
  rw [show (((jac6 b.dof (rotJac C a.quatTask J)).mat (jac6 b.dof (rotJac C a.quatTask J)).rows b.dof *ᵥ
      vec b.dof (b.fd E t.1 noExt q).1) i) = _ from jac6_mulVec _ _ _ i] at this
  rw [hr1]
  refine this.trans ?_
  rw [hm']
  show Motion.entry ⟨_, _⟩ i = _
  dsimp only
  congr 2
  · exact hL.pd3_acc _ _ _ _ _ _ ha1
  · rw [hL.pdQ_acc _ _ _ _ _ _ ha2, hL.pdQ_err _ _ _ _ _ 0 (0, 0) 0]
    rfl

/-- C63, singular case: the position alone is controlled, and realises its law. -/
theorem C63_position (h : Careful E T b d) (hm : b.Massive) (hn : DefiniteForm b.dof b.inertia.1)
    (h0 : (0 : ℝ) ∈ T) (hL : C.Law U) (hd : 0 < b.dof) {a : CtlArgs C} (ha1 : a.ddxMax ≤ 0)
    {J : ℕ → Motion} {x : Vec3} {R : Mat3} (hR : b.Reads (-1) a.xTask J x R)
    (hs : b.Singular E (jac6 b.dof (rotJac C a.quatTask J)) 0.01)
    (hreg : b.Regular E T (jac3 b.dof (rotJac C a.quatTask J)))
    {r : ((ℕ → ℝ) × ℕ) × Body} (hr : b.opspaceControl E C a = .ok r) (q : FDOpts)
    (hg : q.gravity = a.gravityComp) (hq : q.friction = false)
    (hrest : q.cc = true → ∀ i < b.dof, b.dq.getD i 0 = 0) :
    (C.turn a.quatTask (jacVel b.dof J (b.fd E r.1.1 noExt q).1)).lin =
      -a.kpKvPos.1.had (x - a.xDes) -
        a.kpKvPos.2.had (C.turn a.quatTask (jacVel b.dof J b.dqFun)).lin := by
  obtain ⟨m, t, hme, ht, s1, -, hr1, h6, -⟩ := opspaceControl_run h.inv hd hr
  obtain ⟨-, ops, J', x', R', hR', hm'⟩ := ctlMeasure_run h.inv hme
  obtain ⟨⟨b1, j1⟩, ⟨b2, p1⟩, ⟨b3, o1⟩⟩ := hR
  obtain ⟨⟨c1, j2⟩, ⟨c2, p2⟩, ⟨c3, o2⟩⟩ := hR'
  have eJ : J' = J := by
    have := j2.symm.trans j1; cases this; rfl
  have eX : x' = x := by
    have := p2.symm.trans p1; cases this; rfl
  have eR : R' = R := by
    have := o2.symm.trans o1; cases this; rfl
  rw [eJ, eX, eR] at hm'
  have hJ : m.1.J = rotJac C a.quatTask J := by rw [hm']
  rw [hJ] at h6
  have hf : t.2.1.1 = true := h6.2 hs
  have key := ctlTorque_task h hm hn h0 s1 (by rw [ops]; exact h.tol) ht
    (K := jac3 b.dof (rotJac C a.quatTask J)) (by rw [hf, hJ]; rfl) hreg
  have fd := fd_matrix h.reach hm hn r.1.1 noExt q hq
  rw [idSpec_gravity hrest, hg, hr1] at fd
  dsimp only at fd
  rw [← fd] at key
  rw [← jacVel_rot, hr1]
  have hall : ∀ i : Fin 3, (jacVel b.dof (rotJac C a.quatTask J) (b.fd E t.1 noExt q).1).entry i =
      ddxDw m.1.pos.1 m.1.ori.1 i := by
    intro i
    have := congrFun key i
    rw [show (((jac3 b.dof (rotJac C a.quatTask J)).mat (jac3 b.dof (rotJac C a.quatTask J)).rows
      b.dof *ᵥ vec b.dof (b.fd E t.1 noExt q).1) i) = _ from jac3_mulVec _ _ _ i] at this
    exact this
  have hp : m.1.pos.1 = -a.kpKvPos.1.had (x - a.xDes) -
      a.kpKvPos.2.had (C.turn a.quatTask (jacVel b.dof J b.dqFun)).lin := by
    rw [hm']
    exact hL.pd3_acc _ _ _ _ _ _ ha1
  rw [← hp]
  exact Vec3.ext (hall 0) (hall 1) (hall 2)

end SpatialDyn
