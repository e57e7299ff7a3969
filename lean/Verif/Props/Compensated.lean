import Verif.Props.Feedback

/-!
# C155: proportional control with damping and compensation of gravity

Torques `Gravity(q) - kp (q - goal) - kv dq`: every robot reaches the goal, with any positive gains, whatever
its joints.
-/

namespace SpatialDyn
open Finset Body OneStep Filter Topology
open scoped ContDiff

variable {E : Ext} {b : Body} {d : Bool}

/-- Kinetic energy and that of the springs. -/
noncomputable def restEnergy (b : Body) (a kp : ℕ → ℝ) (y : State b.dof) : ℝ :=
  b.total y - b.potential (fun k x => (b.twAt (padFin y.1) k).app x) + springEnergy b.dof a (fun _ => 0) kp y

/-- The torques at a state. -/
noncomputable def heldTau (b : Body) (a kp kv : ℕ → ℝ) (y : State b.dof) : Fin b.dof → ℝ :=
  fun i => b.weightAt y.1 i - kp i * (y.1 i - a i) - kv i * y.2 i

/-- The field of the robot with these torques. -/
noncomputable def heldField (E : Ext) (b : Body) (a kp kv : ℕ → ℝ) (o : IntOpts) (y : State b.dof) :
    State b.dof :=
  b.field E cache0 (padFin (heldTau b a kp kv y)) noExt o y

theorem heldTau_smooth (h : Reach E b d) (a kp kv : ℕ → ℝ) : ContDiff ℝ 1 (heldTau b a kp kv) := by
  refine contDiff_pi.2 fun i => ?_
  have h1 : ContDiff ℝ 1 fun y : State b.dof => y.1 i := (contDiff_apply ℝ ℝ i).comp contDiff_fst
  have h2 : ContDiff ℝ 1 fun y : State b.dof => y.2 i := (contDiff_apply ℝ ℝ i).comp contDiff_snd
  exact ((weight_smooth h i).sub (contDiff_const.mul (h1.sub contDiff_const))).sub (contDiff_const.mul h2)

theorem fall_smooth (h : Reach E b d) : ContDiff ℝ ∞ fun y : State b.dof =>
    b.potential fun k x => (b.twAt (padFin y.1) k).app x :=
  (potential_smooth h.inv).comp contDiff_fst

theorem restEnergy_smooth (h : Reach E b d) (a kp : ℕ → ℝ) : ContDiff ℝ ∞ (restEnergy b a kp) :=
  ((total_smooth h).sub (fall_smooth h)).add (springEnergy_smooth b.dof a _ kp)

theorem restEnergy_eq (a kp : ℕ → ℝ) (y : State b.dof) : restEnergy b a kp y =
    1 / 2 * (b.sysAt (padFin y.1) (padFin y.2)).energy2 (padFin y.2) +
      ∑ i : Fin b.dof, kp i / 2 * (y.1 i - a i) ^ 2 := by
  unfold restEnergy total springEnergy
  simp

/-- The energy bounds the states. -/
theorem restEnergy_coercive (h : Reach E b d) (hd : b.Definite) (ha : b.AxesOK) (a kp : ℕ → ℝ)
    (hk : ∀ i < b.dof, 0 < kp i) : (∀ y, 0 ≤ restEnergy b a kp y) ∧
      ∀ r, ∃ R, ∀ y, restEnergy b a kp y ≤ r → ‖y‖ ≤ R := by
  have s0 : ∀ (y : State b.dof) (i : Fin b.dof), 0 ≤ kp i / 2 * (y.1 i - a i) ^ 2 := fun y i =>
    mul_nonneg (by linarith [hk i i.2]) (sq_nonneg _)
  have k0 : ∀ y : State b.dof, 0 ≤ (b.sysAt (padFin y.1) (padFin y.2)).energy2 (padFin y.2) := fun y =>
    energy2_nonneg h.inv hd _ _
  refine ⟨fun y => ?_, fun r => ?_⟩
  · rw [restEnergy_eq]
    have := sum_nonneg fun i (_ : i ∈ univ) => s0 y i
    linarith [k0 y]
  · obtain ⟨R, hR⟩ := size_coercive h hd ha (2 * r + ∑ i : Fin b.dof, (4 * r / kp i + 2 * a i ^ 2))
    refine ⟨R, fun y hy => hR y ?_⟩
    rw [restEnergy_eq] at hy
    have t0 := sum_nonneg fun i (_ : i ∈ univ) => s0 y i
    unfold size
    refine add_le_add (by linarith) (sum_le_sum fun i _ => ?_)
    have t1 : kp i / 2 * (y.1 i - a i) ^ 2 ≤ r := by
      have := single_le_sum (fun i _ => s0 y i) (mem_univ i)
      linarith [k0 y]
    have t2 : (y.1 i - a i) ^ 2 ≤ 2 * r / kp i := by
      rw [le_div_iff₀ (hk i i.2)]; linarith
    have t3 : 4 * r / kp i = 2 * (2 * r / kp i) := by ring
    rw [t3]
    nlinarith [sq_nonneg (y.1 i - 2 * a i)]

section
variable {o : IntOpts} (h : Reach E b d) (hd : b.Definite) (ha : b.AxesOK) (hf : o.friction = false)
  (hcc : o.cc = true) (hg : o.gravity = true) (hbase : o.aba = false ∨ b.T0.R.mulVec b.g = b.g)
  (a kp kv : ℕ → ℝ)
include h hd hf

theorem heldField_smooth : ContDiff ℝ 1 (heldField E b a kp kv o) :=
  ((field_inputs h hd noExt o hf).of_le (by simp)).comp ((heldTau_smooth h a kp kv).prodMk contDiff_id)

include hcc hg hbase in
theorem heldField_val (y : State b.dof) : heldField E b a kp kv o y =
    (y.2, b.accAt b.g (padFin (heldTau b a kp kv y)) noExt true true y) := by
  have e : (if o.aba = true then b.T0.R.mulVec b.g else b.g) = b.g := by
    rcases hbase with h | h
    · simp [h]
    · split
      · exact h
      · rfl
  unfold heldField
  rw [field_val h hd cache0_clear _ _ o hf, hcc, hg, e]

include ha hcc hg hbase in
theorem held_rate (y : State b.dof) :
    fderiv ℝ (restEnergy b a kp) y (heldField E b a kp kv o y) = -∑ i : Fin b.dof, kv i * y.2 i ^ 2 := by
  have e : fderiv ℝ (restEnergy b a kp) y = fderiv ℝ b.total y - fderiv ℝ (fun y : State b.dof =>
      b.potential fun k x => (b.twAt (padFin y.1) k).app x) y +
        fderiv ℝ (springEnergy b.dof a (fun _ => 0) kp) y := by
    have d1 := (total_smooth h).differentiable (by simp) y
    have d2 := (fall_smooth h).differentiable (by simp) y
    have d3 := (springEnergy_smooth b.dof a (fun _ => 0) kp).differentiable (by simp) y
    exact ((d1.hasFDerivAt.sub d2.hasFDerivAt).add d3.hasFDerivAt).fderiv
  obtain ⟨b1, e1, n1⟩ := setQ_total (b := b) (q := List.ofFn y.1) (by simp)
  have fall : ∀ w, fderiv ℝ (fun y : State b.dof => b.potential fun k x => (b.twAt (padFin y.1) k).app x) y
      (y.2, w) = ∑ j : Fin b.dof, y.2 j * b.weightAt y.1 j := by
    intro w
    refine fderiv_curve (fall_smooth h) ((potential_line h hd ha y.1 y.2 e1).congr_deriv ?_)
    rw [sum_range]
    refine sum_congr rfl fun j _ => ?_
    obtain ⟨hs, hn, hfr, _, r⟩ := h.after_setQ e1
    rw [padFin_at, (gravity_run r.inv).2 j (by rw [hn]; exact j.2), hfr, getD_ofFn_pad]
    rfl
  have z : ∑ k ∈ range b.dof, ((b.sysAt (padFin y.1) (padFin y.2)).V (padFin y.2) k).dot
      ((noExt k).getD 0) = 0 := sum_eq_zero fun k _ => by simp [noExt, Motion.dot_zero]
  rw [e, heldField_val h hd hf hcc hg hbase, ContinuousLinearMap.add_apply, ContinuousLinearMap.sub_apply,
    total_rate h hd ha, springEnergy_rate, fall, z, add_zero, sum_range, ← sum_sub_distrib, ← sum_add_distrib,
    ← sum_neg_distrib]
  refine sum_congr rfl fun i _ => ?_
  rw [padFin_at, padFin_at]
  unfold heldTau
  ring

include hcc hg hbase in
/-- Without motion the field tells the torques of the springs. -/
theorem held_left (q : Fin b.dof → ℝ) (i : Fin b.dof) :
    -(kp i * (q i - a i)) = ∑ j : Fin b.dof,
      (b.sysAt (padFin q) fun _ => 0).massSpec i j * (heldField E b a kp kv o (q, 0)).2 j := by
  have k := springs_left (E := E) h hd hf hcc hg hbase a (fun i => padFin (fun i : Fin b.dof =>
    b.weightAt q i) i) kp kv q i.2
  have e : springField E b a (fun i => padFin (fun i : Fin b.dof => b.weightAt q i) i) kp kv o (q, 0) =
      heldField E b a kp kv o (q, 0) := by
    unfold springField heldField
    congr 2
    funext i
    simp only [springTau, heldTau]
    rw [padFin_at]
  rw [e] at k
  rw [← k, padFin_at]
  ring

end

/-- What `Gravity` answers at a position. -/
theorem weight_set (h : Reach E b d) {q : List ℝ} {b1 : Body} (e1 : b.setQ q = .ok b1) {i : ℕ}
    (hi : i < b.dof) : b1.gravity.1 i = b.weightAt (fun i : Fin b.dof => q.getD i 0) i := by
  obtain ⟨hs, hn, hfr, _, r⟩ := h.after_setQ e1
  rw [(gravity_run r.inv).2 i (by rw [hn]; exact hi), hfr, pad_getD (setQ_length e1)]
  rfl

/-- C155: proportional control with damping and compensation of gravity brings every robot to its goal,
from every state and with any positive gains.  (With `aba` the base must not turn the gravity vector, see
`C30_aba_base`.) -/
theorem C155_reaches (h : Reach E b d) (hd : b.Definite) (ha : b.AxesOK) (goal : List ℝ) {kp kv : ℕ → ℝ}
    (hk : ∀ i < b.dof, 0 < kp i) (hv : ∀ i < b.dof, 0 < kv i) {o : IntOpts} (hf : o.friction = false)
    (hcc : o.cc = true) (hg : o.gravity = true) (hbase : o.aba = false ∨ b.T0.R.mulVec b.g = b.g)
    {tau : ℝ → ℕ → ℝ} {q dq : ℝ → List ℝ} (hM : ∀ T, b.MovesWith E tau noExt o T q dq)
    (htau : ∀ t, 0 ≤ t → ∀ b1, b.setQ (q t) = .ok b1 → ∀ i < b.dof,
      tau t i = b1.gravity.1 i - kp i * ((q t).getD i 0 - goal.getD i 0) - kv i * (dq t).getD i 0) :
    ∀ ε > 0, ∃ T, ∀ t, T ≤ t → ∀ i < b.dof,
      |(q t).getD i 0 - goal.getD i 0| ≤ ε ∧ |(dq t).getD i 0| ≤ ε := by
  have hm := hd.massive h.inv.tree
  set a : ℕ → ℝ := fun i => goal.getD i 0 with hadef
  obtain ⟨hlow, hbdd⟩ := restEnergy_coercive h hd ha a kp hk
  set Y := stateOf b q dq with hYdef
  obtain ⟨-, ⟨R, hR⟩, h2, -, h4⟩ := settle_bounded (F := heldField E b a kp kv o)
    (heldField_smooth h hd hf a kp kv) (fun _ => rfl) ((restEnergy_smooth h a kp).of_le (by simp))
    (v := fun i => kv i) (fun i => hv i i.2) (held_rate h hd ha hf hcc hg hbase a kp kv) hlow hbdd
    (Y := Y) fun T t ht => by
      refine (movesWith_solves h hm (hM T) t ht).congr_deriv (field_congr h hd (fun i hi => ?_) noExt hf _)
      obtain ⟨b1, B, e1, -⟩ := hM T t ht
      rw [htau t ht.1 b1 e1 i hi, weight_set h e1 hi]
      exact (padFin_at (heldTau b a kp kv (stateOf b q dq t)) ⟨i, hi⟩).symm
  have h5 : ∀ i : Fin b.dof, Tendsto (fun t => (Y t).1 i - a i) atTop (𝓝 0) := by
    intro i
    have hs : ∀ j : Fin b.dof, Tendsto (fun t => (b.sysAt (padFin (Y t).1) fun _ => 0).massSpec i j *
        (heldField E b a kp kv o ((Y t).1, 0)).2 j) atTop (𝓝 0) := by
      intro j
      obtain ⟨K, hK⟩ := (isCompact_closedBall (0 : State b.dof) R).exists_bound_of_continuousOn
        (f := fun y : State b.dof => (b.sysAt (padFin y.1) fun _ => 0).massSpec i j)
        (massSpec_smooth (w := fun _ _ => 0) h.inv.tree
          (fun i _ => padFin_smooth contDiff_fst i) i j).continuous.continuousOn
      refine squeeze_zero_norm' (a := fun t => K *
        ‖(heldField E b a kp kv o ((Y t).1, 0)).2 j‖) ?_ ?_
      · filter_upwards [eventually_ge_atTop 0] with t ht
        rw [norm_mul]
        exact mul_le_mul_of_nonneg_right (hK (Y t) (mem_closedBall_zero_iff.2 (hR t ht))) (norm_nonneg _)
      · have := ((h4 j).norm).const_mul K
        rwa [norm_zero, mul_zero] at this
    have e : ∀ t, (Y t).1 i - a i = -(∑ j : Fin b.dof, (b.sysAt (padFin (Y t).1) fun _ => 0).massSpec i j *
        (heldField E b a kp kv o ((Y t).1, 0)).2 j) / kp i := fun t => by
      rw [← held_left h hd hf hcc hg hbase a kp kv (Y t).1 i, eq_div_iff (hk i i.2).ne']
      ring
    simp only [e]
    have := ((tendsto_finset_sum Finset.univ fun j _ => hs j).neg).div_const (kp i)
    simpa using this
  intro ε hε
  have near : ∀ {f : ℝ → ℝ}, Tendsto f atTop (𝓝 0) → ∀ᶠ t in atTop, |f t| ≤ ε :=
    fun hf => (Metric.tendsto_nhds.1 hf ε hε).mono fun t ht => by
      rw [Real.dist_eq, sub_zero] at ht; exact ht.le
  obtain ⟨T, hT⟩ := eventually_atTop.1 ((eventually_all.2 fun i => near (h2 i)).and
    (eventually_all.2 fun i => near (h5 i)))
  exact ⟨T, fun t htT i hi => ⟨(hT t htT).2 ⟨i, hi⟩, (hT t htT).1 ⟨i, hi⟩⟩⟩

/-- C155: such motions exist from every state and for all times. -/
theorem C155_motion (h : Reach E b d) (hd : b.Definite) (ha : b.AxesOK) (goal : List ℝ) {kp kv : ℕ → ℝ}
    (hk : ∀ i < b.dof, 0 < kp i) (hv : ∀ i < b.dof, 0 ≤ kv i) {o : IntOpts} (hf : o.friction = false)
    (hcc : o.cc = true) (hg : o.gravity = true) (hbase : o.aba = false ∨ b.T0.R.mulVec b.g = b.g)
    {q0 dq0 : List ℝ} (hq : q0.length = b.dof) (hdq : dq0.length = b.dof) :
    ∃ (tau : ℝ → ℕ → ℝ) (q dq : ℝ → List ℝ), q 0 = q0 ∧ dq 0 = dq0 ∧
      (∀ T, b.MovesWith E tau noExt o T q dq) ∧ ∀ t, ∀ b1, b.setQ (q t) = .ok b1 → ∀ i < b.dof,
        tau t i = b1.gravity.1 i - kp i * ((q t).getD i 0 - goal.getD i 0) - kv i * (dq t).getD i 0 := by
  have hm := hd.massive h.inv.tree
  set a : ℕ → ℝ := fun i => goal.getD i 0 with hadef
  obtain ⟨hlow, hbdd⟩ := restEnergy_coercive h hd ha a kp hk
  obtain ⟨Y, h0, hY⟩ := exists_forever (F := heldField E b a kp kv o)
    (heldField_smooth h hd hf a kp kv) ((restEnergy_smooth h a kp).of_le (by simp)) le_rfl hlow (fun y => by
      rw [held_rate h hd ha hf hcc hg hbase, zero_mul, neg_nonpos]
      exact sum_nonneg fun i _ => mul_nonneg (hv i i.2) (sq_nonneg _))
    hbdd (fun i => q0.getD i 0, fun i => dq0.getD i 0)
  have es : ∀ (v : Fin b.dof → ℝ) (i : ℕ) (hi : i < b.dof), (List.ofFn v).getD i 0 = v ⟨i, hi⟩ :=
    fun v i hi => by simp [List.getD, hi]
  refine ⟨fun t => padFin (heldTau b a kp kv (Y t)), fun t => List.ofFn (Y t).1, fun t => List.ofFn (Y t).2,
    ?_, ?_, fun T t htT => ?_, fun t b1 e1 i hi => ?_⟩
  · simp only [h0]; exact stateOf_ofFn hq
  · simp only [h0]; exact stateOf_ofFn hdq
  · obtain ⟨b1, e1, n1⟩ := setQ_total (b := b) (q := List.ofFn (Y t).1) (by simp)
    obtain ⟨B, e2, n2⟩ := setDq_total (b := b1) (q := List.ofFn (Y t).2) (by simp [n1])
    refine ⟨b1, B, e1, e2, fun i hi => ⟨?_, ?_⟩⟩
    · have := hasDerivWithinAt_pi.1 ((hasFDerivAt_fst (𝕜 := ℝ)).comp_hasDerivWithinAt t (hY T t htT)) ⟨i, hi⟩
      simp only [es _ i hi]
      exact this
    · have := hasDerivWithinAt_pi.1 ((hasFDerivAt_snd (𝕜 := ℝ)).comp_hasDerivWithinAt t (hY T t htT)) ⟨i, hi⟩
      simp only [es _ i hi]
      refine this.congr_deriv ?_
      have g := field_of_set h hm cache0_clear (padFin (heldTau b a kp kv (Y t))) noExt o e1 e2 ⟨i, hi⟩
      simp only at g
      have ey : ((fun i : Fin b.dof => (List.ofFn (Y t).1).getD i 0, fun i : Fin b.dof =>
          (List.ofFn (Y t).2).getD i 0) : State b.dof) = Y t :=
        Prod.ext (funext fun i => es _ i i.2) (funext fun i => es _ i i.2)
      rw [g, ey]
      rfl
  · rw [weight_set h e1 hi, es _ i hi, es _ i hi]
    have ey : (fun i : Fin b.dof => (List.ofFn (Y t).1).getD i 0) = (Y t).1 := funext fun i => es _ i i.2
    rw [ey]
    exact padFin_at (heldTau b a kp kv (Y t)) ⟨i, hi⟩

/-- C155: and a program that applies these torques call by call brings the robot as close to the goal as
wanted and keeps it there for as long as wanted, if the steps are short enough. -/
theorem C155_simulation (h : Reach E b d) (hd : b.Definite) (ha : b.AxesOK) (goal : List ℝ) {kp kv : ℕ → ℝ}
    (hk : ∀ i < b.dof, 0 < kp i) (hv : ∀ i < b.dof, 0 < kv i) {o : IntOpts} (hf : o.friction = false)
    (hcc : o.cc = true) (hg : o.gravity = true) (hl : o.jointLimits = false)
    (hbase : o.aba = false ∨ b.T0.R.mulVec b.g = b.g) {law : List ℝ → List ℝ → ℕ → ℝ}
    (hlaw : ∀ q dq b1, b.setQ q = .ok b1 → ∀ i < b.dof,
      law q dq i = b1.gravity.1 i - kp i * (q.getD i 0 - goal.getD i 0) - kv i * dq.getD i 0)
    {q0 dq0 : List ℝ} {b1 B : Body} (e1 : b.setQ q0 = .ok b1) (e2 : b1.setDq dq0 = .ok B) :
    ∀ ε > 0, ∃ T0 : ℝ, ∀ T : ℝ, ∃ h0 > 0, ∀ dt : ℝ, 0 < dt → dt ≤ h0 → ∀ k : ℕ, T0 ≤ k * dt → k * dt ≤ T →
      ∃ B', feedback E law dt noExt o k B = .ok B' ∧ ∀ i < b.dof,
        |B'.q.getD i 0 - goal.getD i 0| ≤ ε ∧ |B'.dq.getD i 0| ≤ ε := by
  intro ε hε
  have hm := hd.massive h.inv.tree
  have hl1 := setQ_length e1
  have hl2 : dq0.length = b.dof := by
    obtain ⟨hs, hn, -⟩ := h.after_setQ e1
    rw [← hn]
    exact setDq_length e2
  obtain ⟨tau, q, dq, hq, hdq, hM, htau⟩ := C155_motion h hd ha goal hk (fun i hi => (hv i hi).le) hf hcc hg hbase
    hl1 hl2
  obtain ⟨T0, hT0⟩ := C155_reaches h hd ha goal hk hv hf hcc hg hbase hM (fun t _ => htau t) (ε / 2) (half_pos hε)
  refine ⟨T0, fun T => ?_⟩
  have hM' : b.MovesWith E (fun t => law (q t) (dq t)) noExt o T q dq := by
    intro t ht
    obtain ⟨c1, B1, f1, f2, f3⟩ := hM T t ht
    refine ⟨c1, B1, f1, f2, fun i hi => ⟨(f3 i hi).1, (f3 i hi).2.congr_deriv ?_⟩⟩
    have g := fun w => field_of_set h hm cache0_clear w noExt o f1 f2 ⟨i, hi⟩
    simp only at g
    rw [g, g, field_congr h hd (t' := law (q t) (dq t)) (fun j hj => ?_) noExt hf]
    rw [htau t c1 f1 j hj, hlaw (q t) (dq t) c1 f1 j hj]
  obtain ⟨C, h0, hpos, hC⟩ := C146_feedback h hd (law := law) (fun i hi => by
    have g1 : ∀ v : Fin b.dof → ℝ, (List.ofFn v).getD i 0 = v ⟨i, hi⟩ := fun v => by simp [List.getD, hi]
    have e : (fun y : State b.dof => law (List.ofFn y.1) (List.ofFn y.2) i) = fun y : State b.dof =>
        heldTau b (fun i => goal.getD i 0) kp kv y ⟨i, hi⟩ := by
      funext y
      obtain ⟨c1, f1, -⟩ := setQ_total (b := b) (q := List.ofFn y.1) (by simp)
      have ey : (fun i : Fin b.dof => (List.ofFn y.1).getD i 0) = y.1 := funext fun i => by simp
      rw [hlaw _ _ c1 f1 i hi, weight_set h f1 hi, g1, g1, ey]
      rfl
    rw [e]
    exact (contDiff_pi.1 (heldTau_smooth h _ kp kv)) ⟨i, hi⟩) hf hl hM'
  refine ⟨min h0 (ε / 2 / (|C| + 1)), by positivity, fun dt d0 d1 k k0 k1 => ?_⟩
  obtain ⟨B', e3, e4⟩ := hC dt d0 (d1.trans (min_le_left _ _)) 0 le_rfl hpos.le q0 dq0 b1 B e1 e2
    (fun i _ => by rw [hq, hdq]; simp) k k1
  have hs : C * (dt + 0) ≤ ε / 2 := by
    have := (le_div_iff₀ (by positivity)).1 (d1.trans (min_le_right _ _))
    nlinarith [le_abs_self C, abs_nonneg C]
  refine ⟨B', e3, fun i hi => ?_⟩
  have g1 := e4 i hi
  have g2 := hT0 _ k0 i hi
  constructor
  · have := abs_sub_le (B'.q.getD i 0) ((q (k * dt)).getD i 0) (goal.getD i 0)
    linarith [g1.1, g2.1]
  · have := abs_sub_le (B'.dq.getD i 0) ((dq (k * dt)).getD i 0) 0
    rw [sub_zero, sub_zero] at this
    linarith [g1.2, g2.2]

/-- The hypotheses hold for a pendulum with unit gains: there is such a law, and such a motion from every
state. -/
example (E : Ext) (x w : ℝ) : ∃ d, Reach E creak d ∧ creak.Definite ∧ creak.AxesOK ∧
    (∃ law : List ℝ → List ℝ → ℕ → ℝ, ∀ q dq b1, creak.setQ q = .ok b1 → ∀ i < creak.dof,
      law q dq i = b1.gravity.1 i - 1 * (q.getD i 0 - [1].getD i 0) - 1 * dq.getD i 0) ∧
    (∃ b1 B, creak.setQ [x] = .ok b1 ∧ b1.setDq [w] = .ok B) ∧
    ∃ (tau : ℝ → ℕ → ℝ) (q dq : ℝ → List ℝ), q 0 = [x] ∧ dq 0 = [w] ∧
      (∀ T, creak.MovesWith E tau noExt { IntOpts.make with friction := false } T q dq) ∧
      ∀ t, ∀ b1, creak.setQ (q t) = .ok b1 → ∀ i < creak.dof,
        tau t i = b1.gravity.1 i - 1 * ((q t).getD i 0 - [1].getD i 0) - 1 * (dq t).getD i 0 := by
  obtain ⟨d, h⟩ := creak_reach E
  have h0 : ∀ k < creak.dof, k = 0 := fun k hk => Nat.lt_one_iff.1 hk
  have ha : creak.AxesOK := fun k hk => by rw [h0 k hk]; rfl
  obtain ⟨b1, h1, e1⟩ := setQ_total (b := creak) (q := [x]) rfl
  obtain ⟨B, h2, -⟩ := setDq_total (b := b1) (q := [w]) (by rw [e1]; rfl)
  exact ⟨d, h, creak_definite, ha,
    ⟨fun q dq i => creak.weightAt (fun i : Fin creak.dof => q.getD i 0) i -
      1 * (q.getD i 0 - [1].getD i 0) - 1 * dq.getD i 0, fun q dq c1 f1 i hi => by rw [weight_set h f1 hi]⟩,
    ⟨b1, B, h1, h2⟩,
    C155_motion h creak_definite ha [1] (fun _ _ => one_pos) (fun _ _ => zero_le_one) rfl rfl rfl (.inl rfl) rfl rfl⟩

end SpatialDyn
