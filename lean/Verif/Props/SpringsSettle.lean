import Verif.Props.SpringsRest
import Verif.Props.Hold
import Verif.Lemmas.SettleBounded

/-! C154: a robot under proportional control with damping comes to rest. -/

namespace SpatialDyn
open Finset Body OneStep Filter Topology
open scoped ContDiff

variable {E : Ext} {b : Body} {d : Bool}

/-- Torques of springs and dampers, with constant torques added. -/
noncomputable def springTau (n : ℕ) (a c kp kv : ℕ → ℝ) (y : State n) : Fin n → ℝ :=
  fun i => c i - kp i * (y.1 i - a i) - kv i * y.2 i

/-- Energy of the springs less the work of the constant torques. -/
noncomputable def springEnergy (n : ℕ) (a c kp : ℕ → ℝ) (y : State n) : ℝ :=
  ∑ i : Fin n, (kp i / 2 * (y.1 i - a i) ^ 2 - c i * (y.1 i - a i))

theorem springTau_smooth (n : ℕ) (a c kp kv : ℕ → ℝ) : ContDiff ℝ ∞ (springTau n a c kp kv) := by
  refine contDiff_pi.2 fun i => ?_
  have h1 : ContDiff ℝ ∞ fun y : State n => y.1 i := (contDiff_apply ℝ ℝ i).comp contDiff_fst
  have h2 : ContDiff ℝ ∞ fun y : State n => y.2 i := (contDiff_apply ℝ ℝ i).comp contDiff_snd
  exact (contDiff_const.sub (contDiff_const.mul (h1.sub contDiff_const))).sub (contDiff_const.mul h2)

theorem springEnergy_smooth (n : ℕ) (a c kp : ℕ → ℝ) : ContDiff ℝ ∞ (springEnergy n a c kp) := by
  refine ContDiff.sum fun i _ => ?_
  have h1 : ContDiff ℝ ∞ fun y : State n => y.1 i := (contDiff_apply ℝ ℝ i).comp contDiff_fst
  have h2 := h1.sub (contDiff_const (c := a i))
  exact (contDiff_const.mul (h2.pow 2)).sub (contDiff_const.mul h2)

theorem springEnergy_rate (a c kp : ℕ → ℝ) (y : State b.dof) (w : Fin b.dof → ℝ) :
    fderiv ℝ (springEnergy b.dof a c kp) y (y.2, w) =
      ∑ i : Fin b.dof, (kp i * (y.1 i - a i) * y.2 i - c i * y.2 i) := by
  refine fderiv_curve (springEnergy_smooth _ a c kp) ?_
  refine HasDerivAt.fun_sum fun j _ => ?_
  have l : HasDerivAt (fun s : ℝ => (y.1 + s • y.2) j - a j) (y.2 j) 0 := by
    have := (((hasDerivAt_id' (0 : ℝ)).mul_const (y.2 j)).const_add (y.1 j)).sub_const (a j)
    simpa using this
  have l2 := ((l.pow 2).const_mul (kp j / 2)).sub (l.const_mul (c j))
  refine l2.congr_deriv ?_
  simp
  ring

theorem field_congr (h : Reach E b d) (hd : b.Definite) {t t' : ℕ → ℝ} (ht : ∀ i < b.dof, t i = t' i)
    (fext : FExt) {o : IntOpts} (ho : o.friction = false) (y : State b.dof) :
    b.field E cache0 t fext o y = b.field E cache0 t' fext o y := by
  rw [field_val h hd cache0_clear _ _ _ ho, field_val h hd cache0_clear _ _ _ ho]
  unfold accAt
  rw [show vec b.dof t = vec b.dof t' from funext fun i => ht i i.2]

/-- The energy bounds the states. -/
theorem springs_coercive (h : Reach E b d) (hd : b.Definite) (ha : b.AxesOK) (ht : ∀ i < b.dof,
      (b.rb i).joint.type = .rx ∨ (b.rb i).joint.type = .ry ∨ (b.rb i).joint.type = .rz)
    (a c kp : ℕ → ℝ) (hk : ∀ i < b.dof, 0 < kp i) :
    (∃ l, ∀ y, l ≤ b.total y + springEnergy b.dof a c kp y) ∧
      ∀ r, ∃ R, ∀ y, b.total y + springEnergy b.dof a c kp y ≤ r → ‖y‖ ≤ R := by
  obtain ⟨⟨l, hl⟩, hb⟩ := total_bounds h hd ha ht
  set s : Fin b.dof → ℝ := fun i => c i ^ 2 / (2 * kp i) with hs
  have s0 : ∀ i, 0 ≤ s i := fun i => div_nonneg (sq_nonneg _) (by linarith [hk i i.2])
  have low : ∀ y, -∑ i, s i ≤ springEnergy b.dof a c kp y := fun y => by
    unfold springEnergy
    rw [← sum_neg_distrib]
    exact sum_le_sum fun i _ => (spring_low (hk i i.2) (c i) (y.1 i - a i)).1
  refine ⟨⟨l - ∑ i, s i, fun y => by linarith [hl y, low y]⟩, fun r => ?_⟩
  obtain ⟨R, hR⟩ := hb (r + ∑ i, s i)
  set W := |r| + |l| + 2 * ∑ i, s i with hW
  have S0 : 0 ≤ ∑ i, s i := sum_nonneg fun i _ => s0 i
  have W0 : 0 ≤ W := by positivity
  set ρ : ℝ := ∑ i : Fin b.dof, (|a i| + 1 + 4 * W / kp i) with hρ
  have p0 : ∀ i : Fin b.dof, 0 ≤ |a i| + 1 + 4 * W / kp i := fun i => by
    have := div_nonneg (by linarith : 0 ≤ 4 * W) (hk i i.2).le
    positivity
  refine ⟨max ρ R, fun y hy => ?_⟩
  have h2 : ‖y.2‖ ≤ R := hR y (by linarith [low y])
  have h1 : ‖y.1‖ ≤ ρ := by
    refine (pi_norm_le_iff_of_nonneg (sum_nonneg fun i _ => p0 i)).2 fun i => ?_
    refine le_trans ?_ (single_le_sum (fun i _ => p0 i) (mem_univ i))
    have hki := hk i i.2
    have e1 : springEnergy b.dof a c kp y ≤ |r| + |l| := by
      have := hl y
      have := neg_abs_le l
      have := le_abs_self r
      linarith
    have e2 : kp i / 4 * (y.1 i - a i) ^ 2 ≤ W := by
      have t1 := (spring_low hki (c i) (y.1 i - a i)).2
      have t2 : -∑ j ∈ univ.erase i, s j ≤
          ∑ j ∈ univ.erase i, (kp j / 2 * (y.1 j - a j) ^ 2 - c j * (y.1 j - a j)) := by
        rw [← sum_neg_distrib]
        exact sum_le_sum fun j _ => (spring_low (hk j j.2) (c j) (y.1 j - a j)).1
      have t3 : ∑ j, s j = s i + ∑ j ∈ univ.erase i, s j := (add_sum_erase _ _ (mem_univ i)).symm
      have t4 : 0 ≤ ∑ j ∈ univ.erase i, s j := sum_nonneg fun j _ => s0 j
      have t5 : s i = c i ^ 2 / (2 * kp i) := rfl
      have t6 : springEnergy b.dof a c kp y = (kp i / 2 * (y.1 i - a i) ^ 2 - c i * (y.1 i - a i)) +
          ∑ j ∈ univ.erase i, (kp j / 2 * (y.1 j - a j) ^ 2 - c j * (y.1 j - a j)) :=
        (add_sum_erase univ (fun j : Fin b.dof => kp j / 2 * (y.1 j - a j) ^ 2 - c j * (y.1 j - a j))
          (mem_univ i)).symm
      linarith
    have e3 : (y.1 i - a i) ^ 2 ≤ 4 * W / kp i := by
      rw [le_div_iff₀ hki]; linarith
    have e4 : |y.1 i - a i| ≤ 1 + (y.1 i - a i) ^ 2 := by
      rw [← sq_abs]
      nlinarith [sq_nonneg (|y.1 i - a i| - 1), abs_nonneg (y.1 i - a i)]
    have e5 : |y.1 i| ≤ |y.1 i - a i| + |a i| := by
      have := abs_add_le (y.1 i - a i) (a i)
      rwa [sub_add_cancel] at this
    rw [Real.norm_eq_abs]
    linarith
  rw [Prod.norm_def]
  exact max_le_max h1 h2

/-- The field of the robot with springs and dampers. -/
noncomputable def springField (E : Ext) (b : Body) (a c kp kv : ℕ → ℝ) (o : IntOpts) (y : State b.dof) :
    State b.dof :=
  b.field E cache0 (padFin (springTau b.dof a c kp kv y)) noExt o y

section
variable {o : IntOpts} (h : Reach E b d) (hd : b.Definite) (ha : b.AxesOK) (hf : o.friction = false)
  (hcc : o.cc = true) (hg : o.gravity = true) (hbase : o.aba = false ∨ b.T0.R.mulVec b.g = b.g)
  (a c kp kv : ℕ → ℝ)
include h hd hf

theorem springField_smooth : ContDiff ℝ ∞ (springField E b a c kp kv o) :=
  (field_inputs h hd noExt o hf).comp ((springTau_smooth b.dof a c kp kv).prodMk contDiff_id)

include hcc hg hbase in
theorem springField_val (y : State b.dof) : springField E b a c kp kv o y =
    (y.2, b.accAt b.g (padFin (springTau b.dof a c kp kv y)) noExt true true y) := by
  have e : (if o.aba = true then b.T0.R.mulVec b.g else b.g) = b.g := by
    rcases hbase with h | h
    · simp [h]
    · split
      · exact h
      · rfl
  unfold springField
  rw [field_val h hd cache0_clear _ _ o hf, hcc, hg, e]

include ha hcc hg hbase in
theorem springs_rate (y : State b.dof) :
    fderiv ℝ (fun y => b.total y + springEnergy b.dof a c kp y) y (springField E b a c kp kv o y) =
      -∑ i : Fin b.dof, kv i * y.2 i ^ 2 := by
  have e := fderiv_fun_add (𝕜 := ℝ) ((total_smooth h).differentiable (by simp) y)
    ((springEnergy_smooth b.dof a c kp).differentiable (by simp) y)
  rw [e, springField_val h hd hf hcc hg hbase, ContinuousLinearMap.add_apply, total_rate h hd ha,
    springEnergy_rate, sum_range]
  have z : ∑ k ∈ range b.dof, ((b.sysAt (padFin y.1) (padFin y.2)).V (padFin y.2) k).dot
      ((noExt k).getD 0) = 0 := sum_eq_zero fun k _ => by simp [noExt, Motion.dot_zero]
  rw [z, add_zero, ← sum_add_distrib, ← sum_neg_distrib]
  refine sum_congr rfl fun i _ => ?_
  rw [padFin_at, padFin_at]
  unfold springTau
  ring

include hcc hg hbase in
/-- Without motion the field tells what is left of the torques. -/
theorem springs_left (q : Fin b.dof → ℝ) {i : ℕ} (hi : i < b.dof) :
    c i - kp i * (q ⟨i, hi⟩ - a i) - b.weightAt q i = ∑ j : Fin b.dof,
      (b.sysAt (padFin q) fun _ => 0).massSpec i j * (springField E b a c kp kv o (q, 0)).2 j := by
  have e0 : (padFin (0 : Fin b.dof → ℝ)) = fun _ => 0 := by funext i; simp [padFin]
  have k := accAt_solves h hd b.g (padFin (springTau b.dof a c kp kv (q, 0))) noExt true true (q, 0) hi
  simp only [e0] at k
  have e2 : (((b.setG b.g).sysAt (padFin q) fun _ => 0).idSpec (fun _ => 0) noExt true true i) =
      b.weightAt q i := by
    show ((b.sysAt (padFin q) fun _ => 0).idSpec (fun _ => 0) noExt true true i) = _
    have ex : (b.sysAt (padFin q) fun _ => 0).extSpec noExt i = 0 := by
      unfold Sys.extSpec Sys.genForce
      rw [neg_eq_zero]
      exact Finset.sum_eq_zero fun k hk => by simp [Motion.dot, noExt]
    unfold Sys.idSpec weightAt
    rw [ex, coriolis_zero]
    simp
  have e3 : padFin (springTau b.dof a c kp kv (q, 0)) i = c i - kp i * (q ⟨i, hi⟩ - a i) := by
    refine (padFin_at _ ⟨i, hi⟩).trans ?_
    simp [springTau]
  rw [e2, e3, sum_range] at k
  rw [springField_val h hd hf hcc hg hbase, ← k]
  exact sum_congr rfl fun j _ => by rw [padFin_at]

end

/-- The torques at time `t` are those of the springs and dampers at that state. -/
theorem springs_solves (h : Reach E b d) (hd : b.Definite) {o : IntOpts} (hf : o.friction = false)
    (goal : List ℝ) (c kp kv : ℕ → ℝ) {T : ℝ} {q dq : ℝ → List ℝ}
    (hM : b.MovesWith E (fun t i => c i - kp i * ((q t).getD i 0 - goal.getD i 0) - kv i * (dq t).getD i 0)
      noExt o T q dq) :
    Solves (springField E b (fun i => goal.getD i 0) c kp kv o) T (stateOf b q dq) := by
  intro t ht
  have := movesWith_solves h (hd.massive h.inv.tree) hM t ht
  refine this.congr_deriv ?_
  refine field_congr h hd (fun i hi => ?_) noExt hf _
  exact (padFin_at (springTau b.dof (fun i => goal.getD i 0) c kp kv (stateOf b q dq t)) ⟨i, hi⟩).symm

/-- C154: a robot whose joints all turn, under proportional control with damping and constant torques added,
comes to rest: along its motion the velocities, the accelerations and the difference of the torques to those
that `Gravity` answers tend to zero.  (With `aba` the base must not turn the gravity vector, see
`C30_aba_base`.) -/
theorem C154_settles (h : Reach E b d) (hd : b.Definite) (ha : b.AxesOK) (ht : ∀ i < b.dof,
      (b.rb i).joint.type = .rx ∨ (b.rb i).joint.type = .ry ∨ (b.rb i).joint.type = .rz)
    (goal : List ℝ) {c kp kv : ℕ → ℝ} (hk : ∀ i < b.dof, 0 < kp i) (hv : ∀ i < b.dof, 0 < kv i)
    {o : IntOpts} (hf : o.friction = false) (hcc : o.cc = true) (hg : o.gravity = true)
    (hbase : o.aba = false ∨ b.T0.R.mulVec b.g = b.g) {q dq : ℝ → List ℝ}
    (hM : ∀ T, b.MovesWith E
      (fun t i => c i - kp i * ((q t).getD i 0 - goal.getD i 0) - kv i * (dq t).getD i 0) noExt o T q dq) :
    ∀ ε > 0, ∃ T, ∀ t, T ≤ t → ∃ b1 B, b.setQ (q t) = .ok b1 ∧ b1.setDq (dq t) = .ok B ∧ ∀ i < b.dof,
      |(dq t).getD i 0| ≤ ε ∧
      |B.acceleration E (fun i => c i - kp i * ((q t).getD i 0 - goal.getD i 0) - kv i * (dq t).getD i 0)
        noExt o i| ≤ ε ∧
      |c i - kp i * ((q t).getD i 0 - goal.getD i 0) - b1.gravity.1 i| ≤ ε := by
  have hm := hd.massive h.inv.tree
  set a : ℕ → ℝ := fun i => goal.getD i 0 with hadef
  obtain ⟨⟨l, hlow⟩, hbdd⟩ := springs_coercive h hd ha ht a c kp hk
  set Y := stateOf b q dq with hYdef
  obtain ⟨-, -, h2, h3, h4⟩ := settle_bounded (F := springField E b a c kp kv o)
    ((springField_smooth h hd hf a c kp kv).of_le (by simp)) (fun _ => rfl)
    (H := fun y => b.total y + springEnergy b.dof a c kp y)
    (((total_smooth h).add (springEnergy_smooth b.dof a c kp)).of_le (by simp)) (v := fun i => kv i)
    (fun i => hv i i.2) (springs_rate h hd ha hf hcc hg hbase a c kp kv) hlow hbdd
    (Y := Y) fun T => springs_solves h hd hf goal c kp kv (hM T)
  have h5 : ∀ i : Fin b.dof, Tendsto (fun t => c i - kp i * ((Y t).1 i - a i) - b.weightAt (Y t).1 i) atTop
      (𝓝 0) := by
    intro i
    have e : ∀ t, c i - kp i * ((Y t).1 i - a i) - b.weightAt (Y t).1 i = _ := fun t =>
      springs_left h hd hf hcc hg hbase a c kp kv (Y t).1 i.2
    simp only [e]
    suffices hs : ∀ j : Fin b.dof, Tendsto (fun t => (b.sysAt (padFin (Y t).1) fun _ => 0).massSpec i j *
        (springField E b a c kp kv o ((Y t).1, 0)).2 j) atTop (𝓝 0) by
      simpa using tendsto_finset_sum Finset.univ fun j _ => hs j
    intro j
    obtain ⟨K, hK0, hK⟩ := torus_bound
      (G := fun y : State b.dof => (b.sysAt (padFin y.1) fun _ => 0).massSpec i j)
      (massSpec_smooth (w := fun _ _ => 0) h.inv.tree
        (fun i _ => padFin_smooth contDiff_fst i) i j).continuous (fun y m => by
        rw [Prod.fst_add]
        simp only
        rw [sysAt_turns ht]) 0
    refine squeeze_zero_norm (a := fun t => K *
      ‖(springField E b a c kp kv o ((Y t).1, 0)).2 j‖) (fun t => ?_) ?_
    · rw [norm_mul]
      exact mul_le_mul_of_nonneg_right (hK ((Y t).1, 0) (by simp)) (norm_nonneg _)
    · have := ((h4 j).norm).const_mul K
      rwa [norm_zero, mul_zero] at this
  intro ε hε
  have near : ∀ {f : ℝ → ℝ}, Tendsto f atTop (𝓝 0) → ∀ᶠ t in atTop, |f t| ≤ ε :=
    fun hf => (Metric.tendsto_nhds.1 hf ε hε).mono fun t ht => by
      rw [Real.dist_eq, sub_zero] at ht; exact ht.le
  obtain ⟨T, hT⟩ := eventually_atTop.1 ((eventually_all.2 fun i => near (h2 i)).and
    ((eventually_all.2 fun i => near (h3 i)).and (eventually_all.2 fun i => near (h5 i))))
  refine ⟨max T 0, fun t htT => ?_⟩
  obtain ⟨k2, k3, k5⟩ := hT t ((le_max_left _ _).trans htT)
  obtain ⟨b1, B, e1, e2, -⟩ := hM t t ⟨(le_max_right _ _).trans htT, le_rfl⟩
  refine ⟨b1, B, e1, e2, fun i hi => ⟨k2 ⟨i, hi⟩, ?_, ?_⟩⟩
  · have := field_of_set h hm cache0_clear
      (fun i => c i - kp i * ((q t).getD i 0 - goal.getD i 0) - kv i * (dq t).getD i 0) noExt o e1 e2 ⟨i, hi⟩
    simp only at this
    rw [this]
    refine le_of_eq_of_le ?_ (k3 ⟨i, hi⟩)
    congr 1
    refine congrArg (fun z : State b.dof => z.2 ⟨i, hi⟩) ?_
    refine field_congr h hd (fun i hi => ?_) noExt hf _
    exact (padFin_at (springTau b.dof a c kp kv (stateOf b q dq t)) ⟨i, hi⟩).symm
  · obtain ⟨hs, hn, hfr, _, r⟩ := h.after_setQ e1
    have e : b1.gravity.1 i = b.weightAt (Y t).1 i := by
      rw [(gravity_run r.inv).2 i (by rw [hn]; exact hi), hfr, pad_getD (setQ_length e1)]
      rfl
    rw [e]
    exact k5 ⟨i, hi⟩

/-- C154: with the gravity of the goal compensated and the gains above a constant, the same for all goals,
every motion with damping tends to the goal, wherever it starts. -/
theorem C154_reaches (h : Reach E b d) (hd : b.Definite) (ha : b.AxesOK) (ht : ∀ i < b.dof,
      (b.rb i).joint.type = .rx ∨ (b.rb i).joint.type = .ry ∨ (b.rb i).joint.type = .rz) :
    ∃ K, ∀ goal Bg, b.setQ goal = .ok Bg → ∀ kp kv : ℕ → ℝ, (∀ i < b.dof, K < kp i) →
      (∀ i < b.dof, 0 < kv i) → ∀ o : IntOpts, o.friction = false → o.cc = true → o.gravity = true →
      (o.aba = false ∨ b.T0.R.mulVec b.g = b.g) → ∀ q dq : ℝ → List ℝ, (∀ T, b.MovesWith E
        (fun t i => Bg.gravity.1 i - kp i * ((q t).getD i 0 - goal.getD i 0) - kv i * (dq t).getD i 0)
          noExt o T q dq) →
      ∀ ε > 0, ∃ T, ∀ t, T ≤ t → ∀ i < b.dof,
        |(q t).getD i 0 - goal.getD i 0| ≤ ε ∧ |(dq t).getD i 0| ≤ ε := by
  obtain ⟨L, hL⟩ := C152_gravity h ht
  refine ⟨b.dof * |L| + 1, fun goal Bg hG kp kv hk hv o hf hcc hg hbase q dq hM ε hε => ?_⟩
  have K0 : (0 : ℝ) ≤ b.dof * |L| := by positivity
  obtain ⟨T, hT⟩ := C154_settles h hd ha ht goal (fun i hi => by linarith [hk i hi]) hv hf hcc hg hbase hM
    (ε / (b.dof + 1)) (by positivity)
  refine ⟨T, fun t htT => ?_⟩
  obtain ⟨b1, B, e1, -, key⟩ := hT t htT
  have small : ε / (b.dof + 1) ≤ ε := div_le_self hε.le (by linarith [(Nat.cast_nonneg b.dof : (0 : ℝ) ≤ b.dof)])
  have a1 : ∀ i ∈ range b.dof, (b.dof * |L| + 1) * |(q t).getD i 0 - goal.getD i 0| ≤
      ε / (b.dof + 1) + |L| * apart b.dof (q t) goal := by
    intro i hi
    have hi := mem_range.1 hi
    have k := (key i hi).2.2
    have g := (hL (q t) goal b1 Bg e1 hG i hi).trans
      (mul_le_mul_of_nonneg_right (le_abs_self L) (apart_nonneg _ _ _))
    have k0 : 0 ≤ kp i := by linarith [hk i hi]
    have e' : kp i * ((q t).getD i 0 - goal.getD i 0) =
        -(Bg.gravity.1 i - kp i * ((q t).getD i 0 - goal.getD i 0) - b1.gravity.1 i) +
          -(b1.gravity.1 i - Bg.gravity.1 i) := by ring
    have e2 : kp i * |(q t).getD i 0 - goal.getD i 0| ≤ ε / (b.dof + 1) + |L| * apart b.dof (q t) goal := by
      rw [← abs_of_nonneg k0, ← abs_mul, e']
      refine (abs_add_le _ _).trans ?_
      rw [abs_neg, abs_neg]
      exact add_le_add k g
    exact (mul_le_mul_of_nonneg_right (hk i hi).le (abs_nonneg _)).trans e2
  have a2 := sum_le_sum a1
  rw [← mul_sum, sum_const, card_range, nsmul_eq_mul] at a2
  have a3 : apart b.dof (q t) goal ≤ ε := by
    have e : ∑ i ∈ range b.dof, |(q t).getD i 0 - goal.getD i 0| = apart b.dof (q t) goal := rfl
    rw [e] at a2
    have a4 : apart b.dof (q t) goal ≤ b.dof * (ε / (b.dof + 1)) := by linarith
    refine a4.trans ?_
    rw [← mul_div_assoc, div_le_iff₀ (by positivity)]
    nlinarith
  intro i hi
  refine ⟨le_trans ?_ a3, (key i hi).1.trans small⟩
  exact single_le_sum (f := fun i => |(q t).getD i 0 - goal.getD i 0|) (fun i _ => abs_nonneg _) (mem_range.2 hi)

/-- C154: such motions exist from every state and for all times. -/
theorem C154_motion (h : Reach E b d) (hd : b.Definite) (ha : b.AxesOK) (ht : ∀ i < b.dof,
      (b.rb i).joint.type = .rx ∨ (b.rb i).joint.type = .ry ∨ (b.rb i).joint.type = .rz)
    (goal : List ℝ) (c : ℕ → ℝ) {kp kv : ℕ → ℝ} (hk : ∀ i < b.dof, 0 < kp i) (hv : ∀ i < b.dof, 0 ≤ kv i)
    {o : IntOpts} (hf : o.friction = false) (hcc : o.cc = true) (hg : o.gravity = true)
    (hbase : o.aba = false ∨ b.T0.R.mulVec b.g = b.g) {q0 dq0 : List ℝ} (hq : q0.length = b.dof)
    (hdq : dq0.length = b.dof) :
    ∃ q dq : ℝ → List ℝ, q 0 = q0 ∧ dq 0 = dq0 ∧ ∀ T, b.MovesWith E
      (fun t i => c i - kp i * ((q t).getD i 0 - goal.getD i 0) - kv i * (dq t).getD i 0) noExt o T q dq := by
  have hm := hd.massive h.inv.tree
  set a : ℕ → ℝ := fun i => goal.getD i 0 with hadef
  obtain ⟨⟨l, hlow⟩, hbdd⟩ := springs_coercive h hd ha ht a c kp hk
  obtain ⟨Y, h0, hY⟩ := exists_forever (F := springField E b a c kp kv o)
    ((springField_smooth h hd hf a c kp kv).of_le (by simp))
    (W := fun y => (b.total y + springEnergy b.dof a c kp y) - l)
    ((((total_smooth h).add (springEnergy_smooth b.dof a c kp)).sub contDiff_const).of_le (by simp)) le_rfl
    (fun y => by linarith [hlow y]) (fun y => by
      rw [fderiv_sub_const, springs_rate h hd ha hf hcc hg hbase, zero_mul, neg_nonpos]
      exact sum_nonneg fun i _ => mul_nonneg (hv i i.2) (sq_nonneg _))
    (fun r => by
      obtain ⟨R, hR⟩ := hbdd (r + l)
      exact ⟨R, fun y hy => hR y (by linarith)⟩)
    (fun i => q0.getD i 0, fun i => dq0.getD i 0)
  refine ⟨fun t => List.ofFn (Y t).1, fun t => List.ofFn (Y t).2, ?_, ?_, fun T t htT => ?_⟩
  · simp only [h0]; exact stateOf_ofFn hq
  · simp only [h0]; exact stateOf_ofFn hdq
  obtain ⟨b1, e1, n1⟩ := setQ_total (b := b) (q := List.ofFn (Y t).1) (by simp)
  obtain ⟨B, e2, n2⟩ := setDq_total (b := b1) (q := List.ofFn (Y t).2) (by simp [n1])
  have es : ∀ (v : Fin b.dof → ℝ) (i : ℕ) (hi : i < b.dof), (List.ofFn v).getD i 0 = v ⟨i, hi⟩ :=
    fun v i hi => by simp [List.getD, hi]
  refine ⟨b1, B, e1, e2, fun i hi => ⟨?_, ?_⟩⟩
  · have := hasDerivWithinAt_pi.1 ((hasFDerivAt_fst (𝕜 := ℝ)).comp_hasDerivWithinAt t (hY T t htT)) ⟨i, hi⟩
    simp only [es _ i hi]
    exact this
  · have := hasDerivWithinAt_pi.1 ((hasFDerivAt_snd (𝕜 := ℝ)).comp_hasDerivWithinAt t (hY T t htT)) ⟨i, hi⟩
    simp only [es _ i hi]
    refine this.congr_deriv ?_
    have g := field_of_set h hm cache0_clear
      (fun i => c i - kp i * ((List.ofFn (Y t).1).getD i 0 - goal.getD i 0) - kv i * (List.ofFn (Y t).2).getD i 0)
      noExt o e1 e2 ⟨i, hi⟩
    simp only at g
    rw [g]
    have ey : ((fun i : Fin b.dof => (List.ofFn (Y t).1).getD i 0, fun i : Fin b.dof =>
        (List.ofFn (Y t).2).getD i 0) : State b.dof) = Y t :=
      Prod.ext (funext fun i => es _ i i.2) (funext fun i => es _ i i.2)
    rw [ey]
    show (springField E b a c kp kv o (Y t)).2 ⟨i, hi⟩ = _
    refine congrArg (fun z : State b.dof => z.2 ⟨i, hi⟩) ?_
    refine field_congr h hd (fun j hj => ?_) noExt hf _
    rw [es _ j hj, es _ j hj]
    exact padFin_at (springTau b.dof a c kp kv (Y t)) ⟨j, hj⟩

/-- The hypotheses hold for a pendulum, with unit gains, both forward dynamics and every start; by
`C154_motion` it has the motions that the other theorems speak about. -/
example (E : Ext) (x w : ℝ) : ∃ d, Reach E creak d ∧ creak.Definite ∧ creak.AxesOK ∧ (∀ i < creak.dof,
      (creak.rb i).joint.type = .rx ∨ (creak.rb i).joint.type = .ry ∨ (creak.rb i).joint.type = .rz) ∧
    ∃ q dq : ℝ → List ℝ, q 0 = [x] ∧ dq 0 = [w] ∧ ∀ T, creak.MovesWith E
      (fun t i => 0 - 1 * ((q t).getD i 0 - [1].getD i 0) - 1 * (dq t).getD i 0) noExt
        { IntOpts.make with friction := false } T q dq := by
  obtain ⟨d, h⟩ := creak_reach E
  have h0 : ∀ k < creak.dof, k = 0 := fun k hk => Nat.lt_one_iff.1 hk
  have ha : creak.AxesOK := fun k hk => by rw [h0 k hk]; rfl
  have ht : ∀ i < creak.dof, (creak.rb i).joint.type = .rx ∨ (creak.rb i).joint.type = .ry ∨
      (creak.rb i).joint.type = .rz := fun i hi => .inl (by rw [h0 i hi]; rfl)
  exact ⟨d, h, creak_definite, ha, ht, C154_motion h creak_definite ha ht [1] (fun _ => 0)
    (fun _ _ => one_pos) (fun _ _ => zero_le_one) rfl rfl rfl (.inl rfl) rfl rfl⟩

end SpatialDyn
