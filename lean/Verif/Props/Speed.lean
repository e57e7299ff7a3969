import Verif.Props.Bounds
import Verif.Lemmas.Growth

/-!
# C150, C151: speeds grow at most linearly, and with viscous friction they stay bounded

`Moves` and `steps` (`Verif.Spec.Flow`) are as in C78-C80.
-/

namespace SpatialDyn
open Finset Body OneStep
open scoped ContDiff

variable {E : Ext} {b : Body} {d : Bool}

/-- Linear functions that repeat with full turns are bounded by the size. -/
theorem torus_linear {n : ℕ} {Q : State n → ℝ} (hQ : Continuous Q)
    (hp : ∀ y (m : Fin n → ℤ), Q (y + (fun i => 2 * Real.pi * m i, 0)) = Q y)
    (hh : ∀ (q v : Fin n → ℝ) (s : ℝ), Q (q, s • v) = s * Q (q, v)) :
    ∃ K, 0 ≤ K ∧ ∀ q v, |Q (q, v)| ≤ K * ‖v‖ := by
  obtain ⟨K, hK0, hK⟩ := torus_bound hQ hp 1
  refine ⟨K, hK0, fun q v => ?_⟩
  by_cases hv : v = 0
  · subst hv
    have := hh q 0 0
    rw [smul_zero, zero_mul] at this
    simp [this]
  have hn : ‖v‖ ≠ 0 := norm_ne_zero_iff.2 hv
  have h1 := hK (q, ‖v‖⁻¹ • v) (by simp [norm_smul, hn])
  have e : Q (q, v) = ‖v‖ * Q (q, ‖v‖⁻¹ • v) := by rw [hh]; field_simp
  rw [e, abs_mul, abs_of_nonneg (norm_nonneg _), mul_comm]
  exact mul_le_mul_of_nonneg_right h1 (norm_nonneg _)

/-- Power of gravity and the external forces. -/
noncomputable def Body.outerPower (b : Body) (g : Vec3) (fext : FExt) (grav : Bool) (y : State b.dof) : ℝ :=
  ∑ k ∈ range b.dof, (((b.sysAt (padFin y.1) (padFin y.2)).V (padFin y.2) k).dot
    ((fext k).getD 0) + if grav then ((b.sysAt (padFin y.1) (padFin y.2)).V (padFin y.2) k).dot
      ((b.sysAt (padFin y.1) (padFin y.2)).Iw k ⟨g, 0⟩) else 0)

theorem outer_bound (h : Reach E b d) (ht : ∀ i < b.dof,
      (b.rb i).joint.type = .rx ∨ (b.rb i).joint.type = .ry ∨ (b.rb i).joint.type = .rz) (g : Vec3)
    (fext : FExt) (grav : Bool) : ∃ K, 0 ≤ K ∧ ∀ q v, |b.outerPower g fext grav (q, v)| ≤ K * ‖v‖ := by
  refine torus_linear ?_ (fun y m => ?_) fun q v s => ?_
  · have hq : ∀ i < b.dof, Sm fun y : State b.dof => padFin y.1 i :=
      fun i _ => padFin_smooth contDiff_fst i
    have hw : ∀ i < b.dof, Sm fun y : State b.dof => padFin y.2 i :=
      fun i _ => padFin_smooth contDiff_snd i
    have hV := fun k => V_smooth (b := b) (X := State b.dof) (q := fun y => padFin y.1)
      (w := fun y => padFin y.2) h.inv.tree hq (r := fun y => padFin y.2) hw k
    refine continuous_finset_sum _ fun k _ => Continuous.add
      ((hV k).dot (SmForce.const ((fext k).getD 0))).continuous ?_
    split
    · exact ((hV k).dot (Iw_smooth h.inv.tree hq (SmMotion.const ⟨g, 0⟩) k)).continuous
    · exact continuous_const
  · unfold outerPower
    rw [Prod.fst_add, Prod.snd_add, add_zero]
    simp only
    rw [sysAt_turns ht]
  · unfold outerPower
    simp only [padFin_smul, mul_sum]
    refine sum_congr rfl fun k _ => ?_
    rw [sysAt_V_smul]
    have e : (b.sysAt (padFin q) (fun i => s * padFin v i)).Iw k ⟨g, 0⟩ =
        (b.sysAt (padFin q) (padFin v)).Iw k ⟨g, 0⟩ := rfl
    rw [e, Motion.smul_dot, Motion.smul_dot]
    split <;> ring

/-- The form of the inertia is twice the kinetic energy. -/
theorem form_energy (y : State b.dof) :
    (b.sysAt (padFin y.1) (padFin y.2)).energy2 (padFin y.2) = b.inertiaForm y := by
  rw [Sys.energy2_eq]
  show ∑ i ∈ range b.dof, _ * ∑ j ∈ range b.dof, _ = _
  rw [sum_range]
  refine sum_congr rfl fun k _ => ?_
  rw [sum_range, padFin_at]
  congr 1
  refine sum_congr rfl fun j _ => ?_
  rw [padFin_at]
  rfl

/-- A nonnegative function whose rate is at most a multiple of its root. -/
theorem root_grows {f f' : ℝ → ℝ} {T L : ℝ} (h0 : ∀ t ∈ Set.Icc 0 T, 0 ≤ f t)
    (hd : ∀ t ∈ Set.Icc 0 T, HasDerivWithinAt f (f' t) (Set.Icc 0 T) t)
    (hL0 : 0 ≤ L) (hL : ∀ t ∈ Set.Icc 0 T, f' t ≤ 2 * L * Real.sqrt (f t)) :
    ∀ t ∈ Set.Icc 0 T, Real.sqrt (f t) ≤ Real.sqrt (f 0) + L * t := by
  intro t htT
  refine le_of_forall_pos_le_add fun ε hε => ?_
  have hT : (0 : ℝ) ∈ Set.Icc 0 T := ⟨le_rfl, htT.1.trans htT.2⟩
  have hpos : ∀ s ∈ Set.Icc 0 T, 0 < f s + ε ^ 2 := fun s hs => by
    have := h0 s hs
    positivity
  have hc : ContinuousOn (fun s => Real.sqrt (f s + ε ^ 2)) (Set.Icc 0 T) := fun s hs =>
    (Real.continuous_sqrt.continuousAt).comp_continuousWithinAt
      ((hd s hs).continuousWithinAt.add continuousWithinAt_const)
  have hder : ∀ s ∈ interior (Set.Icc 0 T), HasDerivAt (fun s => Real.sqrt (f s + ε ^ 2))
      (f' s / (2 * Real.sqrt (f s + ε ^ 2))) s := fun s hs => by
    have hs' := interior_subset hs
    have := (hd s hs').hasDerivAt (mem_interior_iff_mem_nhds.1 hs)
    exact (this.add_const (ε ^ 2)).sqrt (hpos s hs').ne'
  have key := (convex_Icc (0 : ℝ) T).image_sub_le_mul_sub_of_deriv_le hc
    (fun s hs => (hder s hs).differentiableAt.differentiableWithinAt) (C := L) (fun s hs => by
      have hs' := interior_subset hs
      rw [(hder s hs).deriv]
      have h1 := Real.sqrt_pos.2 (hpos s hs')
      rw [div_le_iff₀ (by positivity)]
      have h2 : Real.sqrt (f s) ≤ Real.sqrt (f s + ε ^ 2) := Real.sqrt_le_sqrt (by nlinarith)
      nlinarith [hL s hs', mul_le_mul_of_nonneg_left h2 hL0]) 0 hT t htT htT.1
  have h1 : Real.sqrt (f t) ≤ Real.sqrt (f t + ε ^ 2) := Real.sqrt_le_sqrt (by nlinarith)
  have h2 : Real.sqrt (f 0 + ε ^ 2) ≤ Real.sqrt (f 0) + ε := by
    refine Real.sqrt_le_iff.2 ⟨by positivity, ?_⟩
    nlinarith [Real.sq_sqrt (h0 0 hT), mul_nonneg (Real.sqrt_nonneg (f 0)) hε.le]
  linarith

/-- A nonnegative function whose rate is at most a multiple of its root, less a multiple of itself. -/
theorem root_settles {f f' : ℝ → ℝ} {T L c : ℝ} (h0 : ∀ t ∈ Set.Icc 0 T, 0 ≤ f t)
    (hd : ∀ t ∈ Set.Icc 0 T, HasDerivWithinAt f (f' t) (Set.Icc 0 T) t)
    (hL0 : 0 ≤ L) (hc0 : 0 < c) (hL : ∀ t ∈ Set.Icc 0 T, f' t ≤ 2 * L * Real.sqrt (f t) - 2 * c * f t) :
    ∀ t ∈ Set.Icc 0 T, Real.sqrt (f t) ≤ Real.exp (-(c * t)) * Real.sqrt (f 0) + L / c := by
  intro t htT
  refine le_of_forall_pos_le_add fun δ hδ => ?_
  set ε := δ / 2 with hεd
  have hε : 0 < ε := half_pos hδ
  have hT : (0 : ℝ) ∈ Set.Icc 0 T := ⟨le_rfl, htT.1.trans htT.2⟩
  have hpos : ∀ s ∈ Set.Icc 0 T, 0 < f s + ε ^ 2 := fun s hs => by
    have := h0 s hs
    positivity
  set g := fun s => Real.sqrt (f s + ε ^ 2) with hg
  set K := L / c + ε with hK
  have hcont : ContinuousOn (fun s => Real.exp (c * s) * (g s - K)) (Set.Icc 0 T) := fun s hs =>
    (Real.continuous_exp.comp (continuous_const.mul continuous_id)).continuousWithinAt.mul
      (((Real.continuous_sqrt.continuousAt).comp_continuousWithinAt
        ((hd s hs).continuousWithinAt.add continuousWithinAt_const)).sub continuousWithinAt_const)
  have hder : ∀ s ∈ interior (Set.Icc 0 T), HasDerivAt (fun s => Real.exp (c * s) * (g s - K))
      (Real.exp (c * s) * c * (g s - K) + Real.exp (c * s) * (f' s / (2 * g s))) s := fun s hs => by
    have hs' := interior_subset hs
    have h1 := (hd s hs').hasDerivAt (mem_interior_iff_mem_nhds.1 hs)
    have h2 := (h1.add_const (ε ^ 2)).sqrt (hpos s hs').ne'
    have h3 : HasDerivAt (fun s => Real.exp (c * s)) (Real.exp (c * s) * c) s := by
      have := ((hasDerivAt_id s).const_mul c).exp
      simpa using this
    exact h3.mul (h2.sub_const K)
  have key := (convex_Icc (0 : ℝ) T).image_sub_le_mul_sub_of_deriv_le hcont
    (fun s hs => (hder s hs).differentiableAt.differentiableWithinAt) (C := 0) (fun s hs => by
      have hs' := interior_subset hs
      rw [(hder s hs).deriv]
      have g0 : 0 < g s := Real.sqrt_pos.2 (hpos s hs')
      have gsq : g s ^ 2 = f s + ε ^ 2 := Real.sq_sqrt (hpos s hs').le
      have gε : ε ≤ g s := Real.le_sqrt_of_sq_le (by have := h0 s hs'; linarith)
      have hfg : Real.sqrt (f s) ≤ g s := Real.sqrt_le_sqrt (by nlinarith)
      have hq : f' s / (2 * g s) ≤ L + c * ε - c * g s := by
        rw [div_le_iff₀ (by positivity)]
        have a1 := hL s hs'
        have a2 := mul_le_mul_of_nonneg_left hfg hL0
        have a3 : c * f s = c * g s ^ 2 - c * ε ^ 2 := by
          rw [← mul_sub, gsq, add_sub_cancel_right]
        have a4 : c * ε ^ 2 ≤ c * (ε * g s) := mul_le_mul_of_nonneg_left (by nlinarith) hc0.le
        have a5 : (L + c * ε - c * g s) * (2 * g s) =
            2 * (L * g s) + 2 * (c * (ε * g s)) - 2 * (c * g s ^ 2) := by ring
        rw [a5]
        linarith
      have hcK : c * K = L + c * ε := by rw [hK]; field_simp
      have : c * (g s - K) + f' s / (2 * g s) ≤ 0 := by
        rw [mul_sub, hcK]; linarith
      have := mul_nonpos_of_nonneg_of_nonpos (Real.exp_pos (c * s)).le this
      linarith) 0 hT t htT htT.1
  simp only [mul_zero, Real.exp_zero, one_mul, zero_mul] at key
  have h1 : Real.sqrt (f t) ≤ g t := Real.sqrt_le_sqrt (by nlinarith)
  have h2 : g 0 ≤ Real.sqrt (f 0) + ε := by
    refine Real.sqrt_le_iff.2 ⟨by positivity, ?_⟩
    nlinarith [Real.sq_sqrt (h0 0 hT), mul_nonneg (Real.sqrt_nonneg (f 0)) hε.le]
  have hKpos : 0 ≤ L / c := by positivity
  have h3 : Real.exp (c * t) * (g t - K) ≤ Real.sqrt (f 0) := by linarith
  have h4 : g t - K ≤ Real.exp (-(c * t)) * Real.sqrt (f 0) := by
    have := mul_le_mul_of_nonneg_left h3 (Real.exp_pos (-(c * t))).le
    rwa [← mul_assoc, ← Real.exp_add, neg_add_cancel, Real.exp_zero, one_mul] at this
  linarith

/-- The power of the torques. -/
theorem power_bound {n : ℕ} (tau : ℕ → ℝ) (v : Fin n → ℝ) :
    |∑ i ∈ range n, padFin v i * tau i| ≤ (∑ i ∈ range n, |tau i|) * ‖v‖ := by
  refine (abs_sum_le_sum_abs _ _).trans ?_
  rw [sum_mul]
  refine sum_le_sum fun i hi => ?_
  rw [abs_mul, mul_comm]
  refine mul_le_mul_of_nonneg_left ?_ (abs_nonneg _)
  have e := padFin_at v ⟨i, mem_range.1 hi⟩
  simp only at e
  rw [e]
  exact norm_le_pi_norm v _

theorem form_smooth (h : Reach E b d) : Sm b.inertiaForm := by
  have hs := energy_smooth h
  rwa [show (fun y : State b.dof => (b.sysAt (padFin y.1) (padFin y.2)).energy2 (padFin y.2)) =
    b.inertiaForm from funext form_energy] at hs

/-- The rate of twice the kinetic energy is twice the power. -/
theorem form_rate (h : Reach E b d) (hd : b.Definite) (ha : b.AxesOK) (g : Vec3) (tau : ℕ → ℝ)
    (fext : FExt) (grav : Bool) (y : State b.dof) :
    fderiv ℝ b.inertiaForm y (y.2, b.accAt g tau fext true grav y) =
      2 * (∑ i ∈ range b.dof, padFin y.2 i * tau i + b.outerPower g fext grav y) := by
  rw [← show (fun y : State b.dof => (b.sysAt (padFin y.1) (padFin y.2)).energy2 (padFin y.2)) =
    b.inertiaForm from funext form_energy]
  refine fderiv_curve (energy_smooth h) ?_
  refine (kin_curve h hd ha y _).congr_deriv ?_
  rw [kin_power h hd g tau fext grav y]
  rfl

/-- Size of the rates along the solutions of the equations of motion. -/
theorem speed_solves (h : Reach E b d) (hd : b.Definite) (ha : b.AxesOK) (ht : ∀ i < b.dof,
      (b.rb i).joint.type = .rx ∨ (b.rb i).joint.type = .ry ∨ (b.rb i).joint.type = .rz) {c : Cache}
    (hcl : c.Clear) (fext : FExt) (o : IntOpts) (ho : o.friction = false) (hcc : o.cc = true) :
    ∃ A B, 0 ≤ A ∧ 0 ≤ B ∧ ∀ tau T (Y : ℝ → State b.dof), Solves (b.field E c tau fext o) T Y →
      ∀ t ∈ Set.Icc 0 T, Real.sqrt (∑ i, (Y t).2 i ^ 2) ≤ A * Real.sqrt (∑ i, (Y 0).2 i ^ 2) +
        B * (1 + ∑ i ∈ range b.dof, |tau i|) * t := by
  obtain ⟨m, m0, M, M0, hM⟩ := form_bounds h hd ht
  set g := if o.aba then b.T0.R.mulVec b.g else b.g with hg
  obtain ⟨K, K0, hK⟩ := outer_bound h ht g fext o.gravity
  have hsm : 0 < Real.sqrt m := Real.sqrt_pos.2 m0
  refine ⟨Real.sqrt M / Real.sqrt m, (K + 1) / m, by positivity, by positivity, fun tau T Y hY t htT => ?_⟩
  set R := ∑ i ∈ range b.dof, |tau i| with hR
  have hR0 : 0 ≤ R := sum_nonneg fun _ _ => abs_nonneg _
  set f := fun t => b.inertiaForm (Y t) with hf
  have hnn : ∀ y : State b.dof, 0 ≤ ∑ i, y.2 i ^ 2 := fun y => sum_nonneg fun _ _ => sq_nonneg _
  have hf0 : ∀ t, 0 ≤ f t := fun t => (mul_nonneg m0.le (hnn (Y t))).trans (hM (Y t).1 (Y t).2).1
  have hlow : ∀ t, Real.sqrt m * Real.sqrt (∑ i, (Y t).2 i ^ 2) ≤ Real.sqrt (f t) := fun t => by
    rw [← Real.sqrt_mul m0.le]
    exact Real.sqrt_le_sqrt (hM (Y t).1 (Y t).2).1
  have hup : ∀ t, Real.sqrt (f t) ≤ Real.sqrt M * Real.sqrt (∑ i, (Y t).2 i ^ 2) := fun t => by
    rw [← Real.sqrt_mul M0]
    exact Real.sqrt_le_sqrt (hM (Y t).1 (Y t).2).2
  have hrate : ∀ y : State b.dof, fderiv ℝ b.inertiaForm y (b.field E c tau fext o y) =
      2 * (∑ i ∈ range b.dof, padFin y.2 i * tau i + b.outerPower g fext o.gravity y) := by
    intro y
    rw [field_val h hd hcl tau fext o ho, ← hg, hcc, form_rate h hd ha]
  have hs := form_smooth h
  have key := root_grows (f := f) (f' := fun t => fderiv ℝ b.inertiaForm (Y t) (b.field E c tau fext o (Y t)))
    (T := T) (L := (K + R) / Real.sqrt m) (fun t _ => hf0 t)
    (fun t ht => ((hs.differentiable (by simp)).differentiableAt.hasFDerivAt).comp_hasDerivWithinAt t (hY t ht))
    (by positivity) (fun t ht => by
      rw [hrate]
      have h1 := power_bound tau (Y t).2
      rw [← hR] at h1
      have h2 := hK (Y t).1 (Y t).2
      have h3 : Real.sqrt m * ‖(Y t).2‖ ≤ Real.sqrt (f t) := by
        refine le_trans (mul_le_mul_of_nonneg_left ?_ hsm.le) (hlow t)
        exact Real.le_sqrt_of_sq_le (norm_sq_le_sum _)
      have h4 : (K + R) * ‖(Y t).2‖ ≤ (K + R) / Real.sqrt m * Real.sqrt (f t) := by
        rw [div_mul_eq_mul_div, le_div_iff₀ hsm]
        nlinarith [mul_le_mul_of_nonneg_left h3 (add_nonneg K0 hR0)]
      have h5 := (abs_le.1 h1).2
      have h6 := (abs_le.1 h2).2
      nlinarith) t htT
  have h7 := hlow t
  have h8 := hup 0
  have e : (K + R) / Real.sqrt m * t / Real.sqrt m = (K + R) / m * t := by
    rw [div_mul_eq_mul_div, div_div, Real.mul_self_sqrt m0.le, div_mul_eq_mul_div]
  have h9 : Real.sqrt (∑ i, (Y t).2 i ^ 2) ≤ (Real.sqrt M * Real.sqrt (∑ i, (Y 0).2 i ^ 2) +
      (K + R) / Real.sqrt m * t) / Real.sqrt m := by
    rw [le_div_iff₀ hsm]; linarith
  rw [add_div, e] at h9
  refine h9.trans (add_le_add (le_of_eq (by ring)) (mul_le_mul_of_nonneg_right ?_ htT.1))
  rw [div_mul_eq_mul_div]
  refine div_le_div_of_nonneg_right ?_ m0.le
  nlinarith [mul_nonneg K0 hR0]

/-- C150: for a robot whose joints all turn the speeds of a motion grow at most linearly with time: there
are two constants, the same for all motions, such that the size of the joint velocities at time `t` is at
most a multiple of that at the start plus a multiple of `t`, the multiple being that of one plus the sizes
of the torques. -/
theorem C150_speed (h : Reach E b d) (hd : b.Definite) (ha : b.AxesOK) (ht : ∀ i < b.dof,
      (b.rb i).joint.type = .rx ∨ (b.rb i).joint.type = .ry ∨ (b.rb i).joint.type = .rz)
    (fext : FExt) (o : IntOpts) (ho : o.friction = false) (hcc : o.cc = true) :
    ∃ A B, ∀ tau T q dq, b.Moves E tau fext o T q dq → ∀ t ∈ Set.Icc 0 T,
      Real.sqrt (∑ i ∈ range b.dof, (dq t).getD i 0 ^ 2) ≤
        A * Real.sqrt (∑ i ∈ range b.dof, (dq 0).getD i 0 ^ 2) +
          B * (1 + ∑ i ∈ range b.dof, |tau i|) * t := by
  obtain ⟨A, B, -, -, hAB⟩ := speed_solves h hd ha ht cache0_clear fext o ho hcc
  refine ⟨A, B, fun tau T q dq hM t htT => ?_⟩
  have := hAB tau T _ ((moves_iff h (hd.massive h.inv.tree) cache0_clear tau fext o).1 hM).2 t htT
  rw [sum_range, sum_range]
  exact this

/-- The simulated speeds follow those of the motion. -/
theorem speeds_follow (h : Reach E b d) (hm : b.Massive) {tau : ℕ → ℝ} {fext : FExt} {o : IntOpts}
    (hs : ContDiff ℝ ∞ (b.field E cache0 tau fext o)) (hl : o.jointLimits = false) {Y : ℝ → State b.dof}
    (hY0 : Y 0 = b.state) {T : ℝ} (hY : Solves (b.field E cache0 tau fext o) T Y) {ε : ℝ} (hε : 0 < ε) :
    ∃ h0 > 0, ∀ dt : ℝ, 0 < dt → dt ≤ h0 → ∀ k : ℕ, k * dt ≤ T →
      ∃ b', steps E tau dt fext o k b = .ok b' ∧ ∀ i < b.dof, |b'.dq.getD i 0| ≤
        Real.sqrt (∑ i, (Y (k * dt)).2 i ^ 2) + ε := by
  obtain ⟨C, h0, hpos, hC⟩ := scheme_converge hs (fun _ => rfl) hY o.method
  refine ⟨min h0 (min 1 (ε / (|C| + 1))), by positivity, fun dt d0 d1 k k1 => ?_⟩
  have hp1 : 1 ≤ OneStep.order o.method := by cases o.method <;> decide
  have hdt1 : dt ≤ 1 := d1.trans ((min_le_right _ _).trans (min_le_left _ _))
  have hdp : dt ^ OneStep.order o.method ≤ dt := by
    calc dt ^ OneStep.order o.method ≤ dt ^ 1 := pow_le_pow_of_le_one d0.le hdt1 hp1
      _ = dt := pow_one _
  have hCdt : |C| * dt ≤ ε := by
    have : dt ≤ ε / (|C| + 1) := d1.trans ((min_le_right _ _).trans (min_le_right _ _))
    rw [le_div_iff₀ (by positivity)] at this
    nlinarith
  obtain ⟨b', e1, e2⟩ := steps_scheme h hm cache0_clear tau dt fext o hl k
  refine ⟨b', e1, fun i hi => ?_⟩
  have h3 := hC dt d0 (d1.trans (min_le_left _ _)) k k1
  rw [hY0] at h3
  set z := (scheme o.method (b.field E cache0 tau fext o) id dt)^[k] b.state with hz
  have h5 : ‖z - Y (k * dt)‖ ≤ ε := h3.trans
    (((mul_le_mul_of_nonneg_right (le_abs_self C) (by positivity)).trans
      (mul_le_mul_of_nonneg_left hdp (abs_nonneg C))).trans hCdt)
  have h6 := (norm_le_pi_norm (z - Y (k * dt)).2 ⟨i, hi⟩).trans ((norm_snd_le _).trans h5)
  have h8 : |(Y (k * dt)).2 ⟨i, hi⟩| ≤ Real.sqrt (∑ i, (Y (k * dt)).2 i ^ 2) :=
    Real.abs_le_sqrt (single_le_sum (f := fun i => (Y (k * dt)).2 i ^ 2) (fun i _ => sq_nonneg _)
      (mem_univ (⟨i, hi⟩ : Fin b.dof)))
  have := getD_ofFn z.2 ⟨i, hi⟩
  simp only at this
  rw [e2.dq, this]
  have a2 : |z.2 ⟨i, hi⟩ - (Y (k * dt)).2 ⟨i, hi⟩| ≤ ε := h6
  have a3 := abs_add_le (z.2 ⟨i, hi⟩ - (Y (k * dt)).2 ⟨i, hi⟩) ((Y (k * dt)).2 ⟨i, hi⟩)
  rw [sub_add_cancel] at a3
  linarith

/-- C150: and so do the speeds of the simulated robot, up to any given error if the steps are small
enough. -/
theorem C150_simulation (h : Reach E b d) (hd : b.Definite) (ha : b.AxesOK) (ht : ∀ i < b.dof,
      (b.rb i).joint.type = .rx ∨ (b.rb i).joint.type = .ry ∨ (b.rb i).joint.type = .rz)
    (fext : FExt) (o : IntOpts) (ho : o.friction = false) (hcc : o.cc = true)
    (hl : o.jointLimits = false) :
    ∃ A B, ∀ tau T, ∀ ε > 0, ∃ h0 > 0, ∀ dt : ℝ, 0 < dt → dt ≤ h0 → ∀ k : ℕ, k * dt ≤ T →
      ∃ b', steps E tau dt fext o k b = .ok b' ∧ ∀ i < b.dof, |b'.dq.getD i 0| ≤
        A * Real.sqrt (∑ i ∈ range b.dof, b.dq.getD i 0 ^ 2) +
          B * (1 + ∑ i ∈ range b.dof, |tau i|) * (k * dt) + ε := by
  have hm := hd.massive h.inv.tree
  obtain ⟨A, B, -, -, hAB⟩ := speed_solves h hd ha ht cache0_clear fext o ho hcc
  refine ⟨A, B, fun tau T ε hε => ?_⟩
  obtain ⟨Y, hY0, hY⟩ := field_forever h hd ha cache0_clear tau fext o ho hcc b.state
  obtain ⟨h0, hpos, hC⟩ := speeds_follow h hm (field_smooth h hd cache0_clear tau fext o ho)
    hl hY0 (hY T) hε
  refine ⟨h0, hpos, fun dt d0 d1 k k1 => ?_⟩
  obtain ⟨b', e1, e2⟩ := hC dt d0 d1 k k1
  refine ⟨b', e1, fun i hi => ?_⟩
  have h7 := hAB tau T Y (hY T) (k * dt) ⟨by positivity, k1⟩
  rw [hY0] at h7
  have e3 : ∑ i ∈ range b.dof, b.dq.getD i 0 ^ 2 = ∑ i, b.state.2 i ^ 2 := by
    rw [sum_range]; rfl
  rw [e3]
  exact (e2 i hi).trans (by linarith)

/-- Size of the rates along the solutions of the equations of motion with viscous friction. -/
theorem speed_damped (h : Reach E b d) (hd : b.Definite) (ha : b.AxesOK) (ht : ∀ i < b.dof,
      (b.rb i).joint.type = .rx ∨ (b.rb i).joint.type = .ry ∨ (b.rb i).joint.type = .rz) {c : Cache}
    (hcl : c.Clear) {v : ℕ → ℝ} (hc : ∀ i < b.dof, Coef (b.rb i).joint 0 (v i) 0)
    (hv : ∀ i < b.dof, 0 < v i) (fext : FExt) {o : IntOpts} (hf : o.friction = true) (heps : 0 ≤ o.eps)
    (hcc : o.cc = true) :
    ∃ A B κ, 0 < κ ∧ ∀ tau T (Y : ℝ → State b.dof), Solves (b.field E c tau fext o) T Y →
      ∀ t ∈ Set.Icc 0 T, Real.sqrt (∑ i, (Y t).2 i ^ 2) ≤
        A * Real.exp (-(κ * t)) * Real.sqrt (∑ i, (Y 0).2 i ^ 2) +
          B * (1 + ∑ i ∈ range b.dof, |tau i|) := by
  obtain ⟨m, m0, M, M0, hM⟩ := form_bounds h hd ht
  set g := if o.aba then b.T0.R.mulVec b.g else b.g with hg
  obtain ⟨K, K0, hK⟩ := outer_bound h ht g fext o.gravity
  have hsm : 0 < Real.sqrt m := Real.sqrt_pos.2 m0
  -- the least friction
  obtain ⟨ν, ν0, hν⟩ : ∃ ν, 0 < ν ∧ ∀ i < b.dof, ν ≤ v i := by
    rcases (range b.dof).eq_empty_or_nonempty with he | hne
    · refine ⟨1, one_pos, fun i hi => ?_⟩
      have : i ∈ range b.dof := mem_range.2 hi
      rw [he] at this
      exact absurd this (notMem_empty i)
    · obtain ⟨l, hl, hmin⟩ := exists_min_image (range b.dof) v hne
      exact ⟨v l, hv l (mem_range.1 hl), fun i hi => hmin i (mem_range.2 hi)⟩
  set κ := ν / (M + 1) with hκ
  have κ0 : 0 < κ := by positivity
  refine ⟨Real.sqrt M / Real.sqrt m, (K + 1) / m / κ, κ, κ0, fun tau T Y hY t htT => ?_⟩
  set R := ∑ i ∈ range b.dof, |tau i| with hR
  have hR0 : 0 ≤ R := sum_nonneg fun _ _ => abs_nonneg _
  set f := fun t => b.inertiaForm (Y t) with hfd
  have hnn : ∀ y : State b.dof, 0 ≤ ∑ i, y.2 i ^ 2 := fun y => sum_nonneg fun _ _ => sq_nonneg _
  have hf0 : ∀ t, 0 ≤ f t := fun t => (mul_nonneg m0.le (hnn (Y t))).trans (hM (Y t).1 (Y t).2).1
  have hlow : ∀ t, Real.sqrt m * Real.sqrt (∑ i, (Y t).2 i ^ 2) ≤ Real.sqrt (f t) := fun t => by
    rw [← Real.sqrt_mul m0.le]
    exact Real.sqrt_le_sqrt (hM (Y t).1 (Y t).2).1
  have hup : ∀ t, Real.sqrt (f t) ≤ Real.sqrt M * Real.sqrt (∑ i, (Y t).2 i ^ 2) := fun t => by
    rw [← Real.sqrt_mul M0]
    exact Real.sqrt_le_sqrt (hM (Y t).1 (Y t).2).2
  have hrate : ∀ y : State b.dof, fderiv ℝ b.inertiaForm y (b.field E c tau fext o y) =
      2 * (∑ i ∈ range b.dof, padFin y.2 i * (tau i - v i * padFin y.2 i) +
        b.outerPower g fext o.gravity y) := by
    intro y
    rw [field_damped h hd hcl hc tau fext hf heps, ← hg, hcc]
    unfold dampedAt
    rw [form_rate h hd ha]
  have key := root_settles (f := f) (f' := fun t => fderiv ℝ b.inertiaForm (Y t) (b.field E c tau fext o (Y t)))
    (T := T) (L := (K + R) / Real.sqrt m) (c := κ) (fun t _ => hf0 t)
    (fun t ht => (((form_smooth h).differentiable (by simp)).differentiableAt.hasFDerivAt).comp_hasDerivWithinAt
      t (hY t ht)) (by positivity) κ0 (fun t ht => by
      rw [hrate]
      have h1 := power_bound tau (Y t).2
      rw [← hR] at h1
      have h2 := hK (Y t).1 (Y t).2
      have h3 : Real.sqrt m * ‖(Y t).2‖ ≤ Real.sqrt (f t) := by
        refine le_trans (mul_le_mul_of_nonneg_left ?_ hsm.le) (hlow t)
        exact Real.le_sqrt_of_sq_le (norm_sq_le_sum _)
      have h4 : (K + R) * ‖(Y t).2‖ ≤ (K + R) / Real.sqrt m * Real.sqrt (f t) := by
        rw [div_mul_eq_mul_div, le_div_iff₀ hsm]
        nlinarith [mul_le_mul_of_nonneg_left h3 (add_nonneg K0 hR0)]
      have h5 := (abs_le.1 h1).2
      have h6 := (abs_le.1 h2).2
      have h7 : ν * ∑ i, (Y t).2 i ^ 2 ≤ ∑ i ∈ range b.dof, v i * padFin (Y t).2 i ^ 2 := by
        rw [mul_sum, sum_range]
        refine sum_le_sum fun i _ => ?_
        rw [padFin_at]
        exact mul_le_mul_of_nonneg_right (hν i i.2) (sq_nonneg _)
      have h8 : κ * f t ≤ ν * ∑ i, (Y t).2 i ^ 2 := by
        have a1 := (hM (Y t).1 (Y t).2).2
        have a2 : f t ≤ (M + 1) * ∑ i, (Y t).2 i ^ 2 := by
          have := hnn (Y t)
          show b.inertiaForm (Y t) ≤ _
          nlinarith
        calc κ * f t ≤ κ * ((M + 1) * ∑ i, (Y t).2 i ^ 2) := mul_le_mul_of_nonneg_left a2 κ0.le
          _ = ν * ∑ i, (Y t).2 i ^ 2 := by rw [hκ]; field_simp
      have e : ∑ i ∈ range b.dof, padFin (Y t).2 i * (tau i - v i * padFin (Y t).2 i) =
          ∑ i ∈ range b.dof, padFin (Y t).2 i * tau i - ∑ i ∈ range b.dof, v i * padFin (Y t).2 i ^ 2 := by
        rw [← sum_sub_distrib]
        exact sum_congr rfl fun i _ => by ring
      rw [e]
      nlinarith) t htT
  have h7 := hlow t
  have h8 := mul_le_mul_of_nonneg_left (hup 0) (Real.exp_pos (-(κ * t))).le
  have e : (K + R) / Real.sqrt m / κ / Real.sqrt m = (K + R) / m / κ := by
    rw [div_right_comm ((K + R) / Real.sqrt m), div_div (K + R), Real.mul_self_sqrt m0.le]
  have h9 : Real.sqrt (∑ i, (Y t).2 i ^ 2) ≤ (Real.exp (-(κ * t)) * (Real.sqrt M *
      Real.sqrt (∑ i, (Y 0).2 i ^ 2)) + (K + R) / Real.sqrt m / κ) / Real.sqrt m := by
    rw [le_div_iff₀ hsm]; linarith
  rw [add_div, e] at h9
  refine h9.trans (add_le_add (le_of_eq (by ring)) ?_)
  rw [div_mul_eq_mul_div, div_mul_eq_mul_div]
  refine div_le_div_of_nonneg_right (div_le_div_of_nonneg_right ?_ m0.le) κ0.le
  nlinarith [mul_nonneg K0 hR0]

/-- C151: a robot whose joints all turn, each with some viscous friction, has a terminal speed: there are
constants, the same for all motions, such that the size of the joint velocities is at most a multiple of
that at the start, which fades exponentially, plus a multiple of one plus the sizes of the torques. -/
theorem C151_terminal (h : Reach E b d) (hd : b.Definite) (ha : b.AxesOK) (ht : ∀ i < b.dof,
      (b.rb i).joint.type = .rx ∨ (b.rb i).joint.type = .ry ∨ (b.rb i).joint.type = .rz)
    {v : ℕ → ℝ} (hc : ∀ i < b.dof, Coef (b.rb i).joint 0 (v i) 0) (hv : ∀ i < b.dof, 0 < v i)
    (fext : FExt) {o : IntOpts} (hf : o.friction = true) (heps : 0 ≤ o.eps) (hcc : o.cc = true) :
    ∃ A B κ, 0 < κ ∧ ∀ tau T q dq, b.Moves E tau fext o T q dq → ∀ t ∈ Set.Icc 0 T,
      Real.sqrt (∑ i ∈ range b.dof, (dq t).getD i 0 ^ 2) ≤
        A * Real.exp (-(κ * t)) * Real.sqrt (∑ i ∈ range b.dof, (dq 0).getD i 0 ^ 2) +
          B * (1 + ∑ i ∈ range b.dof, |tau i|) := by
  obtain ⟨A, B, κ, κ0, hAB⟩ := speed_damped h hd ha ht cache0_clear hc hv fext hf heps hcc
  refine ⟨A, B, κ, κ0, fun tau T q dq hM t htT => ?_⟩
  have := hAB tau T _ ((moves_iff h (hd.massive h.inv.tree) cache0_clear tau fext o).1 hM).2 t htT
  rw [sum_range, sum_range]
  exact this

/-- C151: and so has the simulated robot, up to any given error if the steps are small enough. -/
theorem C151_simulation (h : Reach E b d) (hd : b.Definite) (ha : b.AxesOK) (ht : ∀ i < b.dof,
      (b.rb i).joint.type = .rx ∨ (b.rb i).joint.type = .ry ∨ (b.rb i).joint.type = .rz)
    {v : ℕ → ℝ} (hc : ∀ i < b.dof, Coef (b.rb i).joint 0 (v i) 0) (hv : ∀ i < b.dof, 0 < v i)
    (fext : FExt) {o : IntOpts} (hf : o.friction = true) (heps : 0 ≤ o.eps) (hcc : o.cc = true)
    (hl : o.jointLimits = false) :
    ∃ A B κ, 0 < κ ∧ ∀ tau T, ∀ ε > 0, ∃ h0 > 0, ∀ dt : ℝ, 0 < dt → dt ≤ h0 → ∀ k : ℕ, k * dt ≤ T →
      ∃ b', steps E tau dt fext o k b = .ok b' ∧ ∀ i < b.dof, |b'.dq.getD i 0| ≤
        A * Real.exp (-(κ * (k * dt))) * Real.sqrt (∑ i ∈ range b.dof, b.dq.getD i 0 ^ 2) +
          B * (1 + ∑ i ∈ range b.dof, |tau i|) + ε := by
  have hm := hd.massive h.inv.tree
  obtain ⟨A, B, κ, κ0, hAB⟩ := speed_damped h hd ha ht cache0_clear hc hv fext hf heps hcc
  refine ⟨A, B, κ, κ0, fun tau T ε hε => ?_⟩
  obtain ⟨Y, hY0, hY⟩ := damped_forever h hd ha cache0_clear hc tau fext hf heps hcc b.state
  obtain ⟨h0, hpos, hC⟩ := speeds_follow h hm (damped_smooth h hd cache0_clear hc tau fext hf heps)
    hl hY0 (hY T) hε
  refine ⟨h0, hpos, fun dt d0 d1 k k1 => ?_⟩
  obtain ⟨b', e1, e2⟩ := hC dt d0 d1 k k1
  refine ⟨b', e1, fun i hi => ?_⟩
  have h7 := hAB tau T Y (hY T) (k * dt) ⟨by positivity, k1⟩
  rw [hY0] at h7
  have e3 : ∑ i ∈ range b.dof, b.dq.getD i 0 ^ 2 = ∑ i, b.state.2 i ^ 2 := by
    rw [sum_range]; rfl
  rw [e3]
  exact (e2 i hi).trans (by linarith)

/-- The pendulum moves for ever from every state. -/
example (E : Ext) (m : Method) (aba : Bool) (x w : ℝ) : ∃ (d : Bool) (q dq : ℝ → List ℝ),
    Reach E creak d ∧ creak.Definite ∧ creak.AxesOK ∧
    (∀ i < creak.dof, (creak.rb i).joint.type = .rx ∨ (creak.rb i).joint.type = .ry ∨
      (creak.rb i).joint.type = .rz) ∧ q 0 = [x] ∧ dq 0 = [w] ∧
    ∀ T, creak.Moves E (fun _ => 1) (fun _ => none) ⟨true, true, false, false, m, aba, 0⟩ T q dq := by
  obtain ⟨d, h⟩ := creak_reach E
  have h0 : ∀ k < creak.dof, k = 0 := fun k hk => Nat.lt_one_iff.1 hk
  have hx : creak.AxesOK := fun k hk => by rw [h0 k hk]; rfl
  have hm := creak_definite.massive h.inv.tree
  obtain ⟨Y, hY0, hY⟩ := field_forever h creak_definite hx cache0_clear (fun _ => 1) (fun _ => none)
    ⟨true, true, false, false, m, aba, 0⟩ rfl rfl (fun _ => x, fun _ => w)
  refine ⟨d, fun t => List.ofFn (Y t).1, fun t => List.ofFn (Y t).2, h, creak_definite, hx,
    fun i hi => .inl (by rw [h0 i hi]; rfl), by simp only [hY0]; rfl, by simp only [hY0]; rfl, fun T => ?_⟩
  refine (moves_iff h hm cache0_clear _ _ _).2 ⟨fun t _ => by simp, ?_⟩
  have e : stateOf creak (fun t => List.ofFn (Y t).1) (fun t => List.ofFn (Y t).2) = Y := by
    funext t
    exact Prod.ext (funext fun i => getD_ofFn _ i) (funext fun i => getD_ofFn _ i)
  rw [e]
  exact hY T

/-- It has viscous friction, as C151 needs, and then moves for ever too. -/
example (E : Ext) (m : Method) (aba : Bool) (x w : ℝ) : (∀ i < creak.dof, Coef (creak.rb i).joint 0 2 0) ∧
    ∃ q dq : ℝ → List ℝ, q 0 = [x] ∧ dq 0 = [w] ∧
      ∀ T, creak.Moves E (fun _ => 1) (fun _ => none) ⟨true, true, true, false, m, aba, 0⟩ T q dq := by
  obtain ⟨d, h⟩ := creak_reach E
  have h0 : ∀ k < creak.dof, k = 0 := fun k hk => Nat.lt_one_iff.1 hk
  have hx : creak.AxesOK := fun k hk => by rw [h0 k hk]; rfl
  have hc : ∀ i < creak.dof, Coef (creak.rb i).joint 0 2 0 := fun i hi => by
    rw [h0 i hi]; exact ⟨rfl, rfl, rfl, le_rfl, by norm_num, le_rfl⟩
  exact ⟨hc, C143_exists h creak_definite hx (v := fun _ => 2) hc (fun _ => 1) (fun _ => none)
    (o := ⟨true, true, true, false, m, aba, 0⟩) rfl le_rfl rfl (q0 := [x]) (dq0 := [w]) rfl rfl⟩

end SpatialDyn
