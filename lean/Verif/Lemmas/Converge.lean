import Verif.Lemmas.RungeKutta
import Mathlib.Analysis.SpecialFunctions.Exp
import Mathlib.Analysis.ODE.Gronwall
import Mathlib.Analysis.ODE.PicardLindelof

/-!
# Global error of one-step methods

Local errors of order `p + 1` and smoothness of the increments give convergence of order `p`.
-/

namespace SpatialDyn.OneStep

open Set
open scoped ContDiff

variable {V : Type*} [NormedAddCommGroup V] [NormedSpace ℝ V] {F : V → V} {T : ℝ} {Y : ℝ → V}

theorem Solves.cont (hY : Solves F T Y) : ContinuousOn Y (Icc 0 T) :=
  fun t ht => (hY t ht).continuousWithinAt

/-- A smooth increment is Lipschitz near the solution. -/
theorem lip_near [ProperSpace V] {Φ : ℝ × V → V} (hΦ : ContDiff ℝ 1 Φ) (R : ℝ) :
    ∃ L, 0 ≤ L ∧ ∀ h ∈ Icc (0 : ℝ) 1, ∀ y z : V, ‖y‖ ≤ R → ‖z‖ ≤ R →
      ‖Φ (h, y) - Φ (h, z)‖ ≤ L * ‖y - z‖ := by
  have hK : IsCompact (Icc (0 : ℝ) 1 ×ˢ Metric.closedBall (0 : V) R) :=
    isCompact_Icc.prod (isCompact_closedBall _ _)
  obtain ⟨M, hM⟩ := hK.exists_bound_of_continuousOn (hΦ.continuous_fderiv (by norm_num)).continuousOn
  have hM0 : ∀ p ∈ Icc (0 : ℝ) 1 ×ˢ Metric.closedBall (0 : V) R, ‖fderiv ℝ Φ p‖ ≤ max M 0 :=
    fun p hp => (hM p hp).trans (le_max_left _ _)
  refine ⟨max M 0, le_max_right _ _, fun h hh y z hy hz => ?_⟩
  have hconv : Convex ℝ (Icc (0 : ℝ) 1 ×ˢ Metric.closedBall (0 : V) R) :=
    (convex_Icc 0 1).prod (convex_closedBall _ _)
  have := hconv.norm_image_sub_le_of_norm_fderiv_le (f := Φ) (𝕜 := ℝ)
    (fun x _ => (hΦ.differentiable (by norm_num)).differentiableAt) hM0
    (x := (h, z)) (y := (h, y)) ⟨hh, by simpa using hz⟩ ⟨hh, by simpa using hy⟩
  refine this.trans (le_of_eq ?_)
  congr 1
  rw [Prod.mk_sub_mk, sub_self, Prod.norm_def]
  simp

/-- Convergence of order `p`. -/
theorem converge [ProperSpace V] {p : ℕ} (hp : 1 ≤ p) {Ψ : ℝ → V → V} {Φ : ℝ × V → V}
    (hΨ : ∀ h y, Ψ h y = y + h • Φ (h, y)) (hΦ : ContDiff ℝ 1 Φ) (hY : Solves F T Y)
    (hloc : O T (p + 1) fun x => Y (x.1 + x.2) - Ψ x.2 (Y x.1)) :
    ∃ C h0, 0 < h0 ∧ ∀ h, 0 < h → h ≤ h0 → ∀ n : ℕ, n * h ≤ T →
      ‖(Ψ h)^[n] (Y 0) - Y (n * h)‖ ≤ C * h ^ p := by
  by_cases hT : 0 ≤ T
  swap
  · refine ⟨0, 1, one_pos, fun h hh _ n hn => absurd hn ?_⟩
    have : 0 ≤ (n : ℝ) * h := by positivity
    linarith
  obtain ⟨R, hR⟩ := isCompact_Icc.exists_bound_of_continuousOn hY.cont
  obtain ⟨L, hL, hlip⟩ := lip_near hΦ (R + 1)
  obtain ⟨C, hC, hloc⟩ := hloc
  set K := C * T * Real.exp (L * T) with hK
  have hK0 : 0 ≤ K := by positivity
  refine ⟨K, min 1 (1 / (K + 1)), lt_min one_pos (by positivity), fun h hh hh0 n hn => ?_⟩
  have h1 : h ≤ 1 := hh0.trans (min_le_left _ _)
  have h2 : K * h ^ p ≤ 1 := by
    have e1 : h ^ p ≤ h := by
      calc h ^ p ≤ h ^ 1 := pow_le_pow_of_le_one hh.le h1 hp
        _ = h := pow_one h
    have e2 : h ≤ 1 / (K + 1) := hh0.trans (min_le_right _ _)
    have e3 : K * (1 / (K + 1)) ≤ 1 := by
      rw [mul_one_div, div_le_one (by positivity)]; linarith
    calc K * h ^ p ≤ K * (1 / (K + 1)) := mul_le_mul_of_nonneg_left (e1.trans e2) hK0
      _ ≤ 1 := e3
  have hLh : 1 ≤ 1 + L * h := by nlinarith
  -- the accumulated error
  have key : ∀ n : ℕ, n * h ≤ T → ‖(Ψ h)^[n] (Y 0) - Y (n * h)‖ ≤
      C * h ^ (p + 1) * (n * (1 + L * h) ^ n) ∧
      C * h ^ (p + 1) * (n * (1 + L * h) ^ n) ≤ K * h ^ p := by
    intro n hn
    have hb : C * h ^ (p + 1) * (n * (1 + L * h) ^ n) ≤ K * h ^ p := by
      have e1 : (1 + L * h) ^ n ≤ Real.exp (L * T) := by
        calc (1 + L * h) ^ n ≤ (Real.exp (L * h)) ^ n := by
              refine pow_le_pow_left₀ (by positivity) ?_ n
              linarith [Real.add_one_le_exp (L * h)]
          _ = Real.exp (n * (L * h)) := (Real.exp_nat_mul _ n).symm
          _ ≤ _ := Real.exp_le_exp.2 (by nlinarith)
      calc C * h ^ (p + 1) * (n * (1 + L * h) ^ n) = C * (n * h) * (1 + L * h) ^ n * h ^ p := by
            rw [pow_succ]; ring
        _ ≤ C * T * Real.exp (L * T) * h ^ p := by gcongr
    refine ⟨?_, hb⟩
    clear hb
    induction n with
    | zero => simp
    | succ n ih =>
      have hn' : (n : ℝ) * h + h ≤ T := by push_cast at hn; linarith
      have hn0 : 0 ≤ (n : ℝ) * h := by positivity
      have ih' := ih (by linarith)
      set z := (Ψ h)^[n] (Y 0) with hz
      rw [Function.iterate_succ_apply', ← hz]
      have hcast : ((n + 1 : ℕ) : ℝ) * h = n * h + h := by push_cast; ring
      rw [hcast]
      -- the computed state is still near the solution
      have e1 : C * h ^ (p + 1) * (n * (1 + L * h) ^ n) ≤ 1 := by
        refine le_trans ?_ h2
        have e1 : (1 + L * h) ^ n ≤ Real.exp (L * T) := by
          calc (1 + L * h) ^ n ≤ (Real.exp (L * h)) ^ n := by
                refine pow_le_pow_left₀ (by positivity) ?_ n
                linarith [Real.add_one_le_exp (L * h)]
            _ = Real.exp (n * (L * h)) := (Real.exp_nat_mul _ n).symm
            _ ≤ _ := Real.exp_le_exp.2 (by nlinarith)
        calc C * h ^ (p + 1) * (n * (1 + L * h) ^ n) = C * (n * h) * (1 + L * h) ^ n * h ^ p := by
              rw [pow_succ]; ring
          _ ≤ C * T * Real.exp (L * T) * h ^ p := by
            have : (n : ℝ) * h ≤ T := by linarith
            gcongr
      have hYn := hR (n * h) ⟨hn0, by linarith⟩
      have hzn : ‖z‖ ≤ R + 1 := by
        have := norm_add_le (z - Y (n * h)) (Y (n * h))
        rw [sub_add_cancel] at this
        linarith
      have e2 := hlip h ⟨hh.le, h1⟩ z (Y (n * h)) hzn (by linarith)
      have e3 := hloc (n * h, h) ⟨hn0, hh.le, h1, hn'⟩
      simp only at e3
      have e4 : Ψ h z - Y (n * h + h) = (z - Y (n * h)) + h • (Φ (h, z) - Φ (h, Y (n * h))) -
          (Y (n * h + h) - Ψ h (Y (n * h))) := by
        rw [hΨ h z, hΨ h (Y (n * h))]; module
      rw [e4]
      have e5 : ‖h • (Φ (h, z) - Φ (h, Y (n * h)))‖ ≤ h * (L * ‖z - Y (n * h)‖) := by
        rw [norm_smul, Real.norm_eq_abs, abs_of_pos hh]
        exact mul_le_mul_of_nonneg_left e2 hh.le
      have hq : 1 ≤ (1 + L * h) ^ (n + 1) := one_le_pow₀ hLh
      have hc : 0 ≤ C * h ^ (p + 1) := by positivity
      calc _ ≤ ‖(z - Y (n * h)) + h • (Φ (h, z) - Φ (h, Y (n * h)))‖ +
              ‖Y (n * h + h) - Ψ h (Y (n * h))‖ := norm_sub_le _ _
        _ ≤ (‖z - Y (n * h)‖ + h * (L * ‖z - Y (n * h)‖)) + C * h ^ (p + 1) :=
            add_le_add ((norm_add_le _ _).trans (add_le_add le_rfl e5)) e3
        _ = (1 + L * h) * ‖z - Y (n * h)‖ + C * h ^ (p + 1) := by ring
        _ ≤ (1 + L * h) * (C * h ^ (p + 1) * (n * (1 + L * h) ^ n)) +
              C * h ^ (p + 1) * (1 + L * h) ^ (n + 1) := by
            refine add_le_add (mul_le_mul_of_nonneg_left ih' (by positivity)) ?_
            exact le_mul_of_one_le_right hc hq
        _ = C * h ^ (p + 1) * ((n + 1 : ℕ) * (1 + L * h) ^ (n + 1)) := by
            push_cast; ring
  exact (key n hn).1.trans (key n hn).2

/-- The order of a method. -/
def order : Method → ℕ
  | .euler => 1
  | .heuns => 2
  | .rk4 => 4

theorem one_le_order (m : Method) : 1 ≤ order m := by cases m <;> simp [order]

/-- Increments and local errors of the three methods of `Integrate`. -/
theorem scheme_local {n : ℕ} {F : State n → State n} (hF : ContDiff ℝ ∞ F)
    (hv : ∀ y, (F y).1 = y.2) {Y : ℝ → State n} (hY : Solves F T Y) (m : Method) :
    ∃ Φ : ℝ × State n → State n, (∀ h y, Body.scheme m F id h y = y + h • Φ (h, y)) ∧ ContDiff ℝ 1 Φ ∧
      O T (order m + 1) fun x => Y (x.1 + x.2) - Body.scheme m F id x.2 (Y x.1) := by
  have hF1 : ContDiff ℝ 1 F := hF.of_le (by simp)
  have hfst : ContDiff ℝ 1 fun p : ℝ × State n => p.1 := contDiff_fst
  have hsnd : ContDiff ℝ 1 fun p : ℝ × State n => p.2 := contDiff_snd
  have hs : ContDiff ℝ 1 fun p : ℝ × State n => F p.2 := hF1.comp hsnd
  cases m with
  | euler =>
    refine ⟨fun p => F p.2 + (p.1 / 2) • ((F p.2).2, 0), fun h y => ?_, ?_, ?_⟩
    · refine Prod.ext ?_ ?_
      · simp only [Body.scheme, taylor, id, Prod.fst_add, Prod.smul_fst, hv]
        module
      · simp only [Body.scheme, taylor, id, Prod.snd_add, Prod.smul_snd]
        module
    · exact hs.add ((hfst.div_const 2).smul (hs.snd.prodMk contDiff_const))
    · have hZ := hY.ladder hF
      have t0 := hZ.expand 0 1 (c := 1) zero_le_one le_rfl
      simp only [Finset.sum_range_succ, Finset.sum_range_zero, Nat.factorial, one_mul, zero_add,
        lie_one, lie, id, pow_zero, pow_one, Nat.cast_one, div_one, one_smul] at t0
      have b0 : O T 0 fun p => Y p.1 := (hZ.bounded 0 (c := 0) le_rfl zero_le_one).congr
        fun p _ => by simp [lie]
      have b1 : O T 0 fun p => (((F (Y p.1)).2, 0) : State n) :=
        O.bdd (G := fun y => (((F y).2, 0) : State n))
          (hF.continuous.snd.prodMk continuous_const) b0
      refine (t0.sub ((b1.step 2).smul (1 / 2))).congr fun p _ => ?_
      refine Prod.ext ?_ ?_
      · simp [Body.scheme, taylor, hv, lie_one]
        module
      · simp [Body.scheme, taylor, hv, lie_one]
  | heuns =>
    refine ⟨fun p => (1 / 2 : ℝ) • F p.2 +
      (1 / 2 : ℝ) • F (p.2 + p.1 • F p.2), fun h y => heun_eq h y, ?_, heun_local hF hY⟩
    exact (hs.const_smul _).add ((hF1.comp (hsnd.add (hfst.smul hs))).const_smul _)
  | rk4 =>
    have hk2 : ContDiff ℝ 1 fun p : ℝ × State n => F (p.2 + (p.1 / 2) • F p.2) :=
      hF1.comp (hsnd.add ((hfst.div_const 2).smul hs))
    have hk3 : ContDiff ℝ 1 fun p : ℝ × State n =>
        F (p.2 + (p.1 / 2) • F (p.2 + (p.1 / 2) • F p.2)) :=
      hF1.comp (hsnd.add ((hfst.div_const 2).smul hk2))
    have hk4 : ContDiff ℝ 1 fun p : ℝ × State n =>
        F (p.2 + p.1 • F (p.2 + (p.1 / 2) • F (p.2 + (p.1 / 2) • F p.2))) :=
      hF1.comp (hsnd.add (hfst.smul hk3))
    refine ⟨fun p => (1 / 6 : ℝ) • (F p.2 +
      (2 : ℝ) • F (p.2 + (p.1 / 2) • F p.2) +
      (2 : ℝ) • F (p.2 + (p.1 / 2) • F (p.2 + (p.1 / 2) • F p.2)) +
      F (p.2 + p.1 • F (p.2 + (p.1 / 2) • F (p.2 + (p.1 / 2) • F p.2)))),
      fun h y => (rk4_eq h y).trans ?_, ?_, rk4_local hF hY⟩
    · rw [smul_smul, mul_one_div]
    · exact (((hs.add (hk2.const_smul _)).add (hk3.const_smul _)).add hk4).const_smul _

/-- The three methods of `Integrate` converge with their orders. -/
theorem scheme_converge {n : ℕ} {F : State n → State n} (hF : ContDiff ℝ ∞ F)
    (hv : ∀ y, (F y).1 = y.2) {Y : ℝ → State n} (hY : Solves F T Y) (m : Method) :
    ∃ C h0, 0 < h0 ∧ ∀ h, 0 < h → h ≤ h0 → ∀ k : ℕ, k * h ≤ T →
      ‖(Body.scheme m F id h)^[k] (Y 0) - Y (k * h)‖ ≤ C * h ^ order m := by
  obtain ⟨Φ, h1, h2, h3⟩ := scheme_local hF hv hY m
  exact converge (one_le_order m) h1 h2 hY h3

end SpatialDyn.OneStep
