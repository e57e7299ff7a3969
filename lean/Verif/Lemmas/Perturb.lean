import Verif.Lemmas.Converge

/-!
# One-step methods with errors

The error of a sequence that nearly follows a method, from a start near the solution.
-/

namespace SpatialDyn.OneStep

open Set
open scoped ContDiff

variable {V : Type*} [NormedAddCommGroup V] [NormedSpace ℝ V] {F : V → V} {T : ℝ} {Y : ℝ → V}

/-- Steps that are off by `δ`, from a start that is off by `e`. -/
theorem converge_near [ProperSpace V] {p : ℕ} (hp : 1 ≤ p) {Ψ : ℝ → V → V} {Φ : ℝ × V → V}
    (hΨ : ∀ h y, Ψ h y = y + h • Φ (h, y)) (hΦ : ContDiff ℝ 1 Φ) (hY : Solves F T Y)
    (hloc : O T (p + 1) fun x => Y (x.1 + x.2) - Ψ x.2 (Y x.1)) :
    ∃ C R h0 : ℝ, 0 ≤ C ∧ 0 < h0 ∧ h0 ≤ 1 ∧ ∀ h, 0 < h → h ≤ h0 → ∀ e δ : ℝ, 0 ≤ e → 0 ≤ δ →
      e + δ / h ≤ h0 → ∀ (z : ℕ → V) (t0 : ℝ), 0 ≤ t0 → ‖z 0 - Y t0‖ ≤ e →
      (∀ n : ℕ, t0 + (n + 1) * h ≤ T → ‖z n‖ ≤ R → ‖z (n + 1) - Ψ h (z n)‖ ≤ δ) →
      ∀ n : ℕ, t0 + n * h ≤ T → ‖z n - Y (t0 + n * h)‖ ≤ C * (h ^ p + e + δ / h) := by
  by_cases hT : 0 ≤ T
  swap
  · refine ⟨0, 0, 1, le_rfl, one_pos, le_rfl, fun h hh _ e δ _ _ _ z t0 ht0 _ _ n hn => absurd hn ?_⟩
    have : 0 ≤ (n : ℝ) * h := by positivity
    linarith
  obtain ⟨R, hR⟩ := isCompact_Icc.exists_bound_of_continuousOn hY.cont
  obtain ⟨L, hL, hlip⟩ := lip_near hΦ (R + 1)
  obtain ⟨C, hC, hloc⟩ := hloc
  set K := (1 + T + C * T) * Real.exp (L * T) with hK
  have hK0 : 0 ≤ K := by positivity
  refine ⟨K, R + 1, min 1 (1 / (2 * (K + 1))), hK0, lt_min one_pos (by positivity), min_le_left _ _,
    fun h hh hh0 e δ he hδ hsm z t0 ht0 hz0 hstep n hn => ?_⟩
  have h1 : h ≤ 1 := hh0.trans (min_le_left _ _)
  have hw0 : 0 ≤ δ / h := by positivity
  have hdd : δ = h * (δ / h) := by field_simp
  generalize δ / h = w at hw0 hdd hsm ⊢
  have h2 : K * (h ^ p + e + w) ≤ 1 := by
    have e1 : h ^ p ≤ h := by
      calc h ^ p ≤ h ^ 1 := pow_le_pow_of_le_one hh.le h1 hp
        _ = h := pow_one h
    have e2 : h ≤ 1 / (2 * (K + 1)) := hh0.trans (min_le_right _ _)
    have e3 : e + w ≤ 1 / (2 * (K + 1)) := hsm.trans (min_le_right _ _)
    have e4 : h ^ p + e + w ≤ 1 / (K + 1) := by
      have : 1 / (2 * (K + 1)) + 1 / (2 * (K + 1)) = 1 / (K + 1) := by field_simp; norm_num
      linarith
    calc K * (h ^ p + e + w) ≤ K * (1 / (K + 1)) := mul_le_mul_of_nonneg_left e4 hK0
      _ ≤ 1 := by rw [mul_one_div, div_le_one (by positivity)]; linarith
  have hLh : 1 ≤ 1 + L * h := by nlinarith
  have hhp : 0 ≤ h ^ p := by positivity
  -- the bound of the accumulated error
  have small : ∀ n : ℕ, t0 + n * h ≤ T →
      (e + n * (h * (C * h ^ p + w))) * (1 + L * h) ^ n ≤ K * (h ^ p + e + w) := by
    intro n hn
    have hnT : (n : ℝ) * h ≤ T := by linarith
    have hn0 : 0 ≤ (n : ℝ) * h := by positivity
    have e1 : (1 + L * h) ^ n ≤ Real.exp (L * T) := by
      calc (1 + L * h) ^ n ≤ (Real.exp (L * h)) ^ n := by
            refine pow_le_pow_left₀ (by positivity) ?_ n
            linarith [Real.add_one_le_exp (L * h)]
        _ = Real.exp (n * (L * h)) := (Real.exp_nat_mul _ n).symm
        _ ≤ _ := Real.exp_le_exp.2 (by nlinarith)
    have e2 : e + n * (h * (C * h ^ p + w)) ≤ (1 + T + C * T) * (h ^ p + e + w) := by
      have k1 : n * (h * (C * h ^ p + w)) ≤ T * (C * h ^ p + w) := by
        rw [← mul_assoc]
        exact mul_le_mul_of_nonneg_right hnT (by positivity)
      have k2 := mul_nonneg hT hhp
      have k3 := mul_nonneg hT he
      have k4 := mul_nonneg (mul_nonneg hC hT) he
      have k5 := mul_nonneg (mul_nonneg hC hT) hw0
      nlinarith
    calc _ ≤ (1 + T + C * T) * (h ^ p + e + w) * Real.exp (L * T) :=
          mul_le_mul e2 e1 (by positivity) (by positivity)
      _ = _ := by rw [hK]; ring
  have key : ∀ n : ℕ, t0 + n * h ≤ T → ‖z n - Y (t0 + n * h)‖ ≤
      (e + n * (h * (C * h ^ p + w))) * (1 + L * h) ^ n := by
    intro n
    induction n with
    | zero => intro _; simpa using hz0
    | succ n ih =>
      intro hn
      have hn' : t0 + (n : ℝ) * h + h ≤ T := by push_cast at hn; linarith
      have hn0 : 0 ≤ t0 + (n : ℝ) * h := by positivity
      have ih' := ih (by linarith)
      have hcast : t0 + ((n + 1 : ℕ) : ℝ) * h = t0 + n * h + h := by push_cast; ring
      rw [hcast]
      have e1 := (small n (by linarith)).trans h2
      have hYn := hR (t0 + n * h) ⟨hn0, by linarith⟩
      have hzn : ‖z n‖ ≤ R + 1 := by
        have := norm_add_le (z n - Y (t0 + n * h)) (Y (t0 + n * h))
        rw [sub_add_cancel] at this
        linarith
      have e2 := hlip h ⟨hh.le, h1⟩ (z n) (Y (t0 + n * h)) hzn (by linarith)
      have e3 := hloc (t0 + n * h, h) ⟨hn0, hh.le, h1, hn'⟩
      simp only at e3
      have e6 := hstep n (by push_cast at hn; exact hn) hzn
      have e4 : z (n + 1) - Y (t0 + n * h + h) = (z (n + 1) - Ψ h (z n)) + ((z n - Y (t0 + n * h)) +
          h • (Φ (h, z n) - Φ (h, Y (t0 + n * h)))) - (Y (t0 + n * h + h) - Ψ h (Y (t0 + n * h))) := by
        rw [hΨ h (z n), hΨ h (Y (t0 + n * h))]; module
      rw [e4]
      have e5 : ‖h • (Φ (h, z n) - Φ (h, Y (t0 + n * h)))‖ ≤ h * (L * ‖z n - Y (t0 + n * h)‖) := by
        rw [norm_smul, Real.norm_eq_abs, abs_of_pos hh]
        exact mul_le_mul_of_nonneg_left e2 hh.le
      have hq : 1 ≤ (1 + L * h) ^ (n + 1) := one_le_pow₀ hLh
      have hc : 0 ≤ h * (C * h ^ p + w) := by positivity
      have e7 : ‖(z (n + 1) - Ψ h (z n)) + ((z n - Y (t0 + n * h)) +
          h • (Φ (h, z n) - Φ (h, Y (t0 + n * h)))) - (Y (t0 + n * h + h) - Ψ h (Y (t0 + n * h)))‖ ≤
          δ + (‖z n - Y (t0 + n * h)‖ + h * (L * ‖z n - Y (t0 + n * h)‖)) + C * h ^ (p + 1) :=
        (norm_sub_le _ _).trans (add_le_add ((norm_add_le _ _).trans (add_le_add e6
          ((norm_add_le _ _).trans (add_le_add le_rfl e5)))) e3)
      calc _ ≤ _ := e7
        _ = (1 + L * h) * ‖z n - Y (t0 + n * h)‖ + h * (C * h ^ p + w) := by
            rw [hdd, pow_succ]; ring
        _ ≤ (1 + L * h) * ((e + n * (h * (C * h ^ p + w))) * (1 + L * h) ^ n) +
              h * (C * h ^ p + w) * (1 + L * h) ^ (n + 1) := by
            refine add_le_add (mul_le_mul_of_nonneg_left ih' (by positivity)) ?_
            exact le_mul_of_one_le_right hc hq
        _ = (e + (n + 1 : ℕ) * (h * (C * h ^ p + w))) * (1 + L * h) ^ (n + 1) := by
            push_cast; ring
  exact (key n hn).trans (small n hn)

/-- Sequences that nearly follow one of the three methods of `Integrate`. -/
theorem scheme_near {n : ℕ} {F : State n → State n} (hF : ContDiff ℝ ∞ F)
    (hv : ∀ y, (F y).1 = y.2) {Y : ℝ → State n} (hY : Solves F T Y) (m : Method) :
    ∃ C R h0 : ℝ, 0 ≤ C ∧ 0 < h0 ∧ h0 ≤ 1 ∧ ∀ h, 0 < h → h ≤ h0 → ∀ e δ : ℝ, 0 ≤ e → 0 ≤ δ →
      e + δ / h ≤ h0 → ∀ (z : ℕ → State n) (t0 : ℝ), 0 ≤ t0 → ‖z 0 - Y t0‖ ≤ e →
      (∀ k : ℕ, t0 + (k + 1) * h ≤ T → ‖z k‖ ≤ R → ‖z (k + 1) - Body.scheme m F id h (z k)‖ ≤ δ) →
      ∀ k : ℕ, t0 + k * h ≤ T → ‖z k - Y (t0 + k * h)‖ ≤ C * (h ^ order m + e + δ / h) := by
  obtain ⟨Φ, h1, h2, h3⟩ := scheme_local hF hv hY m
  exact converge_near (one_le_order m) h1 h2 hY h3

end SpatialDyn.OneStep
