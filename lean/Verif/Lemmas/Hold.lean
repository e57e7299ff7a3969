import Verif.Lemmas.Perturb

/-!
# One-step methods with inputs held over each step
-/

namespace SpatialDyn.OneStep

open Set
open scoped ContDiff

/-- Errors that grow by a factor `1 + L h` and by `h w` in each step. -/
theorem grow {a : ℕ → ℝ} {N : ℕ} {L h e w T : ℝ} (hL : 0 ≤ L) (hh : 0 ≤ h) (he : 0 ≤ e) (hw : 0 ≤ w)
    (hN : N * h ≤ T) (h0 : a 0 ≤ e) (hs : (1 + T) * Real.exp (L * T) * (e + w) ≤ 1)
    (ha : ∀ n < N, a n ≤ 1 → a (n + 1) ≤ (1 + L * h) * a n + h * w) :
    ∀ n ≤ N, a n ≤ (1 + T) * Real.exp (L * T) * (e + w) := by
  have hT : 0 ≤ T := le_trans (by positivity) hN
  have small : ∀ n ≤ N, (e + n * (h * w)) * (1 + L * h) ^ n ≤ (1 + T) * Real.exp (L * T) * (e + w) := by
    intro n hn
    have hnT : (n : ℝ) * h ≤ T :=
      le_trans (mul_le_mul_of_nonneg_right (Nat.cast_le.2 hn) hh) hN
    have hn0 : 0 ≤ (n : ℝ) * h := by positivity
    have e1 : (1 + L * h) ^ n ≤ Real.exp (L * T) := by
      calc (1 + L * h) ^ n ≤ (Real.exp (L * h)) ^ n := by
            refine pow_le_pow_left₀ (by positivity) ?_ n
            linarith [Real.add_one_le_exp (L * h)]
        _ = Real.exp (n * (L * h)) := (Real.exp_nat_mul _ n).symm
        _ ≤ _ := Real.exp_le_exp.2 (by nlinarith)
    have e2 : e + n * (h * w) ≤ (1 + T) * (e + w) := by
      have k1 : n * (h * w) ≤ T * w := by
        rw [← mul_assoc]
        exact mul_le_mul_of_nonneg_right hnT hw
      have k2 := mul_nonneg hT he
      nlinarith
    calc _ ≤ (1 + T) * (e + w) * Real.exp (L * T) := mul_le_mul e2 e1 (by positivity) (by positivity)
      _ = _ := by ring
  have key : ∀ n ≤ N, a n ≤ (e + n * (h * w)) * (1 + L * h) ^ n := by
    intro n
    induction n with
    | zero => intro _; simpa using h0
    | succ n ih =>
      intro hn
      have ih := ih (by omega)
      have h1 := ha n (by omega) (ih.trans ((small n (by omega)).trans hs))
      have hq : 1 ≤ (1 + L * h) ^ (n + 1) := one_le_pow₀ (by nlinarith)
      have hp : 0 ≤ h * w := by positivity
      calc a (n + 1) ≤ (1 + L * h) * ((e + n * (h * w)) * (1 + L * h) ^ n) + h * w :=
            h1.trans (add_le_add (mul_le_mul_of_nonneg_left ih (by positivity)) le_rfl)
        _ ≤ (1 + L * h) * ((e + n * (h * w)) * (1 + L * h) ^ n) + h * w * (1 + L * h) ^ (n + 1) := by
            nlinarith
        _ = _ := by push_cast; ring
  exact fun n hn => (key n hn).trans (small n hn)

variable {V W : Type*} [NormedAddCommGroup V] [NormedSpace ℝ V] [NormedAddCommGroup W] [NormedSpace ℝ W]

theorem lip_all [ProperSpace V] {Φ : ℝ × V → V'} [NormedAddCommGroup V'] [NormedSpace ℝ V']
    (hΦ : ContDiff ℝ 1 Φ) (R : ℝ) :
    ∃ L, 0 ≤ L ∧ ∀ h ∈ Icc (0 : ℝ) 1, ∀ h' ∈ Icc (0 : ℝ) 1, ∀ y z : V, ‖y‖ ≤ R → ‖z‖ ≤ R →
      ‖Φ (h, y) - Φ (h', z)‖ ≤ L * (|h - h'| + ‖y - z‖) := by
  have hK : IsCompact (Icc (0 : ℝ) 1 ×ˢ Metric.closedBall (0 : V) R) :=
    isCompact_Icc.prod (isCompact_closedBall _ _)
  obtain ⟨M, hM⟩ := hK.exists_bound_of_continuousOn (hΦ.continuous_fderiv (by norm_num)).continuousOn
  have hM0 : ∀ p ∈ Icc (0 : ℝ) 1 ×ˢ Metric.closedBall (0 : V) R, ‖fderiv ℝ Φ p‖ ≤ max M 0 :=
    fun p hp => (hM p hp).trans (le_max_left _ _)
  refine ⟨max M 0, le_max_right _ _, fun h hh h' hh' y z hy hz => ?_⟩
  have hconv : Convex ℝ (Icc (0 : ℝ) 1 ×ˢ Metric.closedBall (0 : V) R) :=
    (convex_Icc 0 1).prod (convex_closedBall _ _)
  have := hconv.norm_image_sub_le_of_norm_fderiv_le (f := Φ) (𝕜 := ℝ)
    (fun x _ => (hΦ.differentiable (by norm_num)).differentiableAt) hM0
    (x := (h', z)) (y := (h, y)) ⟨hh', by simpa using hz⟩ ⟨hh, by simpa using hy⟩
  refine this.trans (mul_le_mul_of_nonneg_left ?_ (le_max_right _ _))
  rw [Prod.mk_sub_mk, Prod.norm_def]
  exact max_le (le_add_of_nonneg_right (norm_nonneg _)) (le_add_of_nonneg_left (abs_nonneg _))

/-- Inputs sampled at the start of each step, with errors, from a start near the solution. -/
theorem hold_near [ProperSpace V] [ProperSpace W] {Φ : ℝ × (W × V) → V} (hΦ : ContDiff ℝ 1 Φ) {T : ℝ}
    {τ : ℝ → W} {Y : ℝ → V}
    (hτ : ∃ L, ∀ s ∈ Icc 0 T, ∀ t ∈ Icc 0 T, ‖τ s - τ t‖ ≤ L * |s - t|)
    (hY : ∀ t ∈ Icc 0 T, HasDerivWithinAt Y (Φ (0, (τ t, Y t))) (Icc 0 T) t) :
    ∃ C h0 : ℝ, 0 ≤ C ∧ 0 < h0 ∧ h0 ≤ 1 ∧ ∀ h, 0 < h → h ≤ h0 → ∀ e η : ℝ, 0 ≤ e → 0 ≤ η →
      e + η ≤ h0 → ∀ (z : ℕ → V) (w : ℕ → W), ‖z 0 - Y 0‖ ≤ e →
      (∀ n : ℕ, (n + 1) * h ≤ T → ‖w n - τ (n * h)‖ ≤ η) →
      (∀ n : ℕ, (n + 1) * h ≤ T → z (n + 1) = z n + h • Φ (h, (w n, z n))) →
      ∀ n : ℕ, n * h ≤ T → ‖z n - Y (n * h)‖ ≤ C * (h + e + η) := by
  by_cases hT : 0 ≤ T
  swap
  · refine ⟨0, 1, le_rfl, one_pos, le_rfl, fun h hh _ e η _ _ _ z w _ _ _ n hn => absurd hn ?_⟩
    have : 0 ≤ (n : ℝ) * h := by positivity
    linarith
  have cY : ContinuousOn Y (Icc 0 T) := fun t ht => (hY t ht).continuousWithinAt
  obtain ⟨R1, hR1⟩ := isCompact_Icc.exists_bound_of_continuousOn cY
  obtain ⟨Lτ, hLτ⟩ := hτ
  have hLτ' : ∀ s ∈ Icc 0 T, ∀ t ∈ Icc 0 T, ‖τ s - τ t‖ ≤ |Lτ| * |s - t| := fun s hs t ht =>
    (hLτ s hs t ht).trans (mul_le_mul_of_nonneg_right (le_abs_self _) (abs_nonneg _))
  set R := max R1 (‖τ 0‖ + |Lτ| * T) with hR
  have bY : ∀ t ∈ Icc 0 T, ‖Y t‖ ≤ R := fun t ht => (hR1 t ht).trans (le_max_left _ _)
  have bτ : ∀ t ∈ Icc 0 T, ‖τ t‖ ≤ R := fun t ht => by
    refine le_trans ?_ (le_max_right _ _)
    have h1 := hLτ' t ht 0 ⟨le_rfl, hT⟩
    rw [sub_zero, abs_of_nonneg ht.1] at h1
    have h2 := norm_add_le (τ t - τ 0) (τ 0)
    rw [sub_add_cancel] at h2
    have h3 := mul_le_mul_of_nonneg_left ht.2 (abs_nonneg Lτ)
    linarith
  obtain ⟨L, hL, hlip⟩ := lip_all hΦ (R + 1)
  obtain ⟨M, hM⟩ := (isCompact_closedBall (0 : W × V) (R + 1)).exists_bound_of_continuousOn
    (f := fun p => Φ (0, p)) (hΦ.continuous.comp (continuous_const.prodMk continuous_id)).continuousOn
  have in0 : (0 : ℝ) ∈ Icc (0 : ℝ) 1 := ⟨le_rfl, zero_le_one⟩
  have bp : ∀ t ∈ Icc 0 T, ‖(τ t, Y t)‖ ≤ R + 1 := fun t ht => by
    rw [Prod.norm_def]; exact max_le (by linarith [bτ t ht]) (by linarith [bY t ht])
  have bM : ∀ t ∈ Icc 0 T, ‖Φ (0, (τ t, Y t))‖ ≤ |M| := fun t ht =>
    (hM _ (by simpa using bp t ht)).trans (le_abs_self _)
  have lY : ∀ s ∈ Icc 0 T, ∀ t ∈ Icc 0 T, ‖Y s - Y t‖ ≤ |M| * |s - t| := fun s hs t ht =>
    (convex_Icc 0 T).norm_image_sub_le_of_norm_hasDerivWithin_le hY bM ht hs
  set D := L * (|Lτ| + |M| + 1) with hD
  have hD0 : 0 ≤ D := by positivity
  -- the error of one step from the solution
  have hloc : ∀ t h : ℝ, 0 ≤ t → 0 ≤ h → h ≤ 1 → t + h ≤ T →
      ‖Y (t + h) - (Y t + h • Φ (h, (τ t, Y t)))‖ ≤ 2 * D * h ^ 2 := by
    intro t h ht hh hh1 hth
    have htI : t ∈ Icc 0 T := ⟨ht, by linarith⟩
    have hsub : Icc t (t + h) ⊆ Icc 0 T := Icc_subset_Icc ht hth
    have hg : ∀ s ∈ Icc t (t + h), HasDerivWithinAt (fun s => Y s - s • Φ (0, (τ t, Y t)))
        (Φ (0, (τ s, Y s)) - Φ (0, (τ t, Y t))) (Icc t (t + h)) s := by
      intro s hs
      have h1 := (hY s (hsub hs)).mono hsub
      have h2 : HasDerivWithinAt (fun s : ℝ => s • Φ (0, (τ t, Y t))) (Φ (0, (τ t, Y t)))
          (Icc t (t + h)) s := by
        simpa using (hasDerivWithinAt_id s (Icc t (t + h))).smul_const (Φ (0, (τ t, Y t)))
      exact h1.sub h2
    have hb : ∀ s ∈ Icc t (t + h), ‖Φ (0, (τ s, Y s)) - Φ (0, (τ t, Y t))‖ ≤ D * h := by
      intro s hs
      have h1 := hlip 0 in0 0 in0 (τ s, Y s) (τ t, Y t) (bp s (hsub hs)) (bp t htI)
      have h2 := hLτ' s (hsub hs) t htI
      have h3 := lY s (hsub hs) t htI
      have h4 : |s - t| ≤ h := by rw [abs_of_nonneg (by linarith [hs.1])]; linarith [hs.2]
      have h5 : ‖((τ s, Y s) : W × V) - (τ t, Y t)‖ ≤ (|Lτ| + |M|) * h := by
        rw [Prod.mk_sub_mk, Prod.norm_def]
        have k1 := mul_le_mul_of_nonneg_left h4 (abs_nonneg Lτ)
        have k2 := mul_le_mul_of_nonneg_left h4 (abs_nonneg M)
        have k3 : 0 ≤ |Lτ| * h := by positivity
        have k4 : 0 ≤ |M| * h := by positivity
        exact max_le (by simp only; linarith) (by simp only; linarith)
      rw [sub_self, abs_zero, zero_add] at h1
      refine h1.trans ?_
      rw [hD]
      have := mul_le_mul_of_nonneg_left h5 hL
      have := mul_nonneg hL hh
      nlinarith
    have h6 := (convex_Icc t (t + h)).norm_image_sub_le_of_norm_hasDerivWithin_le hg hb
      ⟨le_rfl, by linarith⟩ ⟨by linarith, le_rfl⟩
    have h7 := hlip 0 in0 h ⟨hh, hh1⟩ (τ t, Y t) (τ t, Y t) (bp t htI) (bp t htI)
    rw [sub_self, norm_zero, add_zero, zero_sub, abs_neg, abs_of_nonneg hh] at h7
    rw [show t + h - t = h by ring, Real.norm_eq_abs, abs_of_nonneg hh] at h6
    have e1 : Y (t + h) - (Y t + h • Φ (h, (τ t, Y t))) =
        (Y (t + h) - (t + h) • Φ (0, (τ t, Y t)) - (Y t - t • Φ (0, (τ t, Y t)))) +
          h • (Φ (0, (τ t, Y t)) - Φ (h, (τ t, Y t))) := by module
    rw [e1]
    refine (norm_add_le _ _).trans ?_
    rw [norm_smul, Real.norm_eq_abs, abs_of_nonneg hh]
    have h8 := mul_le_mul_of_nonneg_left h7 hh
    have h9 : L ≤ D := by
      rw [hD]
      have := mul_nonneg hL (abs_nonneg Lτ)
      have := mul_nonneg hL (abs_nonneg M)
      nlinarith
    have h10 := mul_le_mul_of_nonneg_right h9 (sq_nonneg h)
    nlinarith
  set K := (1 + T) * Real.exp (L * T) with hK
  have hK0 : 0 ≤ K := by positivity
  set A := 1 + L + 2 * D with hA
  have hA1 : 1 ≤ A := by linarith
  have hA0 : 0 ≤ A := by linarith
  refine ⟨K * A, min 1 (1 / (2 * (K * A + 1))), by positivity, lt_min one_pos (by positivity),
    min_le_left _ _, fun h hh hh0 e η he hη hsm z w hz0 hw hz n hn => ?_⟩
  have h1 : h ≤ 1 := hh0.trans (min_le_left _ _)
  have hη1 : η ≤ 1 := by linarith [hsm.trans (min_le_left _ _)]
  have hle : e + (L * η + 2 * D * h) ≤ A * (h + e + η) := by
    rw [hA]
    have := mul_nonneg hL hh.le
    have := mul_nonneg hL he
    have := mul_nonneg hD0 he
    have := mul_nonneg hD0 hη
    nlinarith
  have hs1 : K * (e + (L * η + 2 * D * h)) ≤ 1 := by
    have e2 : h ≤ 1 / (2 * (K * A + 1)) := hh0.trans (min_le_right _ _)
    have e3 : e + η ≤ 1 / (2 * (K * A + 1)) := hsm.trans (min_le_right _ _)
    have e4 : h + e + η ≤ 1 / (K * A + 1) := by
      have : 1 / (2 * (K * A + 1)) + 1 / (2 * (K * A + 1)) = 1 / (K * A + 1) := by
        field_simp; norm_num
      linarith
    have hKA : 0 ≤ K * A := by positivity
    calc K * (e + (L * η + 2 * D * h)) ≤ K * (A * (h + e + η)) := mul_le_mul_of_nonneg_left hle hK0
      _ = K * A * (h + e + η) := by ring
      _ ≤ K * A * (1 / (K * A + 1)) := mul_le_mul_of_nonneg_left e4 hKA
      _ ≤ 1 := by rw [mul_one_div, div_le_one (by positivity)]; linarith
  have g := grow (a := fun n => ‖z n - Y (n * h)‖) (N := n) hL hh.le he
    (w := L * η + 2 * D * h) (by positivity) hn (by simpa using hz0) hs1 (fun k hk ha => ?_) n le_rfl
  · refine g.trans ?_
    calc K * (e + (L * η + 2 * D * h)) ≤ K * (A * (h + e + η)) := mul_le_mul_of_nonneg_left hle hK0
      _ = K * A * (h + e + η) := by ring
  · have hkn : ((k : ℝ) + 1) * h ≤ T := by
      have : ((k : ℝ) + 1) ≤ n := by exact_mod_cast hk
      exact (mul_le_mul_of_nonneg_right this hh.le).trans hn
    have hkh : (k : ℝ) * h + h ≤ T := by linarith
    have hk0 : 0 ≤ (k : ℝ) * h := by positivity
    have htI : (k : ℝ) * h ∈ Icc 0 T := ⟨hk0, by linarith⟩
    have e1 := hloc (k * h) h hk0 hh.le h1 hkh
    have hwk := hw k hkn
    have bz : ‖(w k, z k)‖ ≤ R + 1 := by
      rw [Prod.norm_def]
      have k1 := norm_add_le (z k - Y (k * h)) (Y (k * h))
      have k2 := norm_add_le (w k - τ (k * h)) (τ (k * h))
      rw [sub_add_cancel] at k1 k2
      exact max_le (by simp only; linarith [bτ _ htI]) (by simp only; linarith [bY _ htI])
    have e2 := hlip h ⟨hh.le, h1⟩ h ⟨hh.le, h1⟩ (w k, z k) (τ (k * h), Y (k * h)) bz (bp _ htI)
    have e3 : ‖((w k, z k) : W × V) - (τ (k * h), Y (k * h))‖ ≤ η + ‖z k - Y (k * h)‖ := by
      rw [Prod.mk_sub_mk, Prod.norm_def]
      exact max_le (by simp only; linarith [norm_nonneg (z k - Y (k * h))]) (by simp only; linarith)
    rw [sub_self, abs_zero, zero_add] at e2
    have e4 : z (k + 1) - Y (((k + 1 : ℕ) : ℝ) * h) = (z k - Y (k * h)) +
        h • (Φ (h, (w k, z k)) - Φ (h, (τ (k * h), Y (k * h)))) -
        (Y (k * h + h) - (Y (k * h) + h • Φ (h, (τ (k * h), Y (k * h))))) := by
      rw [hz k hkn, show ((k + 1 : ℕ) : ℝ) * h = k * h + h by push_cast; ring]
      module
    rw [e4]
    refine (norm_sub_le _ _).trans ?_
    have e5 := norm_add_le (z k - Y (k * h)) (h • (Φ (h, (w k, z k)) - Φ (h, (τ (k * h), Y (k * h)))))
    rw [norm_smul, Real.norm_eq_abs, abs_of_pos hh] at e5
    have e6 := mul_le_mul_of_nonneg_left (e2.trans (mul_le_mul_of_nonneg_left e3 hL)) hh.le
    nlinarith

/-- The increments of the three methods are smooth in inputs and states. -/
theorem scheme_inputs {n : ℕ} {F : W → State n → State n}
    (hF : ContDiff ℝ 1 fun p : W × State n => F p.1 p.2) (hv : ∀ w y, (F w y).1 = y.2) (m : Method) :
    ∃ Φ : ℝ × (W × State n) → State n, ContDiff ℝ 1 Φ ∧ (∀ w y, Φ (0, (w, y)) = F w y) ∧
      ∀ h w y, Body.scheme m (F w) id h y = y + h • Φ (h, (w, y)) := by
  have hfst : ContDiff ℝ 1 fun p : ℝ × (W × State n) => p.1 := contDiff_fst
  have hw : ContDiff ℝ 1 fun p : ℝ × (W × State n) => p.2.1 := contDiff_fst.comp contDiff_snd
  have hsnd : ContDiff ℝ 1 fun p : ℝ × (W × State n) => p.2.2 := contDiff_snd.comp contDiff_snd
  have hs : ContDiff ℝ 1 fun p : ℝ × (W × State n) => F p.2.1 p.2.2 := hF.comp (hw.prodMk hsnd)
  cases m with
  | euler =>
    refine ⟨fun p => F p.2.1 p.2.2 + (p.1 / 2) • ((F p.2.1 p.2.2).2, 0), ?_, fun w y => by simp,
      fun h w y => ?_⟩
    · exact hs.add ((hfst.div_const 2).smul (hs.snd.prodMk contDiff_const))
    · refine Prod.ext ?_ ?_
      · simp only [Body.scheme, taylor, id, Prod.fst_add, Prod.smul_fst, hv]
        module
      · simp only [Body.scheme, taylor, id, Prod.snd_add, Prod.smul_snd]
        module
  | heuns =>
    refine ⟨fun p => (1 / 2 : ℝ) • F p.2.1 p.2.2 +
      (1 / 2 : ℝ) • F p.2.1 (p.2.2 + p.1 • F p.2.1 p.2.2), ?_, fun w y => ?_, fun h w y => heun_eq h y⟩
    · exact (hs.const_smul _).add ((hF.comp (hw.prodMk (hsnd.add (hfst.smul hs)))).const_smul _)
    · simp only [zero_smul, add_zero]
      module
  | rk4 =>
    have hk2 : ContDiff ℝ 1 fun p : ℝ × (W × State n) => F p.2.1 (p.2.2 + (p.1 / 2) • F p.2.1 p.2.2) :=
      hF.comp (hw.prodMk (hsnd.add ((hfst.div_const 2).smul hs)))
    have hk3 : ContDiff ℝ 1 fun p : ℝ × (W × State n) =>
        F p.2.1 (p.2.2 + (p.1 / 2) • F p.2.1 (p.2.2 + (p.1 / 2) • F p.2.1 p.2.2)) :=
      hF.comp (hw.prodMk (hsnd.add ((hfst.div_const 2).smul hk2)))
    have hk4 : ContDiff ℝ 1 fun p : ℝ × (W × State n) =>
        F p.2.1 (p.2.2 + p.1 • F p.2.1 (p.2.2 + (p.1 / 2) •
          F p.2.1 (p.2.2 + (p.1 / 2) • F p.2.1 p.2.2))) :=
      hF.comp (hw.prodMk (hsnd.add (hfst.smul hk3)))
    refine ⟨fun p => (1 / 6 : ℝ) • (F p.2.1 p.2.2 +
      (2 : ℝ) • F p.2.1 (p.2.2 + (p.1 / 2) • F p.2.1 p.2.2) +
      (2 : ℝ) • F p.2.1 (p.2.2 + (p.1 / 2) • F p.2.1 (p.2.2 + (p.1 / 2) • F p.2.1 p.2.2)) +
      F p.2.1 (p.2.2 + p.1 • F p.2.1 (p.2.2 + (p.1 / 2) •
        F p.2.1 (p.2.2 + (p.1 / 2) • F p.2.1 p.2.2)))), ?_, fun w y => ?_,
      fun h w y => (rk4_eq h y).trans ?_⟩
    · exact (((hs.add (hk2.const_smul _)).add (hk3.const_smul _)).add hk4).const_smul _
    · simp only [zero_div, zero_smul, add_zero]
      module
    · rw [smul_smul, mul_one_div]

end SpatialDyn.OneStep
