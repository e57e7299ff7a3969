import Verif.Lemmas.Lyapunov

/-!
# A Runge-Kutta step with inputs held constant

The inputs are computed from the state at the beginning of the step.
-/

namespace SpatialDyn.OneStep

open Set Filter
open scoped ContDiff NNReal Topology

variable {X U : Type*} [NormedAddCommGroup X] [NormedSpace ℝ X] [NormedAddCommGroup U]
  [NormedSpace ℝ U] {G : U × X → X} {u : X → U} {y0 : X}

theorem rk4_expand (F : X → X) (dt : ℝ) (y : X) :
    rk4 F id dt y - y - dt • F y =
      (dt / 3) • (F (y + (dt / 2) • F y) - F y) +
      (dt / 3) • (F (y + (dt / 2) • F (y + (dt / 2) • F y)) - F y) +
      (dt / 6) • (F (y + dt • F (y + (dt / 2) • F (y + (dt / 2) • F y))) - F y) := by
  have e : ∀ v : X, dt • (1 / 2 : ℝ) • v = (dt / 2) • v := fun v => by
    rw [smul_smul]; congr 1; ring
  simp only [rk4, rkStep, rkSlopes, lin, id, List.nil_append, List.cons_append, zero_smul, zero_add,
    add_zero, one_smul, e]
  module

theorem local_lip {V W : Type*} [NormedAddCommGroup V] [NormedSpace ℝ V] [NormedAddCommGroup W]
    [NormedSpace ℝ W] {f : V → W} (hf : ContDiff ℝ 1 f) (x : V) :
    ∃ L η : ℝ, 0 ≤ L ∧ 0 < η ∧ ∀ a b, ‖a - x‖ ≤ η → ‖b - x‖ ≤ η → ‖f a - f b‖ ≤ L * ‖a - b‖ := by
  obtain ⟨K, t, ht, hK⟩ := hf.contDiffAt (x := x) |>.exists_lipschitzOnWith
  obtain ⟨η, hη, hs⟩ := Metric.mem_nhds_iff.1 ht
  refine ⟨K, η / 2, K.2, by positivity, fun a b ha hb => ?_⟩
  have ha' : a ∈ t := hs (by rw [mem_ball_iff_norm]; linarith)
  have hb' : b ∈ t := hs (by rw [mem_ball_iff_norm]; linarith)
  simpa [dist_eq_norm] using hK.dist_le_mul a ha' b hb'

/-- The step is consistent with the closed loop, uniformly near an equilibrium. -/
theorem rk4_frozen (hG : ContDiff ℝ 1 G) (hu : ContDiff ℝ 1 u) (h0 : G (u y0, y0) = 0) :
    ∃ ρ > 0, ∃ h1 > 0, ∃ K, ∀ dt, 0 < dt → dt ≤ h1 → ∀ y, ‖y - y0‖ ≤ ρ →
      ‖rk4 (fun z => G (u y, z)) id dt y - y - dt • G (u y, y)‖ ≤ K * dt ^ 2 * ‖y - y0‖ := by
  obtain ⟨L, η, hL, hη, hlip⟩ := local_lip hG (u y0, y0)
  obtain ⟨L', η', hL', hη', hlip'⟩ := local_lip (hG.comp (hu.prodMk contDiff_id)) y0
  obtain ⟨Lu, ηu, hLu, hηu, hlipu⟩ := local_lip hu y0
  set ρ := min (η / 2) (min η' (min ηu (η / (Lu + 1)))) with hρ
  have hρ0 : 0 < ρ := by positivity
  set h1 := 1 / (2 * L' + 2 * L + 1) with hh1
  have hh0 : 0 < h1 := by positivity
  refine ⟨ρ, hρ0, h1, hh0, L * L', fun dt hdt hdt' y hy => ?_⟩
  have y1 : ‖y - y0‖ ≤ η / 2 := hy.trans (min_le_left _ _)
  have y2 : ‖y - y0‖ ≤ η' := hy.trans ((min_le_right _ _).trans (min_le_left _ _))
  have y3 : ‖y - y0‖ ≤ ηu := hy.trans ((min_le_right _ _).trans ((min_le_right _ _).trans (min_le_left _ _)))
  have y4 : ‖y - y0‖ ≤ η / (Lu + 1) :=
    hy.trans ((min_le_right _ _).trans ((min_le_right _ _).trans (min_le_right _ _)))
  have hd : dt * (2 * L' + 2 * L + 1) ≤ 1 := by
    have := mul_le_mul_of_nonneg_right hdt' (show (0 : ℝ) ≤ 2 * L' + 2 * L + 1 by positivity)
    rwa [hh1, one_div_mul_cancel (by positivity)] at this
  have hdL : 2 * (dt * L) ≤ 1 := by nlinarith
  have hdL' : 2 * (dt * L') ≤ 1 := by nlinarith
  have huy : ‖u y - u y0‖ ≤ η := by
    have h2 := hlipu y y0 y3 (by simpa using hηu.le)
    have h3 : Lu * ‖y - y0‖ ≤ (Lu + 1) * (η / (Lu + 1)) := by
      have : Lu ≤ Lu + 1 := by linarith
      gcongr
    rw [mul_div_cancel₀ _ (by positivity)] at h3
    exact h2.trans h3
  set n := ‖y - y0‖ with hn
  have hn0 : 0 ≤ n := norm_nonneg _
  set F : X → X := fun z => G (u y, z) with hF
  show ‖rk4 F id dt y - y - dt • F y‖ ≤ _
  have hFl : ∀ a b, ‖a - y0‖ ≤ η → ‖b - y0‖ ≤ η → ‖F a - F b‖ ≤ L * ‖a - b‖ := by
    intro a b ha hb
    have h2 := hlip (u y, a) (u y, b) (by
      rw [Prod.norm_def]; exact max_le huy ha) (by rw [Prod.norm_def]; exact max_le huy hb)
    refine h2.trans_eq ?_
    rw [Prod.norm_def]
    simp
  have hk1 : ‖F y‖ ≤ L' * n := by
    have h2 := hlip' y y0 y2 (by simpa using hη'.le)
    simp only [Function.comp, id, h0, sub_zero] at h2
    exact h2
  -- a stage at distance at most `dt` along a short slope
  have hstage : ∀ (s : ℝ) (k : X), 0 ≤ s → s ≤ dt → ‖k‖ ≤ 2 * (L' * n) →
      ‖F (y + s • k) - F y‖ ≤ L * (s * ‖k‖) := by
    intro s k hs hs' hk
    have h2 : ‖s • k‖ = s * ‖k‖ := by rw [norm_smul, Real.norm_eq_abs, abs_of_nonneg hs]
    have h3 : s * ‖k‖ ≤ dt * (2 * (L' * n)) := by gcongr
    have h4 : dt * (2 * (L' * n)) ≤ n := by nlinarith
    have h5 := hFl (y + s • k) y (by
      have : y + s • k - y0 = (y - y0) + s • k := by abel
      rw [this]
      refine (norm_add_le _ _).trans ?_
      rw [h2]
      linarith) (by linarith)
    rw [add_sub_cancel_left, h2] at h5
    exact h5
  have hgrow : ∀ k : X, ‖k - F y‖ ≤ L' * n → ‖k‖ ≤ 2 * (L' * n) := by
    intro k hk
    have : ‖k‖ ≤ ‖k - F y‖ + ‖F y‖ := by simpa using norm_add_le (k - F y) (F y)
    linarith
  have hLn : 0 ≤ L' * n := by positivity
  set k2 := F (y + (dt / 2) • F y) with hk2
  have e2 : ‖k2 - F y‖ ≤ L * dt * (L' * n) := by
    have h2 := hstage (dt / 2) (F y) (by positivity) (by linarith) (by linarith)
    have h3 : L * (dt / 2 * ‖F y‖) ≤ L * (dt / 2 * (2 * (L' * n))) := by gcongr; linarith
    refine h2.trans (h3.trans_eq (by ring))
  have g2 := hgrow k2 (e2.trans (by nlinarith))
  set k3 := F (y + (dt / 2) • k2) with hk3
  have e3 : ‖k3 - F y‖ ≤ L * dt * (L' * n) := by
    have h2 := hstage (dt / 2) k2 (by positivity) (by linarith) g2
    have h3 : L * (dt / 2 * ‖k2‖) ≤ L * (dt / 2 * (2 * (L' * n))) := by gcongr
    refine h2.trans (h3.trans_eq (by ring))
  have g3 := hgrow k3 (e3.trans (by nlinarith))
  set k4 := F (y + dt • k3) with hk4
  have e4 : ‖k4 - F y‖ ≤ 2 * (L * dt * (L' * n)) := by
    have h2 := hstage dt k3 hdt.le le_rfl g3
    have h3 : L * (dt * ‖k3‖) ≤ L * (dt * (2 * (L' * n))) := by gcongr
    refine h2.trans (h3.trans_eq (by ring))
  rw [rk4_expand]
  refine (norm_add_le _ _).trans ((add_le_add_left (norm_add_le _ _) _).trans ?_)
  rw [norm_smul, norm_smul, norm_smul, Real.norm_eq_abs, Real.norm_eq_abs, abs_of_pos (by positivity),
    abs_of_pos (by positivity)]
  have f2 := mul_le_mul_of_nonneg_left e2 (show 0 ≤ dt / 3 by positivity)
  have f3 := mul_le_mul_of_nonneg_left e3 (show 0 ≤ dt / 3 by positivity)
  have f4 := mul_le_mul_of_nonneg_left e4 (show 0 ≤ dt / 6 by positivity)
  have : L * L' * dt ^ 2 * n = dt / 3 * (L * dt * (L' * n)) + dt / 3 * (L * dt * (L' * n)) +
    dt / 6 * (2 * (L * dt * (L' * n))) := by ring
  rw [this]
  linarith

end SpatialDyn.OneStep
