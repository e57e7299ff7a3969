import Verif.Lemmas.OdeGlobal
import Mathlib.Analysis.Calculus.MeanValue
import Mathlib.Analysis.SpecialFunctions.Trigonometric.Basic
import Mathlib.Topology.Order.MonotoneConvergence

/-!
# Second-order equations on a torus that lose energy come to rest

Barbalat's lemma, and its use for fields that repeat with full turns.
-/

namespace SpatialDyn.OneStep

open Set Filter Topology
open scoped ContDiff

/-- Barbalat's lemma: a function that converges and whose derivative is Lipschitz has a derivative that
tends to zero. -/
theorem barbalat {f f' : ℝ → ℝ} {l L : ℝ} (hf : Tendsto f atTop (𝓝 l))
    (hd : ∀ t, 0 < t → HasDerivAt f (f' t) t)
    (hL : ∀ s t, 0 < s → s ≤ t → |f' t - f' s| ≤ L * (t - s)) : Tendsto f' atTop (𝓝 0) := by
  rw [Metric.tendsto_atTop]
  intro ε hε
  have hL0 : 0 ≤ L := by
    have := (abs_nonneg _).trans (hL 1 2 one_pos (by norm_num))
    linarith
  set h := ε / (2 * (L + 1)) with hh
  have hpos : 0 < h := by positivity
  have hlim : Tendsto (fun t => f (t + h) - f t) atTop (𝓝 (l - l)) :=
    (hf.comp (tendsto_atTop_add_const_right _ _ tendsto_id)).sub hf
  rw [sub_self, Metric.tendsto_atTop] at hlim
  obtain ⟨N, hN⟩ := hlim (ε / 2 * h) (by positivity)
  refine ⟨max N 1, fun t ht => ?_⟩
  have ht0 : 0 < t := lt_of_lt_of_le one_pos ((le_max_right _ _).trans ht)
  obtain ⟨c, hc, e⟩ := exists_hasDerivAt_eq_slope f f' (show t < t + h by linarith)
    (fun x hx => (hd x (ht0.trans_le hx.1)).continuousAt.continuousWithinAt)
    fun x hx => hd x (ht0.trans hx.1)
  have h1 := hN t ((le_max_left _ _).trans ht)
  rw [Real.dist_eq, sub_zero] at h1
  have h2 : |f' c| < ε / 2 := by
    rw [e, add_sub_cancel_left, abs_div, abs_of_pos hpos, div_lt_iff₀ hpos]
    exact h1
  have h3 := hL t c ht0 hc.1.le
  have h4 : L * (c - t) ≤ ε / 2 := by
    have : L * (c - t) ≤ (L + 1) * h := by nlinarith [hc.1, hc.2]
    have e : (L + 1) * h = ε / 2 := by rw [hh]; field_simp
    linarith
  rw [Real.dist_eq, sub_zero]
  have h5 : |f' t| ≤ |f' c| + |f' c - f' t| := by
    have := abs_sub_abs_le_abs_sub (f' t) (f' c)
    rw [abs_sub_comm] at this
    linarith
  linarith

section Torus
variable {n : ℕ} {W : Type*} [NormedAddCommGroup W]

/-- A continuous function that repeats with full turns is bounded where the second half is. -/
theorem torus_bound {G : (Fin n → ℝ) × (Fin n → ℝ) → W} (hG : Continuous G)
    (hp : ∀ y (m : Fin n → ℤ), G (y + (fun i => 2 * Real.pi * m i, 0)) = G y) (R : ℝ) :
    ∃ K, 0 ≤ K ∧ ∀ y, ‖y.2‖ ≤ R → ‖G y‖ ≤ K := by
  have hc : IsCompact ((Icc (0 : Fin n → ℝ) fun _ => 2 * Real.pi) ×ˢ
      Metric.closedBall (0 : Fin n → ℝ) R) := isCompact_Icc.prod (isCompact_closedBall _ _)
  obtain ⟨K, hK⟩ := hc.exists_bound_of_continuousOn hG.continuousOn
  refine ⟨max K 0, le_max_right _ _, fun y hy => ?_⟩
  have hpi : 0 < 2 * Real.pi := by positivity
  rw [← hp y fun i => -⌊y.1 i / (2 * Real.pi)⌋]
  refine (hK _ ⟨⟨fun i => ?_, fun i => ?_⟩, by simpa using hy⟩).trans (le_max_left _ _)
  · have := Int.floor_le (y.1 i / (2 * Real.pi))
    rw [le_div_iff₀ hpi] at this
    simp
    linarith
  · have := (Int.lt_floor_add_one (y.1 i / (2 * Real.pi))).le
    rw [div_le_iff₀ hpi] at this
    simp
    linarith

variable [NormedSpace ℝ W]

/-- A smooth function that repeats with full turns is Lipschitz where the second half is bounded. -/
theorem torus_lip {G : (Fin n → ℝ) × (Fin n → ℝ) → W} (hG : ContDiff ℝ 1 G)
    (hp : ∀ y (m : Fin n → ℤ), G (y + (fun i => 2 * Real.pi * m i, 0)) = G y) (R : ℝ) :
    ∃ L, 0 ≤ L ∧ ∀ y z, ‖y.2‖ ≤ R → ‖z.2‖ ≤ R → ‖G y - G z‖ ≤ L * ‖y - z‖ := by
  obtain ⟨L, h0, hL⟩ := torus_bound (hG.continuous_fderiv (by norm_num)) (fun y m => by
    have e : (fun y => G (y + ((fun i => 2 * Real.pi * (m i : ℝ)), 0))) = G := funext fun y => hp y m
    conv_rhs => rw [← e]
    rw [fderiv_comp_add_right]) R
  refine ⟨L, h0, fun y z hy hz => ?_⟩
  have hconv : Convex ℝ {y : (Fin n → ℝ) × (Fin n → ℝ) | ‖y.2‖ ≤ R} := by
    have := (convex_closedBall (0 : Fin n → ℝ) R).linear_preimage
      (LinearMap.snd ℝ (Fin n → ℝ) (Fin n → ℝ))
    have e : {y : (Fin n → ℝ) × (Fin n → ℝ) | ‖y.2‖ ≤ R} =
        LinearMap.snd ℝ (Fin n → ℝ) (Fin n → ℝ) ⁻¹' Metric.closedBall (0 : Fin n → ℝ) R := by
      ext y
      rw [mem_preimage, mem_closedBall_zero_iff]
      rfl
    rw [e]
    exact this
  exact hconv.norm_image_sub_le_of_norm_fderiv_le (𝕜 := ℝ)
    (fun x _ => (hG.differentiable (by norm_num)).differentiableAt) (fun x hx => hL x hx) hz hy

/-- A second-order equation that repeats with full turns and loses energy through every velocity comes to
rest. -/
theorem settle {F : (Fin n → ℝ) × (Fin n → ℝ) → (Fin n → ℝ) × (Fin n → ℝ)} (hF : ContDiff ℝ 1 F)
    (hF1 : ∀ y, (F y).1 = y.2)
    (hFp : ∀ y (m : Fin n → ℤ), F (y + (fun i => 2 * Real.pi * m i, 0)) = F y)
    {H : (Fin n → ℝ) × (Fin n → ℝ) → ℝ} (hH : ContDiff ℝ 1 H) {v : Fin n → ℝ} (hv : ∀ i, 0 < v i)
    (hrate : ∀ y, fderiv ℝ H y (F y) = -∑ i, v i * y.2 i ^ 2) {c : ℝ} (hlow : ∀ y, c ≤ H y)
    (hbdd : ∀ r, ∃ R, ∀ y, H y ≤ r → ‖y.2‖ ≤ R) {Y : ℝ → (Fin n → ℝ) × (Fin n → ℝ)}
    (hY : ∀ T, Solves F T Y) :
    (∃ l, Tendsto (fun t => H (Y t)) atTop (𝓝 l)) ∧ (∃ R, ∀ t, 0 ≤ t → ‖(Y t).2‖ ≤ R) ∧
    (∀ i, Tendsto (fun t => (Y t).2 i) atTop (𝓝 0)) ∧
    (∀ i, Tendsto (fun t => (F (Y t)).2 i) atTop (𝓝 0)) ∧
    ∀ i, Tendsto (fun t => (F ((Y t).1, 0)).2 i) atTop (𝓝 0) := by
  have hder : ∀ t, 0 < t → HasDerivAt Y (F (Y t)) t := fun t ht =>
    (hY (t + 1) t ⟨ht.le, by linarith⟩).hasDerivAt (Icc_mem_nhds ht (by linarith))
  have hE : ∀ T, ∀ t ∈ Icc 0 T, HasDerivWithinAt (fun t => H (Y t)) (-∑ i, v i * (Y t).2 i ^ 2)
      (Icc 0 T) t := by
    intro T t ht
    have := ((hH.differentiable (by norm_num)) (Y t)).hasFDerivAt.comp_hasDerivWithinAt t (hY T t ht)
    rw [hrate] at this
    exact this
  have hanti : AntitoneOn (fun t => H (Y t)) (Ici 0) := by
    intro s hs t ht hst
    have h1 : AntitoneOn (fun t => H (Y t)) (Icc 0 t) := by
      refine antitoneOn_of_hasDerivWithinAt_nonpos (convex_Icc _ _)
        (f' := fun t => -∑ i, v i * (Y t).2 i ^ 2) (fun x hx => (hE t x hx).continuousWithinAt)
        (fun x hx => (hE t x (interior_subset hx)).mono interior_subset) fun x _ => ?_
      have : 0 ≤ ∑ i, v i * (Y x).2 i ^ 2 :=
        Finset.sum_nonneg fun i _ => mul_nonneg (hv i).le (sq_nonneg _)
      linarith
    exact h1 ⟨hs, hst⟩ ⟨ht, le_rfl⟩ hst
  obtain ⟨R, hR⟩ := hbdd (H (Y 0))
  have hYR : ∀ t, 0 ≤ t → ‖(Y t).2‖ ≤ R := fun t ht => hR _ (hanti (mem_Ici.2 le_rfl) ht ht)
  have hR0 : 0 ≤ R := (norm_nonneg _).trans (hYR 0 le_rfl)
  have hw : ∀ t, 0 ≤ t → ∀ i, |(Y t).2 i| ≤ R := fun t ht i => (norm_le_pi_norm _ i).trans (hYR t ht)
  -- the energy converges
  obtain ⟨l, hl⟩ : ∃ l, Tendsto (fun t => H (Y t)) atTop (𝓝 l) := by
    have hm : Antitone fun t : ℝ => H (Y (max t 0)) := fun s t hst =>
      hanti (mem_Ici.2 (le_max_right _ _)) (mem_Ici.2 (le_max_right _ _)) (max_le_max_right 0 hst)
    have := tendsto_atTop_ciInf hm ⟨c, by rintro _ ⟨t, rfl⟩; exact hlow _⟩
    refine ⟨_, this.congr' ?_⟩
    filter_upwards [eventually_ge_atTop 0] with t ht
    rw [max_eq_left ht]
  -- the motion is Lipschitz
  obtain ⟨K, hK0, hK⟩ := torus_bound hF.continuous hFp R
  obtain ⟨L, hL0, hL⟩ := torus_lip hF hFp R
  have hYlip : ∀ s t, 0 ≤ s → s ≤ t → ‖Y t - Y s‖ ≤ K * (t - s) := by
    intro s t hs hst
    have := (convex_Icc (0 : ℝ) t).norm_image_sub_le_of_norm_hasDerivWithin_le (hY t)
      (fun x hx => hK _ (hYR x hx.1)) (x := s) (y := t) ⟨hs, hst⟩ ⟨hs.trans hst, le_rfl⟩
    rwa [Real.norm_eq_abs, abs_of_nonneg (by linarith)] at this
  have hrest : ∀ i, Tendsto (fun t => (Y t).2 i) atTop (𝓝 0) := by
    have hg := barbalat hl (f' := fun t => -∑ i, v i * (Y t).2 i ^ 2)
      (L := ∑ i, v i * (2 * R * K))
      (fun t ht => (hE (t + 1) t ⟨ht.le, by linarith⟩).hasDerivAt (Icc_mem_nhds ht (by linarith)))
      (fun s t hs hst => by
        rw [neg_sub_neg, ← Finset.sum_sub_distrib, Finset.sum_mul]
        refine (Finset.abs_sum_le_sum_abs _ _).trans (Finset.sum_le_sum fun i _ => ?_)
        have e : v i * (Y s).2 i ^ 2 - v i * (Y t).2 i ^ 2 =
            v i * (((Y s).2 i + (Y t).2 i) * -((Y t).2 i - (Y s).2 i)) := by ring
        rw [e, abs_mul, abs_mul, abs_neg, abs_of_pos (hv i), mul_assoc]
        refine mul_le_mul_of_nonneg_left ?_ (hv i).le
        have h1 : |(Y s).2 i + (Y t).2 i| ≤ 2 * R := by
          refine (abs_add_le _ _).trans ?_
          linarith [hw s hs.le i, hw t (hs.le.trans hst) i]
        have h2 : |(Y t).2 i - (Y s).2 i| ≤ K * (t - s) :=
          ((norm_le_pi_norm ((Y t).2 - (Y s).2) i).trans (norm_snd_le (Y t - Y s))).trans
            (hYlip s t hs.le hst)
        calc _ ≤ 2 * R * (K * (t - s)) := mul_le_mul h1 h2 (abs_nonneg _) (by linarith)
          _ = _ := by ring)
    intro i
    have hg' : Tendsto (fun t => (∑ i, v i * (Y t).2 i ^ 2) / v i) atTop (𝓝 0) := by
      have := hg.neg.div_const (v i)
      simpa using this
    have hsq : Tendsto (fun t => (Y t).2 i ^ 2) atTop (𝓝 0) := by
      refine squeeze_zero (fun t => sq_nonneg _) (fun t => ?_) hg'
      rw [le_div_iff₀ (hv i), mul_comm]
      exact Finset.single_le_sum (f := fun i => v i * (Y t).2 i ^ 2)
        (fun i _ => mul_nonneg (hv i).le (sq_nonneg _)) (Finset.mem_univ i)
    have := hsq.sqrt
    rw [Real.sqrt_zero] at this
    refine (tendsto_zero_iff_abs_tendsto_zero _).2 (this.congr fun t => ?_)
    rw [Real.sqrt_sq_eq_abs]; rfl
  have hacc : ∀ i, Tendsto (fun t => (F (Y t)).2 i) atTop (𝓝 0) := by
    intro i
    refine barbalat (hrest i) (L := L * K) (fun t ht => ?_) fun s t hs hst => ?_
    · exact hasDerivAt_pi.1 ((hasFDerivAt_snd (𝕜 := ℝ)).comp_hasDerivAt t (hder t ht)) i
    · refine ((norm_le_pi_norm ((F (Y t)).2 - (F (Y s)).2) i).trans
        (norm_snd_le (F (Y t) - F (Y s)))).trans ?_
      refine (hL _ _ (hYR t (hs.le.trans hst)) (hYR s hs.le)).trans ?_
      rw [mul_assoc]
      exact mul_le_mul_of_nonneg_left (hYlip s t hs.le hst) hL0
  refine ⟨⟨l, hl⟩, ⟨R, hYR⟩, hrest, hacc, fun i => ?_⟩
  have hz : Tendsto (fun t => L * ‖(Y t).2‖) atTop (𝓝 0) := by
    have h1 : Tendsto (fun t => (Y t).2) atTop (𝓝 0) := tendsto_pi_nhds.2 hrest
    simpa using h1.norm.const_mul L
  have hdiff : Tendsto (fun t => (F (Y t)).2 i - (F ((Y t).1, 0)).2 i) atTop (𝓝 0) := by
    refine squeeze_zero_norm' ?_ hz
    filter_upwards [eventually_ge_atTop 0] with t ht
    refine ((norm_le_pi_norm ((F (Y t)).2 - (F ((Y t).1, 0)).2) i).trans
        (norm_snd_le (F (Y t) - F ((Y t).1, 0)))).trans ?_
    refine (hL _ _ (hYR t ht) (by simpa using hR0)).trans (le_of_eq ?_)
    congr 1
    rw [Prod.norm_def]
    simp
  have := (hacc i).sub hdiff
  simpa using this

end Torus
end SpatialDyn.OneStep
