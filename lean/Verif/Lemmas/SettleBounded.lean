import Verif.Lemmas.Settle

/-!
# Second-order equations that lose energy come to rest, where the energy bounds the states
-/

namespace SpatialDyn.OneStep

open Set Filter Topology
open scoped ContDiff

variable {n : ℕ}

/-- A second-order equation whose energy bounds the states and is lost through every velocity comes to
rest. -/
theorem settle_bounded {F : (Fin n → ℝ) × (Fin n → ℝ) → (Fin n → ℝ) × (Fin n → ℝ)} (hF : ContDiff ℝ 1 F)
    (hF1 : ∀ y, (F y).1 = y.2)
    {H : (Fin n → ℝ) × (Fin n → ℝ) → ℝ} (hH : ContDiff ℝ 1 H) {v : Fin n → ℝ} (hv : ∀ i, 0 < v i)
    (hrate : ∀ y, fderiv ℝ H y (F y) = -∑ i, v i * y.2 i ^ 2) {c : ℝ} (hlow : ∀ y, c ≤ H y)
    (hbdd : ∀ r, ∃ R, ∀ y, H y ≤ r → ‖y‖ ≤ R) {Y : ℝ → (Fin n → ℝ) × (Fin n → ℝ)}
    (hY : ∀ T, Solves F T Y) :
    (∃ l, Tendsto (fun t => H (Y t)) atTop (𝓝 l)) ∧ (∃ R, ∀ t, 0 ≤ t → ‖Y t‖ ≤ R) ∧
    (∀ i, Tendsto (fun t => (Y t).2 i) atTop (𝓝 0)) ∧
    (∀ i, Tendsto (fun t => (F (Y t)).2 i) atTop (𝓝 0)) ∧
    ∀ i, Tendsto (fun t => (F ((Y t).1, 0)).2 i) atTop (𝓝 0) := by
  have hder : ∀ t, 0 < t → HasDerivAt Y (F (Y t)) t := fun t ht =>
    (hY (t + 1) t ⟨ht.le, by linarith⟩).hasDerivAt (Icc_mem_nhds ht (by linarith))
  have hE : ∀ T, ∀ t ∈ Icc 0 T, HasDerivWithinAt (fun t => H (Y t)) (-∑ i, v i * (Y t).2 i ^ 2)
      (Icc 0 T) t := by
    intro T t ht
    have := ((hH.differentiable (by norm_num)) (Y t)).hasFDerivAt.comp_hasDerivWithinAt t (hY T t ht)
    rw [hrate] at this
    exact this
  have hanti : AntitoneOn (fun t => H (Y t)) (Ici 0) := by
    intro s hs t ht hst
    have h1 : AntitoneOn (fun t => H (Y t)) (Icc 0 t) := by
      refine antitoneOn_of_hasDerivWithinAt_nonpos (convex_Icc _ _)
        (f' := fun t => -∑ i, v i * (Y t).2 i ^ 2) (fun x hx => (hE t x hx).continuousWithinAt)
        (fun x hx => (hE t x (interior_subset hx)).mono interior_subset) fun x _ => ?_
      have : 0 ≤ ∑ i, v i * (Y x).2 i ^ 2 :=
        Finset.sum_nonneg fun i _ => mul_nonneg (hv i).le (sq_nonneg _)
      linarith
    exact h1 ⟨hs, hst⟩ ⟨ht, le_rfl⟩ hst
  obtain ⟨R, hR⟩ := hbdd (H (Y 0))
  have hYR : ∀ t, 0 ≤ t → ‖Y t‖ ≤ R := fun t ht => hR _ (hanti (mem_Ici.2 le_rfl) ht ht)
  have hR0 : 0 ≤ R := (norm_nonneg _).trans (hYR 0 le_rfl)
  have hw : ∀ t, 0 ≤ t → ∀ i, |(Y t).2 i| ≤ R := fun t ht i => ((norm_le_pi_norm _ i).trans (norm_snd_le (Y t))).trans (hYR t ht)
  -- the energy converges
  obtain ⟨l, hl⟩ : ∃ l, Tendsto (fun t => H (Y t)) atTop (𝓝 l) := by
    have hm : Antitone fun t : ℝ => H (Y (max t 0)) := fun s t hst =>
      hanti (mem_Ici.2 (le_max_right _ _)) (mem_Ici.2 (le_max_right _ _)) (max_le_max_right 0 hst)
    have := tendsto_atTop_ciInf hm ⟨c, by rintro _ ⟨t, rfl⟩; exact hlow _⟩
    refine ⟨_, this.congr' ?_⟩
    filter_upwards [eventually_ge_atTop 0] with t ht
    rw [max_eq_left ht]
  -- the motion is Lipschitz
  obtain ⟨K, hK⟩ : ∃ K, ∀ y, ‖y‖ ≤ R → ‖F y‖ ≤ K := by
    obtain ⟨K, hK⟩ := (isCompact_closedBall (0 : (Fin n → ℝ) × (Fin n → ℝ)) R).exists_bound_of_continuousOn
      hF.continuous.continuousOn
    exact ⟨K, fun y hy => hK y (mem_closedBall_zero_iff.2 hy)⟩
  have hK0 : 0 ≤ K := (norm_nonneg _).trans (hK _ (hYR 0 le_rfl))
  obtain ⟨L, hL0, hL⟩ : ∃ L, 0 ≤ L ∧ ∀ y z, ‖y‖ ≤ R → ‖z‖ ≤ R → ‖F y - F z‖ ≤ L * ‖y - z‖ := by
    obtain ⟨L, hL⟩ := (isCompact_closedBall (0 : (Fin n → ℝ) × (Fin n → ℝ)) R).exists_bound_of_continuousOn
      (hF.continuous_fderiv (by norm_num)).continuousOn
    refine ⟨L, (norm_nonneg _).trans (hL 0 (Metric.mem_closedBall_self hR0)), fun y z hy hz => ?_⟩
    exact (convex_closedBall (0 : (Fin n → ℝ) × (Fin n → ℝ)) R).norm_image_sub_le_of_norm_fderiv_le (𝕜 := ℝ)
      (fun x _ => (hF.differentiable (by norm_num)).differentiableAt) hL (mem_closedBall_zero_iff.2 hz)
      (mem_closedBall_zero_iff.2 hy)
  have hYlip : ∀ s t, 0 ≤ s → s ≤ t → ‖Y t - Y s‖ ≤ K * (t - s) := by
    intro s t hs hst
    have := (convex_Icc (0 : ℝ) t).norm_image_sub_le_of_norm_hasDerivWithin_le (hY t)
      (fun x hx => hK _ (hYR x hx.1)) (x := s) (y := t) ⟨hs, hst⟩ ⟨hs.trans hst, le_rfl⟩
    rwa [Real.norm_eq_abs, abs_of_nonneg (by linarith)] at this
  have hrest : ∀ i, Tendsto (fun t => (Y t).2 i) atTop (𝓝 0) := by
    have hg := barbalat hl (f' := fun t => -∑ i, v i * (Y t).2 i ^ 2)
      (L := ∑ i, v i * (2 * R * K))
      (fun t ht => (hE (t + 1) t ⟨ht.le, by linarith⟩).hasDerivAt (Icc_mem_nhds ht (by linarith)))
      (fun s t hs hst => by
        rw [neg_sub_neg, ← Finset.sum_sub_distrib, Finset.sum_mul]
        refine (Finset.abs_sum_le_sum_abs _ _).trans (Finset.sum_le_sum fun i _ => ?_)
        have e : v i * (Y s).2 i ^ 2 - v i * (Y t).2 i ^ 2 =
            v i * (((Y s).2 i + (Y t).2 i) * -((Y t).2 i - (Y s).2 i)) := by ring
        rw [e, abs_mul, abs_mul, abs_neg, abs_of_pos (hv i), mul_assoc]
        refine mul_le_mul_of_nonneg_left ?_ (hv i).le
        have h1 : |(Y s).2 i + (Y t).2 i| ≤ 2 * R := by
          refine (abs_add_le _ _).trans ?_
          linarith [hw s hs.le i, hw t (hs.le.trans hst) i]
        have h2 : |(Y t).2 i - (Y s).2 i| ≤ K * (t - s) :=
          ((norm_le_pi_norm ((Y t).2 - (Y s).2) i).trans (norm_snd_le (Y t - Y s))).trans
            (hYlip s t hs.le hst)
        calc _ ≤ 2 * R * (K * (t - s)) := mul_le_mul h1 h2 (abs_nonneg _) (by linarith)
          _ = _ := by ring)
    intro i
    have hg' : Tendsto (fun t => (∑ i, v i * (Y t).2 i ^ 2) / v i) atTop (𝓝 0) := by
      have := hg.neg.div_const (v i)
      simpa using this
    have hsq : Tendsto (fun t => (Y t).2 i ^ 2) atTop (𝓝 0) := by
      refine squeeze_zero (fun t => sq_nonneg _) (fun t => ?_) hg'
      rw [le_div_iff₀ (hv i), mul_comm]
      exact Finset.single_le_sum (f := fun i => v i * (Y t).2 i ^ 2)
        (fun i _ => mul_nonneg (hv i).le (sq_nonneg _)) (Finset.mem_univ i)
    have := hsq.sqrt
    rw [Real.sqrt_zero] at this
    refine (tendsto_zero_iff_abs_tendsto_zero _).2 (this.congr fun t => ?_)
    rw [Real.sqrt_sq_eq_abs]; rfl
  have hacc : ∀ i, Tendsto (fun t => (F (Y t)).2 i) atTop (𝓝 0) := by
    intro i
    refine barbalat (hrest i) (L := L * K) (fun t ht => ?_) fun s t hs hst => ?_
    · exact hasDerivAt_pi.1 ((hasFDerivAt_snd (𝕜 := ℝ)).comp_hasDerivAt t (hder t ht)) i
    · refine ((norm_le_pi_norm ((F (Y t)).2 - (F (Y s)).2) i).trans
        (norm_snd_le (F (Y t) - F (Y s)))).trans ?_
      refine (hL _ _ (hYR t (hs.le.trans hst)) (hYR s hs.le)).trans ?_
      rw [mul_assoc]
      exact mul_le_mul_of_nonneg_left (hYlip s t hs.le hst) hL0
  refine ⟨⟨l, hl⟩, ⟨R, hYR⟩, hrest, hacc, fun i => ?_⟩
  have hz : Tendsto (fun t => L * ‖(Y t).2‖) atTop (𝓝 0) := by
    have h1 : Tendsto (fun t => (Y t).2) atTop (𝓝 0) := tendsto_pi_nhds.2 hrest
    simpa using h1.norm.const_mul L
  have hdiff : Tendsto (fun t => (F (Y t)).2 i - (F ((Y t).1, 0)).2 i) atTop (𝓝 0) := by
    refine squeeze_zero_norm' ?_ hz
    filter_upwards [eventually_ge_atTop 0] with t ht
    refine ((norm_le_pi_norm ((F (Y t)).2 - (F ((Y t).1, 0)).2) i).trans
        (norm_snd_le (F (Y t) - F ((Y t).1, 0)))).trans ?_
    refine (hL _ _ (hYR t ht) (by simpa using (norm_fst_le (Y t)).trans (hYR t ht))).trans (le_of_eq ?_)
    congr 1
    rw [Prod.norm_def]
    simp
  have := (hacc i).sub hdiff
  simpa using this

end SpatialDyn.OneStep
