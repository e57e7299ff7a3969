import Verif.Lemmas.OneStep
import Mathlib.Analysis.ODE.ExistUnique
import Mathlib.Analysis.ODE.Gronwall
import Mathlib.Analysis.Calculus.BumpFunction.FiniteDimension
import Mathlib.Analysis.Calculus.ContDiff.RCLike
import Mathlib.Analysis.SpecialFunctions.ExpDeriv

/-!
# Solutions for all times

A smooth autonomous equation with a function that grows at most exponentially along solutions and
has bounded sublevel sets has exactly one solution from every initial value, for all times.
-/

namespace SpatialDyn.OneStep

open Set
open scoped ContDiff NNReal

variable {V : Type*} [NormedAddCommGroup V] [NormedSpace ℝ V] {F : V → V} {T : ℝ} {Y Z : ℝ → V}

theorem within_right {f : ℝ → V} {f' : V} {t : ℝ} (ht : t ∈ Ico 0 T)
    (h : HasDerivWithinAt f f' (Icc 0 T) t) : HasDerivWithinAt f f' (Ici t) t :=
  h.mono_of_mem_nhdsWithin (Filter.mem_of_superset (Icc_mem_nhdsGE ht.2)
    (Icc_subset_Icc_left ht.1))

theorem Solves.unique [ProperSpace V] (hF : ContDiff ℝ 1 F) (hY : Solves F T Y)
    (hZ : Solves F T Z) (h0 : Y 0 = Z 0) : ∀ t ∈ Icc 0 T, Y t = Z t := by
  have cY : ContinuousOn Y (Icc 0 T) := fun t ht => (hY t ht).continuousWithinAt
  have cZ : ContinuousOn Z (Icc 0 T) := fun t ht => (hZ t ht).continuousWithinAt
  obtain ⟨R1, h1⟩ := isCompact_Icc.exists_bound_of_continuousOn cY
  obtain ⟨R2, h2⟩ := isCompact_Icc.exists_bound_of_continuousOn cZ
  set S := Metric.closedBall (0 : V) (max R1 R2) with hS
  obtain ⟨M, hM⟩ := (isCompact_closedBall (0 : V) (max R1 R2)).exists_bound_of_continuousOn
    (hF.continuous_fderiv (by norm_num)).continuousOn
  have hlip : LipschitzOnWith (Real.toNNReal M) F S := by
    refine (convex_closedBall (0 : V) _).lipschitzOnWith_of_nnnorm_fderiv_le (𝕜 := ℝ)
      (fun x _ => (hF.differentiable (by norm_num)).differentiableAt) fun x hx => ?_
    rw [← NNReal.coe_le_coe, coe_nnnorm]
    exact (hM x hx).trans (Real.le_coe_toNNReal M)
  intro t ht
  exact ODE_solution_unique_of_mem_Icc_right (v := fun _ => F) (s := fun _ => S)
    (fun _ _ => hlip) cY (fun t ht => within_right ht (hY t (Ico_subset_Icc_self ht)))
    (fun t ht => by
      have := h1 t (Ico_subset_Icc_self ht)
      simp only [hS, mem_closedBall_zero_iff]
      exact this.trans (le_max_left _ _))
    cZ (fun t ht => within_right ht (hZ t (Ico_subset_Icc_self ht)))
    (fun t ht => by
      have := h2 t (Ico_subset_Icc_self ht)
      simp only [hS, mem_closedBall_zero_iff]
      exact this.trans (le_max_right _ _)) h0 ht

/-- A real function with `w' ≤ C w` grows at most exponentially. -/
theorem exp_bound {w w' : ℝ → ℝ} {C : ℝ}
    (hw : ∀ t ∈ Icc 0 T, HasDerivWithinAt w (w' t) (Icc 0 T) t)
    (hb : ∀ t ∈ Icc 0 T, w' t ≤ C * w t) : ∀ t ∈ Icc 0 T, w t ≤ w 0 * Real.exp (C * t) := by
  have hcont : ContinuousOn (fun t => w t * Real.exp (-(C * t))) (Icc 0 T) :=
    ContinuousOn.mul (fun t ht => (hw t ht).continuousWithinAt) (by fun_prop)
  intro t ht
  have key := image_le_of_deriv_right_le_deriv_boundary (f := fun t => w t * Real.exp (-(C * t)))
    (f' := fun t => w' t * Real.exp (-(C * t)) + w t * (Real.exp (-(C * t)) * (-C)))
    (a := 0) (b := T) (B := fun _ => w 0) (B' := fun _ => 0) hcont
    (fun t ht => by
      have h1 := within_right ht (hw t (Ico_subset_Icc_self ht))
      have h2 : HasDerivAt (fun t => Real.exp (-(C * t))) (Real.exp (-(C * t)) * (-C)) t := by
        refine HasDerivAt.exp ?_
        have h3 := ((hasDerivAt_id t).const_mul C).neg
        rw [mul_one] at h3
        exact h3
      exact h1.mul h2.hasDerivWithinAt)
    (by simp) continuousOn_const (fun t _ => hasDerivWithinAt_const _ _ _)
    (fun t ht => by
      have h1 := hb t (Ico_subset_Icc_self ht)
      have h2 := Real.exp_pos (-(C * t))
      nlinarith) ht
  have h3 : w t * Real.exp (-(C * t)) * Real.exp (C * t) = w t := by
    rw [mul_assoc, ← Real.exp_add]; simp
  rw [← h3]
  exact mul_le_mul_of_nonneg_right key (Real.exp_pos _).le

/-- Solutions on bounded intervals. -/
theorem exists_solves [FiniteDimensional ℝ V] (hF : ContDiff ℝ 1 F) {W : V → ℝ}
    (hW : ContDiff ℝ 1 W) {C : ℝ} (hC : 0 ≤ C) (hpos : ∀ y, 0 ≤ W y)
    (hgrow : ∀ y, fderiv ℝ W y (F y) ≤ C * (1 + W y))
    (hbdd : ∀ r, ∃ R, ∀ y, W y ≤ r → ‖y‖ ≤ R) (y0 : V) (hT : 0 ≤ T) :
    ∃ Y, Y 0 = y0 ∧ Solves F T Y := by
  obtain ⟨R, hR⟩ := hbdd ((1 + W y0) * Real.exp (C * T))
  -- a field that agrees with `F` where the solution lives
  set χ : ContDiffBump (0 : V) := ⟨max R 0 + 1, max R 0 + 2, by positivity, by linarith⟩ with hχ
  set G : V → V := fun y => χ y • F y with hG
  have hGs : ContDiff ℝ 1 G := (χ.contDiff (n := 1)).smul hF
  have hGc : HasCompactSupport G := χ.hasCompactSupport.smul_right
  obtain ⟨K, hK⟩ := ContDiff.lipschitzWith_of_hasCompactSupport hGc hGs (by norm_num)
  obtain ⟨L, hL⟩ := hGc.exists_bound_of_continuous hGs.continuous
  have hL' : ∀ y, ‖G y‖ ≤ (Real.toNNReal L : ℝ≥0) := fun y => (hL y).trans (Real.le_coe_toNNReal L)
  obtain ⟨Y, h0, hY⟩ := (IsPicardLindelof.of_time_independent (f := G) (tmin := 0) (tmax := T)
    (t₀ := ⟨0, le_rfl, hT⟩) (x₀ := y0) (a := Real.toNNReal L * Real.toNNReal T) (r := 0)
    (L := Real.toNNReal L) (K := K) (fun x _ => hL' x) hK.lipschitzOnWith (by
      simp only [sub_zero, NNReal.coe_mul, NNReal.coe_zero, neg_zero, sub_self]
      rw [max_eq_left hT, Real.coe_toNNReal T hT])).exists_eq_forall_mem_Icc_hasDerivWithinAt₀
  refine ⟨Y, h0, ?_⟩
  have hgr : ∀ t ∈ Icc 0 T, 1 + W (Y t) ≤ (1 + W (Y 0)) * Real.exp (C * t) := by
    refine exp_bound (w := fun t => 1 + W (Y t)) (w' := fun t => fderiv ℝ W (Y t) (G (Y t)))
      (fun t ht => ?_) fun t _ => ?_
    · have h1 : HasFDerivAt W (fderiv ℝ W (Y t)) (Y t) :=
        (hW.differentiable (by norm_num)).differentiableAt.hasFDerivAt
      exact (h1.comp_hasDerivWithinAt t (hY t ht)).const_add 1
    · simp only [hG, map_smul, smul_eq_mul]
      have h1 := hgrow (Y t)
      have h2 := χ.nonneg (x := Y t)
      have h3 := χ.le_one (x := Y t)
      have h4 : 0 ≤ C * (1 + W (Y t)) := mul_nonneg hC (by linarith [hpos (Y t)])
      calc χ (Y t) * fderiv ℝ W (Y t) (F (Y t)) ≤ χ (Y t) * (C * (1 + W (Y t))) :=
            mul_le_mul_of_nonneg_left h1 h2
        _ ≤ 1 * (C * (1 + W (Y t))) := mul_le_mul_of_nonneg_right h3 h4
        _ = _ := one_mul _
  intro t ht
  have h1 : ‖Y t‖ ≤ R := by
    apply hR
    have e1 := hgr t ht
    have h0' : Y 0 = y0 := h0
    rw [h0'] at e1
    have e2 : Real.exp (C * t) ≤ Real.exp (C * T) :=
      Real.exp_le_exp.2 (mul_le_mul_of_nonneg_left ht.2 hC)
    have e3 : (1 + W y0) * Real.exp (C * t) ≤ (1 + W y0) * Real.exp (C * T) :=
      mul_le_mul_of_nonneg_left e2 (by linarith [hpos y0])
    linarith
  have h2 : χ (Y t) = 1 := by
    apply χ.one_of_mem_closedBall
    rw [mem_closedBall_zero_iff]
    show ‖Y t‖ ≤ max R 0 + 1
    linarith [le_max_left R 0]
  have h3 := hY t ht
  simp only [hG, h2, one_smul] at h3
  exact h3

/-- Solutions on bounded intervals fit together. -/
theorem glue [ProperSpace V] (hF : ContDiff ℝ 1 F) {y0 : V}
    (hloc : ∀ T, 0 ≤ T → ∃ Y, Y 0 = y0 ∧ Solves F T Y) :
    ∃ Y, Y 0 = y0 ∧ ∀ T, Solves F T Y := by
  choose Y h0 hY using fun n : ℕ => hloc n (Nat.cast_nonneg n)
  have hsub : ∀ {T T' : ℝ} {Z : ℝ → V}, T ≤ T' → Solves F T' Z → Solves F T Z :=
    fun hle hZ t ht => (hZ t ⟨ht.1, ht.2.trans hle⟩).mono (Icc_subset_Icc_right hle)
  -- solutions on different intervals agree
  have hagree : ∀ m n : ℕ, m ≤ n → ∀ t ∈ Icc (0 : ℝ) m, Y m t = Y n t := fun m n hmn =>
    (hY m).unique hF (hsub (Nat.cast_le.2 hmn) (hY n)) ((h0 m).trans (h0 n).symm)
  set Z : ℝ → V := fun t => Y (⌈t⌉₊) t with hZdef
  have hZ : ∀ (n : ℕ), ∀ t ∈ Icc (0 : ℝ) n, Z t = Y n t := fun n t ht =>
    hagree _ n (Nat.ceil_le.2 ht.2) t ⟨ht.1, Nat.le_ceil t⟩
  refine ⟨Z, ?_, fun T => ?_⟩
  · rw [hZ 0 0 (by simp), h0]
  · obtain ⟨n, hn⟩ := exists_nat_ge T
    intro t ht
    have ht' : t ∈ Icc (0 : ℝ) n := ⟨ht.1, ht.2.trans hn⟩
    rw [hZ n t ht']
    exact (hsub hn (hY n) t ht).congr (fun s hs => hZ n s ⟨hs.1, hs.2.trans hn⟩) (hZ n t ht')

/-- A solution for all times. -/
theorem exists_forever [FiniteDimensional ℝ V] (hF : ContDiff ℝ 1 F) {W : V → ℝ}
    (hW : ContDiff ℝ 1 W) {C : ℝ} (hC : 0 ≤ C) (hpos : ∀ y, 0 ≤ W y)
    (hgrow : ∀ y, fderiv ℝ W y (F y) ≤ C * (1 + W y))
    (hbdd : ∀ r, ∃ R, ∀ y, W y ≤ r → ‖y‖ ≤ R) (y0 : V) :
    ∃ Y, Y 0 = y0 ∧ ∀ T, Solves F T Y := by
  have := FiniteDimensional.proper_real V
  exact glue hF fun T hT => exists_solves hF hW hC hpos hgrow hbdd y0 hT

end SpatialDyn.OneStep
