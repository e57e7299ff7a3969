import Verif.Lemmas.LogStep
import Mathlib.Analysis.SpecialFunctions.Exponential
import Mathlib.Analysis.Normed.Algebra.MatrixExponential
import Mathlib.Analysis.Calculus.InverseFunctionTheorem.ContDiff

/-!
# The exponential map of the rigid motions

Rigid motions as 4×4 matrices; moving with a constant twist for unit time is the matrix exponential.
-/

namespace SpatialDyn

open Matrix NormedSpace
open scoped ContDiff Matrix.Norms.Operator

abbrev M4 := Matrix (Fin 4) (Fin 4) ℝ

/-- A motion from its components. -/
def Motion.ofComps (x : Fin 6 → ℝ) : Motion := ⟨⟨x 0, x 1, x 2⟩, ⟨x 3, x 4, x 5⟩⟩

theorem Motion.comps_ofComps (x : Fin 6 → ℝ) : (Motion.ofComps x).comps = x := by
  funext i; fin_cases i <;> rfl

theorem Motion.ofComps_comps (m : Motion) : Motion.ofComps m.comps = m := rfl

theorem Motion.comps_sub (m n : Motion) : (m - n).comps = m.comps - n.comps := by
  funext i; fin_cases i <;> rfl

theorem Motion.comps_zero : (0 : Motion).comps = 0 := by
  funext i; fin_cases i <;> rfl

/-- Velocity matrix of a twist. -/
def hatM : (Fin 6 → ℝ) →ₗ[ℝ] M4 where
  toFun x := !![0, -x 5, x 4, x 0; x 5, 0, -x 3, x 1; -x 4, x 3, 0, x 2; 0, 0, 0, 0]
  map_add' x y := by
    ext i j
    fin_cases i <;> fin_cases j <;> simp <;> ring
  map_smul' c x := by
    ext i j
    fin_cases i <;> fin_cases j <;> simp

/-- Translation and antisymmetric part of the rotation. -/
noncomputable def twM : M4 →ₗ[ℝ] (Fin 6 → ℝ) where
  toFun A := ![A 0 3, A 1 3, A 2 3, (A 2 1 - A 1 2) / 2, (A 0 2 - A 2 0) / 2, (A 1 0 - A 0 1) / 2]
  map_add' A B := by
    funext i
    fin_cases i <;> simp <;> ring
  map_smul' c A := by
    funext i
    fin_cases i <;> simp <;> ring

/-- A rigid motion as a matrix. -/
def isoM (T : Iso) : M4 :=
  !![T.R.m00, T.R.m01, T.R.m02, T.t.x; T.R.m10, T.R.m11, T.R.m12, T.t.y;
    T.R.m20, T.R.m21, T.R.m22, T.t.z; 0, 0, 0, 1]

theorem twM_isoM (T : Iso) : twM (isoM T) = T.twist.comps := by
  funext i; fin_cases i <;> rfl

theorem twM_hatM (x : Fin 6 → ℝ) : twM (hatM x) = x := by
  funext i; fin_cases i <;> simp [twM, hatM]

theorem isoM_one : isoM 1 = 1 := by
  ext i j
  fin_cases i <;> fin_cases j <;> simp [isoM]

theorem twM_one : twM 1 = 0 := by
  funext i; fin_cases i <;> simp [twM]

theorem isoM_injective : Function.Injective isoM := by
  intro T U h
  have e : ∀ i j, isoM T i j = isoM U i j := fun i j => by rw [h]
  ext
  · exact e 0 0
  · exact e 0 1
  · exact e 0 2
  · exact e 1 0
  · exact e 1 1
  · exact e 1 2
  · exact e 2 0
  · exact e 2 1
  · exact e 2 2
  · exact e 0 3
  · exact e 1 3
  · exact e 2 3

/-- Unit matrices of the entries of a rigid motion. -/
def unitM : Fin 12 → M4 :=
  ![single 0 0 1, single 0 1 1, single 0 2 1, single 1 0 1, single 1 1 1, single 1 2 1,
    single 2 0 1, single 2 1 1, single 2 2 1, single 0 3 1, single 1 3 1, single 2 3 1]

theorem isoM_sum (T : Iso) : isoM T = ∑ i, T.entry i • unitM i + single 3 3 1 := by
  ext i j
  fin_cases i <;> fin_cases j <;>
    simp [isoM, Fin.sum_univ_succ, Iso.entry, unitM, Matrix.single]

theorem hatM_mul (V : Motion) (T : Iso) : hatM V.comps * isoM T =
    ∑ i, (⟨skew V.ang * T.R, V.lin + V.ang.cross T.t⟩ : Iso).entry i • unitM i := by
  ext i j
  fin_cases i <;> fin_cases j <;>
    simp [isoM, hatM, Fin.sum_univ_succ, Iso.entry, unitM, Matrix.single, Matrix.mul_apply, skew,
      Motion.comps, Vec3.cross] <;> ring

theorem HasTwist.isoM {P : ℝ → Iso} {V : Motion} {s : ℝ} (h : HasTwist P V s) :
    HasDerivAt (fun s => isoM (P s)) (hatM V.comps * SpatialDyn.isoM (P s)) s := by
  simp only [isoM_sum (P _)]
  rw [← isoM_sum, hatM_mul]
  refine HasDerivAt.add_const _ (HasDerivAt.fun_sum fun i _ => ?_)
  exact (entry_deriv h.rot h.trans i).smul_const _

/-- Moving with a constant twist is the exponential. -/
theorem isoM_flow {P : ℝ → Iso} {V : Motion} (h0 : P 0 = 1) (h : ∀ s, HasTwist P V s) (s : ℝ) :
    isoM (P s) = exp (s • hatM V.comps) := by
  set A := hatM V.comps with hA
  have h1 : ∀ t, HasDerivAt (fun t : ℝ => exp (t • -A) * isoM (P t)) 0 t := by
    intro t
    have e := (hasDerivAt_exp_smul_const (𝕂 := ℝ) (-A) t).mul (h t).isoM
    refine e.congr_deriv ?_
    rw [← hA]
    noncomm_ring
  have h2 : ∀ t, exp (t • -A) * isoM (P t) = exp ((0 : ℝ) • -A) * isoM (P 0) := fun t =>
    is_const_of_deriv_eq_zero (fun t => (h1 t).differentiableAt) (fun t => (h1 t).deriv) t 0
  have h3 := h2 s
  rw [zero_smul, exp_zero, h0, isoM_one, one_mul] at h3
  have h4 : exp (s • A) * exp (s • -A) = (1 : M4) := by
    rw [← Matrix.exp_add_of_commute]
    · rw [smul_neg, add_neg_cancel, exp_zero]
    · rw [smul_neg]; exact (Commute.refl _).neg_right
  calc isoM (P s) = exp (s • A) * exp (s • -A) * isoM (P s) := by rw [h4, one_mul]
    _ = _ := by rw [mul_assoc, h3, mul_one]

/-- The displacement reached with a twist in unit time. -/
noncomputable def expTw (x : Fin 6 → ℝ) : Fin 6 → ℝ := twM (exp (hatM x))

theorem exp_smooth : ContDiff ℝ ∞ (exp : M4 → M4) :=
  contDiff_iff_contDiffAt.2 fun x => (exp_analytic (𝕂 := ℝ) x).contDiffAt

theorem expM_smooth : ContDiff ℝ ∞ fun x => exp (hatM x) :=
  exp_smooth.comp hatM.toContinuousLinearMap.contDiff

theorem expTw_smooth : ContDiff ℝ ∞ expTw :=
  twM.toContinuousLinearMap.contDiff.comp expM_smooth

theorem expTw_zero : expTw 0 = 0 := by
  unfold expTw
  rw [map_zero, exp_zero, twM_one]

theorem expTw_deriv : HasStrictFDerivAt expTw (ContinuousLinearMap.id ℝ (Fin 6 → ℝ)) 0 := by
  have h1 : HasStrictFDerivAt (exp : M4 → M4) (1 : M4 →L[ℝ] M4) (hatM.toContinuousLinearMap 0) := by
    rw [map_zero]; exact hasStrictFDerivAt_exp_zero
  have h2 := (twM.toContinuousLinearMap.hasStrictFDerivAt).comp (0 : Fin 6 → ℝ)
    (h1.comp (0 : Fin 6 → ℝ) hatM.toContinuousLinearMap.hasStrictFDerivAt)
  refine h2.congr_fderiv ?_
  ext1 x
  exact twM_hatM x

/-! ## Moving with a constant twist -/

/-- The rigid motion in the upper rows of a matrix. -/
def isoOf (A : M4) : Iso :=
  ⟨⟨A 0 0, A 0 1, A 0 2, A 1 0, A 1 1, A 1 2, A 2 0, A 2 1, A 2 2⟩, ⟨A 0 3, A 1 3, A 2 3⟩⟩

theorem entry_exp (A : M4) (i j : Fin 4) (s : ℝ) :
    HasDerivAt (fun s : ℝ => exp (s • A) i j) ((A * exp (s • A)) i j) s :=
  (Matrix.entryLinearMap ℝ ℝ i j).toContinuousLinearMap.hasFDerivAt.comp_hasDerivAt s
    (hasDerivAt_exp_smul_const' (𝕂 := ℝ) A s)

theorem exp_bottom (x : Fin 6 → ℝ) (s : ℝ) (j : Fin 4) :
    exp (s • hatM x) 3 j = (1 : M4) 3 j := by
  have h1 : ∀ t, HasDerivAt (fun t : ℝ => exp (t • hatM x) 3 j) 0 t := fun t => by
    refine (entry_exp (hatM x) 3 j t).congr_deriv ?_
    simp [Matrix.mul_apply, hatM, Fin.sum_univ_succ]
  have h2 := is_const_of_deriv_eq_zero (fun t => (h1 t).differentiableAt) (fun t => (h1 t).deriv) s 0
  refine h2.trans ?_
  show exp ((0 : ℝ) • hatM x) 3 j = _
  rw [zero_smul, exp_zero]

theorem HasTwist.rot_const {P : ℝ → Iso} {V : Motion} (h0 : (P 0).Valid)
    (h : ∀ s, HasTwist P V s) (s : ℝ) : (P s).Valid := by
  have hc : ∀ {f : ℝ → ℝ}, (∀ t, HasDerivAt f 0 t) → f s = f 0 := fun hf =>
    is_const_of_deriv_eq_zero (fun t => (hf t).differentiableAt) (fun t => (hf t).deriv) s 0
  refine ⟨?_, ?_⟩
  · have hm : ∀ t, HasDerivMat (fun t => (P t).R.T * (P t).R) 0 t := fun t => by
      have hT : HasDerivMat (fun t => (P t).R.T) (skew V.ang * (P t).R).T t := by
        have := (h t).rot
        exact ⟨this.d00, this.d10, this.d20, this.d01, this.d11, this.d21, this.d02, this.d12,
          this.d22⟩
      refine (hT.mul (h t).rot).congr_deriv ?_
      ext <;> simp [skew, Mat3.T] <;> ring
    refine Eq.trans ?_ h0.1
    ext
    · exact hc fun t => (hm t).d00
    · exact hc fun t => (hm t).d01
    · exact hc fun t => (hm t).d02
    · exact hc fun t => (hm t).d10
    · exact hc fun t => (hm t).d11
    · exact hc fun t => (hm t).d12
    · exact hc fun t => (hm t).d20
    · exact hc fun t => (hm t).d21
    · exact hc fun t => (hm t).d22
  · refine Eq.trans (hc (f := fun t => (P t).R.det) fun t => ?_) h0.2
    have := (h t).rot
    have e := (((this.d00.mul ((this.d11.mul this.d22).sub (this.d12.mul this.d21))).sub
      (this.d01.mul ((this.d10.mul this.d22).sub (this.d12.mul this.d20)))).add
      (this.d02.mul ((this.d10.mul this.d21).sub (this.d11.mul this.d20))))
    refine e.congr_deriv ?_
    simp [skew]
    ring

/-- Moving with a constant twist from the origin. -/
noncomputable def flowOf (V : Motion) (s : ℝ) : Iso := isoOf (exp (s • hatM V.comps))

theorem flowOf_zero (V : Motion) : flowOf V 0 = 1 := by
  unfold flowOf
  rw [zero_smul, exp_zero]
  ext <;> simp [isoOf]

theorem flowOf_twist (V : Motion) (s : ℝ) : HasTwist (flowOf V) V s := by
  have b0 := exp_bottom V.comps s 0
  have b1 := exp_bottom V.comps s 1
  have b2 := exp_bottom V.comps s 2
  have b3 := exp_bottom V.comps s 3
  rw [Matrix.one_apply_ne (by decide)] at b0 b1 b2
  rw [Matrix.one_apply_eq] at b3
  constructor
  · constructor
    all_goals
      refine (entry_exp (hatM V.comps) _ _ s).congr_deriv ?_
      simp only [Matrix.mul_apply, Fin.sum_univ_succ, Fin.sum_univ_zero, flowOf, isoOf]
      generalize exp (s • hatM V.comps) = X at b0 b1 b2 b3 ⊢
      simp [hatM, skew, Motion.comps, b0, b1, b2]
      try ring
  · constructor
    all_goals
      refine (entry_exp (hatM V.comps) _ _ s).congr_deriv ?_
      simp only [Matrix.mul_apply, Fin.sum_univ_succ, Fin.sum_univ_zero, flowOf, isoOf]
      generalize exp (s • hatM V.comps) = X at b0 b1 b2 b3 ⊢
      simp [hatM, Motion.comps, Vec3.cross, b3]
      try ring

end SpatialDyn
