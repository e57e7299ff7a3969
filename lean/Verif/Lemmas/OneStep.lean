import Mathlib.Analysis.Calculus.MeanValue
import Mathlib.Analysis.Calculus.ContDiff.Operations
import Mathlib.Analysis.Asymptotics.Lemmas
import Mathlib.Analysis.Calculus.Deriv.Pow
import Mathlib.Analysis.Calculus.Deriv.Add
import Mathlib.Analysis.Calculus.Deriv.Comp
import Mathlib.Tactic.Module

/-!
# Local error of one-step methods

Expansions in the step length, uniform over the starting times of a compact interval.
-/

namespace SpatialDyn.OneStep

open Set Asymptotics Filter
open scoped ContDiff

variable {V : Type*} [NormedAddCommGroup V] [NormedSpace ℝ V]

/-- Starting times and step lengths: the step stays within `[0, T]` and is at most `1`. -/
def dom (T : ℝ) : Set (ℝ × ℝ) := {p | 0 ≤ p.1 ∧ 0 ≤ p.2 ∧ p.2 ≤ 1 ∧ p.1 + p.2 ≤ T}

/-- Of order `h ^ k`, uniformly over the starting times. -/
def O (T : ℝ) (k : ℕ) {W : Type*} [Norm W] (f : ℝ × ℝ → W) : Prop :=
  ∃ C, 0 ≤ C ∧ ∀ p ∈ dom T, ‖f p‖ ≤ C * p.2 ^ k

section Closure
variable {T : ℝ} {k l : ℕ} {W : Type*} [NormedAddCommGroup W] [NormedSpace ℝ W]
  {f g : ℝ × ℝ → W}

theorem O.congr (hf : O T k f) (h : ∀ p ∈ dom T, f p = g p) : O T k g := by
  obtain ⟨C, hC, h1⟩ := hf
  exact ⟨C, hC, fun p hp => h p hp ▸ h1 p hp⟩

theorem O.mono (hf : O T k f) (h : l ≤ k) : O T l f := by
  obtain ⟨C, hC, h1⟩ := hf
  refine ⟨C, hC, fun p hp => (h1 p hp).trans ?_⟩
  exact mul_le_mul_of_nonneg_left (pow_le_pow_of_le_one hp.2.1 hp.2.2.1 h) hC

theorem O.add (hf : O T k f) (hg : O T k g) : O T k fun p => f p + g p := by
  obtain ⟨C, hC, h1⟩ := hf
  obtain ⟨D, hD, h2⟩ := hg
  refine ⟨C + D, add_nonneg hC hD, fun p hp => (norm_add_le _ _).trans ?_⟩
  rw [add_mul]
  exact add_le_add (h1 p hp) (h2 p hp)

theorem O.neg (hf : O T k f) : O T k fun p => -f p := by
  obtain ⟨C, hC, h1⟩ := hf
  exact ⟨C, hC, fun p hp => by rw [norm_neg]; exact h1 p hp⟩

theorem O.sub (hf : O T k f) (hg : O T k g) : O T k fun p => f p - g p :=
  (hf.add hg.neg).congr fun p _ => (sub_eq_add_neg _ _).symm

theorem O.smul (c : ℝ) (hf : O T k f) : O T k fun p => c • f p := by
  obtain ⟨C, hC, h1⟩ := hf
  refine ⟨|c| * C, mul_nonneg (abs_nonneg c) hC, fun p hp => ?_⟩
  rw [norm_smul, Real.norm_eq_abs, mul_assoc]
  exact mul_le_mul_of_nonneg_left (h1 p hp) (abs_nonneg c)

theorem O.step (j : ℕ) (hf : O T k f) : O T (k + j) fun p => p.2 ^ j • f p := by
  obtain ⟨C, hC, h1⟩ := hf
  refine ⟨C, hC, fun p hp => ?_⟩
  have h0 := pow_nonneg hp.2.1 j
  rw [norm_smul, Real.norm_eq_abs, abs_of_nonneg h0, pow_add]
  calc p.2 ^ j * ‖f p‖ ≤ p.2 ^ j * (C * p.2 ^ k) := mul_le_mul_of_nonneg_left (h1 p hp) h0
    _ = _ := by ring

theorem O.app {A : ℝ × ℝ → V →L[ℝ] W} {u : ℝ × ℝ → V} (hA : O T l A) (hu : O T k u) :
    O T (l + k) fun p => A p (u p) := by
  obtain ⟨C, hC, h1⟩ := hA
  obtain ⟨D, hD, h2⟩ := hu
  refine ⟨C * D, mul_nonneg hC hD, fun p hp => ((A p).le_opNorm _).trans ?_⟩
  calc ‖A p‖ * ‖u p‖ ≤ (C * p.2 ^ l) * (D * p.2 ^ k) := by
        apply mul_le_mul (h1 p hp) (h2 p hp) (norm_nonneg _)
        exact mul_nonneg hC (pow_nonneg hp.2.1 l)
    _ = _ := by rw [pow_add]; ring

end Closure

/-- A function that starts at zero and grows slower than `C s ^ n`. -/
theorem pow_bound {f f' : ℝ → V} {a h C : ℝ} {n : ℕ} (hC : 0 ≤ C) (h0 : f 0 = 0)
    (hf : ContinuousOn f (Icc 0 h))
    (hd : ∀ s ∈ Ico 0 h, HasDerivWithinAt f (f' s) (Ici s) s)
    (hb : ∀ s ∈ Ico 0 h, ‖f' s‖ ≤ C * s ^ n) : ∀ s ∈ Icc 0 h, ‖f s‖ ≤ C * s ^ (n + 1) := by
  intro s hs
  have key := image_norm_le_of_norm_deriv_right_le_deriv_boundary (f := f) (f' := f') (a := 0)
    (b := h) hf hd (B := fun s => C / (n + 1) * s ^ (n + 1)) (B' := fun s => C * s ^ n)
    (by simp [h0]) (fun x => by
      have := ((hasDerivAt_pow (n + 1) x).const_mul (C / (n + 1)))
      refine this.congr_deriv ?_
      have : (n : ℝ) + 1 ≠ 0 := by positivity
      push_cast
      field_simp) hb hs
  refine key.trans ?_
  have h1 : 0 ≤ s ^ (n + 1) := pow_nonneg hs.1 _
  refine mul_le_mul_of_nonneg_right (div_le_self hC ?_) h1
  linarith [Nat.cast_nonneg (α := ℝ) n]

/-- A curve with all its derivatives on `[0, T]`. -/
structure Ladder (T : ℝ) (Z : ℕ → ℝ → V) : Prop where
  deriv : ∀ k, ∀ t ∈ Icc 0 T, HasDerivWithinAt (Z k) (Z (k + 1) t) (Icc 0 T) t

namespace Ladder
variable {T : ℝ} {Z : ℕ → ℝ → V} (hZ : Ladder T Z)
include hZ

theorem cont (k : ℕ) : ContinuousOn (Z k) (Icc 0 T) := fun t ht => (hZ.deriv k t ht).continuousWithinAt

theorem bound (k : ℕ) : ∃ M, 0 ≤ M ∧ ∀ t ∈ Icc 0 T, ‖Z k t‖ ≤ M := by
  obtain ⟨M, hM⟩ := isCompact_Icc.exists_bound_of_continuousOn (hZ.cont k)
  exact ⟨max M 0, le_max_right _ _, fun t ht => (hM t ht).trans (le_max_left _ _)⟩

/-- The derivative in the time since `t`. -/
theorem shift (k : ℕ) {t h s : ℝ} (ht : 0 ≤ t) (hh : t + h ≤ T) (hs : s ∈ Ico 0 h) :
    HasDerivWithinAt (fun s => Z k (t + s)) (Z (k + 1) (t + s)) (Ici s) s := by
  have h1 : t + s ∈ Icc 0 T := ⟨by linarith [hs.1], by linarith [hs.2]⟩
  have h2 : HasDerivWithinAt (Z k) (Z (k + 1) (t + s)) (Ici (t + s)) (t + s) := by
    refine (hZ.deriv k _ h1).mono_of_mem_nhdsWithin ?_
    refine Filter.mem_of_superset (Icc_mem_nhdsGE (show t + s < t + h by linarith [hs.2]))
      fun x hx => ⟨?_, ?_⟩
    · linarith [hx.1, h1.1]
    · linarith [hx.2]
  have h3 : HasDerivWithinAt (fun s => t + s) 1 (Ici s) s :=
    ((hasDerivAt_id s).const_add t).hasDerivWithinAt
  have := h2.scomp s h3 (fun x hx => by simpa using hx)
  simp only [one_smul] at this
  exact this

theorem shift_cont (k : ℕ) {t h : ℝ} (ht : 0 ≤ t) (hh : t + h ≤ T) :
    ContinuousOn (fun s => Z k (t + s)) (Icc 0 h) :=
  (hZ.cont k).comp (by fun_prop) fun s hs => ⟨by linarith [hs.1], by linarith [hs.2]⟩

/-- Remainder of the Taylor polynomial of degree `m`. -/
theorem taylor (m : ℕ) : ∀ k, ∃ M, 0 ≤ M ∧ ∀ t h, 0 ≤ t → t + h ≤ T → ∀ s ∈ Icc 0 h,
    ‖Z k (t + s) - ∑ j ∈ Finset.range (m + 1), (s ^ j / j.factorial : ℝ) • Z (k + j) t‖ ≤
      M * s ^ (m + 1) := by
  induction m with
  | zero =>
    intro k
    obtain ⟨M, hM, hb⟩ := hZ.bound (k + 1)
    refine ⟨M, hM, fun t h ht hh s hs => ?_⟩
    refine pow_bound (a := 0) (h := h) (f := fun s => Z k (t + s) - ∑ j ∈ Finset.range (0 + 1),
      (s ^ j / j.factorial : ℝ) • Z (k + j) t) (f' := fun s => Z (k + 1) (t + s)) hM (by simp)
      ?_ (fun s hs => ?_) (fun s hs => ?_) s hs
    · simp only [zero_add, Finset.range_one, Finset.sum_singleton, pow_zero]
      exact (hZ.shift_cont k ht hh).sub continuousOn_const
    · simp only [zero_add, Finset.range_one, Finset.sum_singleton, pow_zero]
      exact (hZ.shift k ht hh hs).sub_const _
    · simp only [pow_zero, mul_one]
      exact hb _ ⟨by linarith [hs.1], by linarith [hs.2]⟩
  | succ m ih =>
    intro k
    obtain ⟨M, hM, hb⟩ := ih (k + 1)
    refine ⟨M, hM, fun t h ht hh s hs => ?_⟩
    have hp : ∀ s : ℝ, HasDerivAt (fun s : ℝ => ∑ j ∈ Finset.range (m + 1 + 1),
        (s ^ j / j.factorial : ℝ) • Z (k + j) t)
        (∑ j ∈ Finset.range (m + 1), (s ^ j / j.factorial : ℝ) • Z (k + 1 + j) t) s := by
      intro s
      simp only [Finset.sum_range_succ' _ (m + 1)]
      have h1 : ∀ j ∈ Finset.range (m + 1), HasDerivAt
          (fun s : ℝ => (s ^ (j + 1) / (j + 1).factorial : ℝ) • Z (k + (j + 1)) t)
          ((s ^ j / j.factorial : ℝ) • Z (k + 1 + j) t) s := by
        intro j _
        rw [show k + 1 + j = k + (j + 1) by ring]
        refine HasDerivAt.smul_const ?_ _
        refine ((hasDerivAt_pow (j + 1) s).div_const _).congr_deriv ?_
        rw [Nat.factorial_succ]
        have : ((j : ℝ) + 1) ≠ 0 := by positivity
        have : (j.factorial : ℝ) ≠ 0 := by positivity
        push_cast
        field_simp
      have h2 := HasDerivAt.fun_sum h1
      have h3 : HasDerivAt (fun s : ℝ => (s ^ 0 / Nat.factorial 0 : ℝ) • Z (k + 0) t) 0 s := by
        simp only [pow_zero]
        exact hasDerivAt_const s _
      exact (h2.add h3).congr_deriv (add_zero _)
    refine pow_bound (a := 0) (h := h) (f := fun s => Z k (t + s) - ∑ j ∈ Finset.range (m + 1 + 1),
      (s ^ j / j.factorial : ℝ) • Z (k + j) t) (f' := fun s => Z (k + 1) (t + s) -
        ∑ j ∈ Finset.range (m + 1), (s ^ j / j.factorial : ℝ) • Z (k + 1 + j) t) hM ?_
      ?_ (fun s hs => ?_) (fun s hs => ?_) s hs
    · simp [Finset.sum_range_succ' _ (m + 1)]
    · exact (hZ.shift_cont k ht hh).sub
        (continuous_iff_continuousAt.2 fun s => (hp s).continuousAt).continuousOn
    · exact (hZ.shift k ht hh hs).sub (hp s).hasDerivWithinAt
    · exact hb t h ht hh s ⟨hs.1, hs.2.le⟩

end Ladder

section Smooth
variable {W : Type*} [NormedAddCommGroup W] [NormedSpace ℝ W] [ProperSpace V] {T : ℝ} {k : ℕ}
  {A B : ℝ × ℝ → V}

theorem O.bdd {G : V → W} (hG : Continuous G) (hA : O T 0 A) : O T 0 fun p => G (A p) := by
  obtain ⟨C, hC, h1⟩ := hA
  obtain ⟨M, hM⟩ := (isCompact_closedBall (0 : V) C).exists_bound_of_continuousOn hG.continuousOn
  refine ⟨max M 0, le_max_right _ _, fun p hp => ?_⟩
  have := h1 p hp
  rw [pow_zero, mul_one] at this ⊢
  exact (hM _ (by simpa using this)).trans (le_max_left _ _)

/-- Both points and the segment between them lie in a ball on which a continuous function is
bounded. -/
theorem ball_bound {G : V → W} (hG : Continuous G) (hA : O T 0 A) (hB : O T k fun p => B p - A p) :
    ∃ R M, 0 ≤ M ∧ (∀ p ∈ dom T, A p ∈ Metric.closedBall 0 R ∧ B p ∈ Metric.closedBall 0 R) ∧
      ∀ y ∈ Metric.closedBall (0 : V) R, ‖G y‖ ≤ M := by
  obtain ⟨C, hC, h1⟩ := hA
  obtain ⟨D, hD, h2⟩ := hB.mono (Nat.zero_le k)
  obtain ⟨M, hM⟩ := (isCompact_closedBall (0 : V) (C + D)).exists_bound_of_continuousOn
    hG.continuousOn
  refine ⟨C + D, max M 0, le_max_right _ _, fun p hp => ?_,
    fun y hy => (hM y hy).trans (le_max_left _ _)⟩
  have e1 := h1 p hp
  have e2 := h2 p hp
  rw [pow_zero, mul_one] at e1 e2
  refine ⟨?_, ?_⟩
  · rw [mem_closedBall_zero_iff]; linarith
  · rw [mem_closedBall_zero_iff]
    have := norm_add_le (A p) (B p - A p)
    rw [add_sub_cancel] at this
    linarith

theorem O.lip {G : V → W} (hG : ContDiff ℝ 1 G) (hA : O T 0 A) (hB : O T k fun p => B p - A p) :
    O T k fun p => G (B p) - G (A p) := by
  obtain ⟨R, M, hM, hAB, hb⟩ := ball_bound (hG.continuous_fderiv (by norm_num)) hA hB
  obtain ⟨D, hD, h2⟩ := hB
  refine ⟨M * D, mul_nonneg hM hD, fun p hp => ?_⟩
  have := (convex_closedBall (0 : V) R).norm_image_sub_le_of_norm_fderiv_le (f := G) (C := M) (𝕜 := ℝ)
    (fun x _ => (hG.differentiable (by norm_num)).differentiableAt) hb (hAB p hp).1 (hAB p hp).2
  calc _ ≤ M * ‖B p - A p‖ := this
    _ ≤ M * (D * p.2 ^ k) := mul_le_mul_of_nonneg_left (h2 p hp) hM
    _ = _ := by ring

theorem O.quad {G : V → W} (hG : ContDiff ℝ 2 G) (hA : O T 0 A) (hB : O T k fun p => B p - A p) :
    O T (k + k) fun p => G (B p) - G (A p) - fderiv ℝ G (A p) (B p - A p) := by
  have hG1 : ContDiff ℝ 1 (fderiv ℝ G) := hG.fderiv_right (by norm_num)
  obtain ⟨R, M, hM, hAB, hb⟩ := ball_bound (hG1.continuous_fderiv (by norm_num)) hA hB
  obtain ⟨D, hD, h2⟩ := hB
  refine ⟨M * D * D, mul_nonneg (mul_nonneg hM hD) hD, fun p hp => ?_⟩
  have hconv := convex_closedBall (0 : V) R
  have hseg : segment ℝ (A p) (B p) ⊆ Metric.closedBall 0 R :=
    hconv.segment_subset (hAB p hp).1 (hAB p hp).2
  have hlip : ∀ x ∈ segment ℝ (A p) (B p), ‖fderiv ℝ G x - fderiv ℝ G (A p)‖ ≤ M * ‖B p - A p‖ := by
    intro x hx
    refine (hconv.norm_image_sub_le_of_norm_fderiv_le (f := fderiv ℝ G) (C := M) (𝕜 := ℝ)
      (fun x _ => (hG1.differentiable (by norm_num)).differentiableAt) hb (hAB p hp).1
      (hseg hx)).trans ?_
    refine mul_le_mul_of_nonneg_left ?_ hM
    obtain ⟨a, b, ha, hb, hab, rfl⟩ := hx
    have : a • A p + b • B p - A p = b • (B p - A p) := by
      rw [show a = 1 - b by linarith]; module
    rw [this, norm_smul, Real.norm_eq_abs, abs_of_nonneg hb]
    exact mul_le_of_le_one_left (norm_nonneg _) (by linarith)
  have := (convex_segment (A p) (B p)).norm_image_sub_le_of_norm_hasFDerivWithin_le' (f := G)
    (f' := fderiv ℝ G) (φ := fderiv ℝ G (A p)) (C := M * ‖B p - A p‖)
    (fun x _ => (hG.differentiable (by norm_num)).differentiableAt.hasFDerivAt.hasFDerivWithinAt)
    hlip (left_mem_segment ℝ _ _) (right_mem_segment ℝ _ _)
  have e := h2 p hp
  have h0 := norm_nonneg (B p - A p)
  calc _ ≤ M * ‖B p - A p‖ * ‖B p - A p‖ := this
    _ ≤ M * (D * p.2 ^ k) * (D * p.2 ^ k) := by
      gcongr
      exact mul_nonneg hM (mul_nonneg hD (pow_nonneg hp.2.1 k))
    _ = _ := by rw [pow_add]; ring

end Smooth

section Flow
variable {F : V → V} {T : ℝ} {Y : ℝ → V}

/-- Iterated derivatives along the solutions of `y' = F y`. -/
noncomputable def lie (F : V → V) : ℕ → V → V
  | 0 => id
  | k + 1 => fun y => fderiv ℝ (lie F k) y (F y)

theorem lie_one : lie F 1 = F := by
  funext y
  show fderiv ℝ id y (F y) = F y
  rw [fderiv_id]; rfl

theorem lie_smooth (hF : ContDiff ℝ ∞ F) (k : ℕ) : ContDiff ℝ ∞ (lie F k) := by
  induction k with
  | zero => exact contDiff_id
  | succ k ih => exact (ih.fderiv_right (m := ∞) (by simp)).clm_apply hF

/-- `Y` solves `y' = F y` on `[0, T]`. -/
def Solves (F : V → V) (T : ℝ) (Y : ℝ → V) : Prop :=
  ∀ t ∈ Icc 0 T, HasDerivWithinAt Y (F (Y t)) (Icc 0 T) t

theorem Solves.ladder (hF : ContDiff ℝ ∞ F) (hY : Solves F T Y) :
    Ladder T fun k t => lie F k (Y t) := by
  refine ⟨fun k t ht => ?_⟩
  have h1 : HasFDerivAt (lie F k) (fderiv ℝ (lie F k) (Y t)) (Y t) :=
    ((lie_smooth hF k).differentiable (by simp)).differentiableAt.hasFDerivAt
  exact h1.comp_hasDerivWithinAt t (hY t ht)

end Flow

end SpatialDyn.OneStep
