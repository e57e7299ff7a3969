import Verif.Lemmas.NearLog
import Verif.Lemmas.RootFind
import Mathlib.Analysis.Calculus.MeanValue

/-!
# Second-order expansions

`P2 f a b c`: the function `f` is `a + b s + c s²` up to `o(s²)` at zero, with the rules of
calculation, for numbers, vectors, matrices and motions.  For smooth functions with parameters the
remainder is bounded uniformly over bounded parameters.
-/

namespace SpatialDyn

open Finset Filter Asymptotics Topology
open scoped ContDiff

/-- Expansion to second order at zero. -/
def P2 (f : ℝ → ℝ) (a b c : ℝ) : Prop :=
  (fun s => f s - (a + b * s + c * s ^ 2)) =o[𝓝 0] fun s : ℝ => s ^ 2

namespace P2
variable {f g : ℝ → ℝ} {a b c a' b' c' : ℝ}

theorem const (a : ℝ) : P2 (fun _ => a) a 0 0 := by
  unfold P2
  simp only [zero_mul, add_zero, sub_self]
  exact isLittleO_zero _ _

theorem congr (h : P2 f a b c) (ha : a = a') (hb : b = b') (hc : c = c') : P2 f a' b' c' := by
  subst ha hb hc; exact h

theorem add (h : P2 f a b c) (h' : P2 g a' b' c') : P2 (fun s => f s + g s) (a + a') (b + b') (c + c') :=
  (IsLittleO.add h h').congr_left fun s => by ring

theorem neg (h : P2 f a b c) : P2 (fun s => -f s) (-a) (-b) (-c) :=
  (IsLittleO.neg_left h).congr_left fun s => by ring

theorem sub (h : P2 f a b c) (h' : P2 g a' b' c') : P2 (fun s => f s - g s) (a - a') (b - b') (c - c') :=
  (IsLittleO.sub h h').congr_left fun s => by ring

theorem smul (k : ℝ) (h : P2 f a b c) : P2 (fun s => k * f s) (k * a) (k * b) (k * c) :=
  (IsLittleO.const_mul_left h k).congr_left fun s => by ring

theorem tendsto (h : P2 f a b c) : Tendsto f (𝓝 0) (𝓝 a) := by
  have h1 : Tendsto (fun s : ℝ => s ^ 2) (𝓝 0) (𝓝 0) := by
    have := (continuous_pow 2).tendsto (0 : ℝ)
    simpa using this
  have h2 := IsLittleO.trans_tendsto h h1
  have h3 : Tendsto (fun s : ℝ => a + b * s + c * s ^ 2) (𝓝 0) (𝓝 a) := by
    have : Continuous fun s : ℝ => a + b * s + c * s ^ 2 := by fun_prop
    simpa using this.tendsto 0
  have := h2.add h3
  simpa using this

theorem mul (h : P2 f a b c) (h' : P2 g a' b' c') :
    P2 (fun s => f s * g s) (a * a') (a * b' + b * a') (a * c' + b * b' + c * a') := by
  have h1 : (fun s => (f s - (a + b * s + c * s ^ 2)) * g s) =o[𝓝 0] fun s : ℝ => s ^ 2 * 1 :=
    IsLittleO.mul_isBigO h (h'.tendsto.isBigO_one ℝ)
  have h2 : Tendsto (fun s : ℝ => a + b * s + c * s ^ 2) (𝓝 0) (𝓝 a) := by
    have : Continuous fun s : ℝ => a + b * s + c * s ^ 2 := by fun_prop
    simpa using this.tendsto 0
  have h3 : (fun s => (a + b * s + c * s ^ 2) * (g s - (a' + b' * s + c' * s ^ 2)))
      =o[𝓝 0] fun s : ℝ => 1 * s ^ 2 := (h2.isBigO_one ℝ).mul_isLittleO h'
  have h4 : (fun s : ℝ => s ^ 2 * ((b * c' + c * b') * s + c * c' * s ^ 2))
      =o[𝓝 0] fun s : ℝ => s ^ 2 * 1 := by
    refine (isBigO_refl _ _).mul_isLittleO ((isLittleO_one_iff ℝ).2 ?_)
    have : Continuous fun s : ℝ => (b * c' + c * b') * s + c * c' * s ^ 2 := by fun_prop
    simpa using this.tendsto 0
  simp only [mul_one, one_mul] at h1 h3 h4
  exact ((h1.add h3).add h4).congr_left fun s => by ring

/-- From two derivatives. -/
theorem of_deriv {f' : ℝ → ℝ} {c : ℝ} (h : ∀ s, HasDerivAt f (f' s) s) (h' : HasDerivAt f' c 0) :
    P2 f (f 0) (f' 0) (c / 2) := by
  have hd : ∀ s ∈ Set.univ, HasDerivWithinAt (fun s => f s - (f 0 + f' 0 * s + c / 2 * s ^ 2))
      (f' s - (f' 0 + c * s)) Set.univ s := by
    intro s _
    refine HasDerivAt.hasDerivWithinAt ?_
    have h1 : HasDerivAt (fun s : ℝ => f 0 + f' 0 * s + c / 2 * s ^ 2) (f' 0 + c * s) s := by
      have := (((hasDerivAt_id s).const_mul (f' 0)).const_add (f 0)).add
        (((hasDerivAt_id s).pow 2).const_mul (c / 2))
      refine this.congr_deriv ?_
      simp
      ring
    exact (h s).sub h1
  have ho : (fun s => f' s - (f' 0 + c * s)) =o[𝓝[Set.univ] 0] fun s : ℝ => (s - 0) ^ 1 := by
    rw [nhdsWithin_univ]
    have := h'.isLittleO
    refine this.congr' (Eventually.of_forall fun s => ?_) (Eventually.of_forall fun s => ?_)
    · simp; ring
    · simp
  have := convex_univ.isLittleO_pow_succ_real (Set.mem_univ 0) hd ho
  rw [nhdsWithin_univ] at this
  refine this.congr (fun s => ?_) (fun s => ?_)
  · simp
  · simp

theorem at_zero (h : P2 f a b c) : f 0 = a := by
  have h1 : f 0 - (a + b * 0 + c * 0 ^ 2) = 0 := by
    have := (isLittleO_iff.1 h (c := 1) one_pos).self_of_nhds
    simpa using this
  linarith

theorem deriv (h : P2 f a b c) : HasDerivAt f b 0 := by
  rw [hasDerivAt_iff_isLittleO]
  have h1 : (fun s : ℝ => s ^ 2) =o[𝓝 0] fun s : ℝ => s := by
    have : (fun s : ℝ => s * s) =o[𝓝 0] fun s : ℝ => s * 1 :=
      (isBigO_refl _ _).mul_isLittleO ((isLittleO_one_iff ℝ).2 tendsto_id)
    simpa [pow_two] using this
  have h2 := (IsLittleO.trans h h1).add (h1.const_mul_left c)
  refine h2.congr (fun s => ?_) (fun s => by simp)
  rw [h.at_zero]
  simp
  ring

theorem unique (h : P2 f a b c) (h' : P2 f a b c') : c = c' := by
  have h1 := IsLittleO.sub h h'
  have h2 : (fun s : ℝ => (c' - c) * s ^ 2) =o[𝓝[≠] 0] fun s : ℝ => s ^ 2 :=
    (h1.congr_left fun s => by ring).mono nhdsWithin_le_nhds
  by_contra hne
  have h3 : (fun s : ℝ => s ^ 2) =o[𝓝[≠] 0] fun s : ℝ => s ^ 2 := by
    refine (h2.const_mul_left (c' - c)⁻¹).congr_left fun s => ?_
    have : c' - c ≠ 0 := sub_ne_zero.2 (Ne.symm hne)
    field_simp
  have h5 : ∀ᶠ s : ℝ in 𝓝[≠] 0, s ^ 2 ≠ 0 :=
    eventually_mem_nhdsWithin.mono fun s hs => pow_ne_zero 2 hs
  exact isLittleO_irrefl h5.frequently h3

theorem sum {ι : Type*} (t : Finset ι) {f : ι → ℝ → ℝ} {a b c : ι → ℝ}
    (h : ∀ i ∈ t, P2 (f i) (a i) (b i) (c i)) :
    P2 (fun s => ∑ i ∈ t, f i s) (∑ i ∈ t, a i) (∑ i ∈ t, b i) (∑ i ∈ t, c i) := by
  classical
  induction t using Finset.induction_on with
  | empty => simpa using P2.const 0
  | insert i t hi ih =>
    simp only [sum_insert hi]
    exact (h i (mem_insert_self i t)).add (ih fun j hj => h j (mem_insert_of_mem hj))

end P2

/-! ## Uniform remainders -/

section Unif
variable {W : Type*} [NormedAddCommGroup W] [NormedSpace ℝ W] {F : ℝ × W → ℝ}

/-- Derivative in the first argument. -/
noncomputable def dFst (F : ℝ × W → ℝ) (p : ℝ × W) : ℝ := fderiv ℝ F p (1, 0)

theorem dFst_smooth (hF : Sm F) : Sm (dFst F) :=
  (hF.fderiv_right (m := ∞) (by simp)).clm_apply contDiff_const

theorem dFst_deriv (hF : Sm F) (w : W) (s : ℝ) : HasDerivAt (fun s => F (s, w)) (dFst F (s, w)) s := by
  have h1 : HasFDerivAt F (fderiv ℝ F (s, w)) (s, w) :=
    (hF.differentiable (by simp)).differentiableAt.hasFDerivAt
  have h2 : HasDerivAt (fun s : ℝ => (s, w)) ((1 : ℝ), (0 : W)) s :=
    (hasDerivAt_id s).prodMk (hasDerivAt_const s w)
  exact h1.comp_hasDerivAt s h2

/-- Integration of a bound. -/
theorem unif_step (hF : Sm F) {m C : ℝ} {p : ℕ} (hC : 0 ≤ C) (h0 : ∀ w, F (0, w) = 0)
    (hd : ∀ s, 0 ≤ s → s ≤ 1 → ∀ w : W, ‖w‖ ≤ m → |dFst F (s, w)| ≤ C * s ^ p) :
    ∀ s, 0 ≤ s → s ≤ 1 → ∀ w : W, ‖w‖ ≤ m → |F (s, w)| ≤ C * s ^ (p + 1) := by
  intro s hs0 hs1 w hw
  have := norm_image_sub_le_of_norm_deriv_le_segment' (f := fun s => F (s, w)) (a := 0) (b := s)
    (C := C * s ^ p) (fun x _ => (dFst_deriv hF w x).hasDerivWithinAt) (fun x hx => by
      have h1 := hd x hx.1 (hx.2.le.trans hs1) w hw
      rw [Real.norm_eq_abs]
      refine h1.trans (mul_le_mul_of_nonneg_left ?_ hC)
      exact pow_le_pow_left₀ hx.1 hx.2.le p) s ⟨hs0, le_rfl⟩
  rw [h0 w, sub_zero, sub_zero, Real.norm_eq_abs] at this
  rw [pow_succ, ← mul_assoc]
  exact this

variable [ProperSpace W]

theorem unif0 (hF : Sm F) (m : ℝ) :
    ∃ C, 0 ≤ C ∧ ∀ s, 0 ≤ s → s ≤ 1 → ∀ w : W, ‖w‖ ≤ m → |F (s, w)| ≤ C := by
  obtain ⟨C, hC⟩ := ((isCompact_Icc (a := (0 : ℝ)) (b := 1)).prod
    (isCompact_closedBall (0 : W) m)).exists_bound_of_continuousOn hF.continuous.continuousOn
  refine ⟨max C 0, le_max_right _ _, fun s h0 h1 w hw => ?_⟩
  exact (hC (s, w) ⟨⟨h0, h1⟩, by simpa using hw⟩).trans (le_max_left _ _)

theorem unif1 (hF : Sm F) (h0 : ∀ w, F (0, w) = 0) (m : ℝ) :
    ∃ C, 0 ≤ C ∧ ∀ s, 0 ≤ s → s ≤ 1 → ∀ w : W, ‖w‖ ≤ m → |F (s, w)| ≤ C * s := by
  obtain ⟨C, hC, h⟩ := unif0 (dFst_smooth hF) m
  refine ⟨C, hC, fun s h1 h2 w hw => ?_⟩
  have := unif_step (p := 0) hF hC h0 (fun s h1 h2 w hw => by simpa using h s h1 h2 w hw) s h1 h2 w hw
  simpa using this

theorem unif2 (hF : Sm F) (h0 : ∀ w, F (0, w) = 0) (h1 : ∀ w, HasDerivAt (fun s => F (s, w)) 0 0)
    (m : ℝ) : ∃ C, 0 ≤ C ∧ ∀ s, 0 ≤ s → s ≤ 1 → ∀ w : W, ‖w‖ ≤ m → |F (s, w)| ≤ C * s ^ 2 := by
  obtain ⟨C, hC, h⟩ := unif1 (dFst_smooth hF) (fun w => (dFst_deriv hF w 0).unique (h1 w)) m
  exact ⟨C, hC, unif_step (p := 1) hF hC h0 fun s h1 h2 w hw => by
    rw [pow_one]; exact h s h1 h2 w hw⟩

theorem unif3 (hF : Sm F) (h : ∀ w, P2 (fun s => F (s, w)) 0 0 0) (m : ℝ) :
    ∃ C, 0 ≤ C ∧ ∀ s, 0 ≤ s → s ≤ 1 → ∀ w : W, ‖w‖ ≤ m → |F (s, w)| ≤ C * s ^ 3 := by
  have h0 : ∀ w, F (0, w) = 0 := fun w => (h w).at_zero
  have h1 : ∀ w, dFst F (0, w) = 0 := fun w => (dFst_deriv hF w 0).unique (h w).deriv
  have h2 : ∀ w, HasDerivAt (fun s => dFst F (s, w)) 0 0 := by
    intro w
    have hd := dFst_deriv (dFst_smooth hF) w 0
    have := (P2.of_deriv (dFst_deriv hF w) hd).congr (h0 w) (h1 w) rfl
    have e := this.unique (h w)
    refine hd.congr_deriv ?_
    linarith
  obtain ⟨C, hC, h3⟩ := unif2 (dFst_smooth hF) h1 h2 m
  exact ⟨C, hC, unif_step (p := 2) hF hC h0 h3⟩

/-- A smooth function is Lipschitz on bounded sets. -/
theorem lip_on {f : W → ℝ} (hf : Sm f) (m : ℝ) :
    ∃ L, 0 ≤ L ∧ ∀ x y : W, ‖x‖ ≤ m → ‖y‖ ≤ m → |f x - f y| ≤ L * ‖x - y‖ := by
  obtain ⟨L, hL⟩ := (isCompact_closedBall (0 : W) m).exists_bound_of_continuousOn
    (hf.continuous_fderiv (by simp)).continuousOn
  refine ⟨max L 0, le_max_right _ _, fun x y hx hy => ?_⟩
  exact (convex_closedBall (0 : W) m).norm_image_sub_le_of_norm_fderiv_le (f := f) (𝕜 := ℝ)
    (fun x _ => (hf.differentiable (by simp)).differentiableAt)
    (fun x hx => (hL x hx).trans (le_max_left _ _)) (x := y) (y := x) (by simpa using hy)
    (by simpa using hx)

end Unif

/-! ## Distances of rigid motions -/

/-- The numbers that make up a rigid motion. -/
def Iso.entry (T : Iso) : Fin 12 → ℝ :=
  ![T.R.m00, T.R.m01, T.R.m02, T.R.m10, T.R.m11, T.R.m12, T.R.m20, T.R.m21, T.R.m22, T.t.x, T.t.y,
    T.t.z]

theorem Iso.gap_entry (T U : Iso) : T.gap U = ∑ i, |T.entry i - U.entry i| := by
  rw [Iso.gap_eq]
  simp only [Fin.sum_univ_succ, Fin.sum_univ_zero, Iso.entry]
  simp
  ring

theorem SmIso.entry {X : Type*} [NormedAddCommGroup X] [NormedSpace ℝ X] {F : X → Iso}
    (h : SmIso F) (i : Fin 12) : Sm fun p => (F p).entry i := by
  fin_cases i
  · exact h.R.m00
  · exact h.R.m01
  · exact h.R.m02
  · exact h.R.m10
  · exact h.R.m11
  · exact h.R.m12
  · exact h.R.m20
  · exact h.R.m21
  · exact h.R.m22
  · exact h.t.x
  · exact h.t.y
  · exact h.t.z

theorem entry_deriv {T : ℝ → Iso} {R' : Mat3} {t' : Vec3} {s : ℝ}
    (hR : HasDerivMat (fun s => (T s).R) R' s) (ht : HasDerivVec (fun s => (T s).t) t' s)
    (i : Fin 12) : HasDerivAt (fun s => (T s).entry i) ((⟨R', t'⟩ : Iso).entry i) s := by
  fin_cases i
  · exact hR.d00
  · exact hR.d01
  · exact hR.d02
  · exact hR.d10
  · exact hR.d11
  · exact hR.d12
  · exact hR.d20
  · exact hR.d21
  · exact hR.d22
  · exact ht.x
  · exact ht.y
  · exact ht.z

section Gap
variable {W : Type*} [NormedAddCommGroup W] [NormedSpace ℝ W] [ProperSpace W]

theorem sum_bound {ι : Type*} (t : Finset ι) {P : ι → ℝ → Prop} (hP : ∀ i ∈ t, ∃ C, 0 ≤ C ∧ P i C) :
    ∃ C : ι → ℝ, (∀ i, 0 ≤ C i) ∧ ∀ i ∈ t, P i (C i) := by
  classical
  choose! C hC using hP
  refine ⟨fun i => if i ∈ t then C i else 0, fun i => ?_, fun i hi => ?_⟩
  · dsimp only
    split
    · exact (hC i ‹_›).1
    · exact le_rfl
  · simp only [hi, if_true]
    exact (hC i hi).2

theorem gap_unif1 {F G : ℝ × W → Iso} (hF : SmIso F) (hG : SmIso G)
    (h0 : ∀ w, F (0, w) = G (0, w)) (m : ℝ) :
    ∃ C, 0 ≤ C ∧ ∀ s, 0 ≤ s → s ≤ 1 → ∀ w : W, ‖w‖ ≤ m → (F (s, w)).gap (G (s, w)) ≤ C * s := by
  obtain ⟨C, hC, h⟩ := sum_bound (Finset.univ : Finset (Fin 12)) (P := fun i C =>
      ∀ s, 0 ≤ s → s ≤ 1 → ∀ w : W, ‖w‖ ≤ m → |(F (s, w)).entry i - (G (s, w)).entry i| ≤ C * s)
    fun i _ => unif1 ((hF.entry i).sub (hG.entry i)) (fun w => by rw [h0, sub_self]) m
  refine ⟨∑ i, C i, sum_nonneg fun i _ => hC i, fun s h1 h2 w hw => ?_⟩
  rw [Iso.gap_entry, sum_mul]
  exact sum_le_sum fun i hi => h i hi s h1 h2 w hw

theorem gap_unif2 {F G : ℝ × W → Iso} (hF : SmIso F) (hG : SmIso G)
    (h0 : ∀ w, F (0, w) = G (0, w))
    (h1 : ∀ w, ∃ R' t', HasDerivMat (fun s => (F (s, w)).R) R' 0 ∧
      HasDerivVec (fun s => (F (s, w)).t) t' 0 ∧ HasDerivMat (fun s => (G (s, w)).R) R' 0 ∧
      HasDerivVec (fun s => (G (s, w)).t) t' 0) (m : ℝ) :
    ∃ C, 0 ≤ C ∧ ∀ s, 0 ≤ s → s ≤ 1 → ∀ w : W, ‖w‖ ≤ m →
      (F (s, w)).gap (G (s, w)) ≤ C * s ^ 2 := by
  obtain ⟨C, hC, h⟩ := sum_bound (Finset.univ : Finset (Fin 12)) (P := fun i C =>
      ∀ s, 0 ≤ s → s ≤ 1 → ∀ w : W, ‖w‖ ≤ m →
        |(F (s, w)).entry i - (G (s, w)).entry i| ≤ C * s ^ 2)
    fun i _ => unif2 ((hF.entry i).sub (hG.entry i)) (fun w => by rw [h0, sub_self])
      (fun w => by
        obtain ⟨R', t', a, b, c, d⟩ := h1 w
        exact ((entry_deriv a b i).sub (entry_deriv c d i)).congr_deriv (sub_self _)) m
  refine ⟨∑ i, C i, sum_nonneg fun i _ => hC i, fun s h1 h2 w hw => ?_⟩
  rw [Iso.gap_entry, sum_mul]
  exact sum_le_sum fun i hi => h i hi s h1 h2 w hw

theorem gap_lip {F : W → Iso} (hF : SmIso F) (m : ℝ) :
    ∃ L, 0 ≤ L ∧ ∀ x y : W, ‖x‖ ≤ m → ‖y‖ ≤ m → (F x).gap (F y) ≤ L * ‖x - y‖ := by
  obtain ⟨C, hC, h⟩ := sum_bound (Finset.univ : Finset (Fin 12)) (P := fun i C =>
      ∀ x y : W, ‖x‖ ≤ m → ‖y‖ ≤ m → |(F x).entry i - (F y).entry i| ≤ C * ‖x - y‖)
    fun i _ => lip_on (hF.entry i) m
  refine ⟨∑ i, C i, sum_nonneg fun i _ => hC i, fun x y hx hy => ?_⟩
  rw [Iso.gap_entry, sum_mul]
  exact sum_le_sum fun i hi => h i hi x y hx hy

theorem Iso.gap_triangle (A B C : Iso) : A.gap C ≤ A.gap B + B.gap C := by
  simp only [Iso.gap_entry]
  rw [← sum_add_distrib]
  exact sum_le_sum fun i _ => abs_sub_le _ _ _

end Gap

/-! ## Vectors, matrices, motions -/

/-- Expansion of a vector. -/
structure P2V (f : ℝ → Vec3) (a b c : Vec3) : Prop where
  x : P2 (fun s => (f s).x) a.x b.x c.x
  y : P2 (fun s => (f s).y) a.y b.y c.y
  z : P2 (fun s => (f s).z) a.z b.z c.z

/-- Expansion of a motion. -/
structure P2M (f : ℝ → Motion) (a b c : Motion) : Prop where
  lin : P2V (fun s => (f s).lin) a.lin b.lin c.lin
  ang : P2V (fun s => (f s).ang) a.ang b.ang c.ang

/-- Expansion of a matrix. -/
structure P2Mat (f : ℝ → Mat3) (a b c : Mat3) : Prop where
  m00 : P2 (fun s => (f s).m00) a.m00 b.m00 c.m00
  m01 : P2 (fun s => (f s).m01) a.m01 b.m01 c.m01
  m02 : P2 (fun s => (f s).m02) a.m02 b.m02 c.m02
  m10 : P2 (fun s => (f s).m10) a.m10 b.m10 c.m10
  m11 : P2 (fun s => (f s).m11) a.m11 b.m11 c.m11
  m12 : P2 (fun s => (f s).m12) a.m12 b.m12 c.m12
  m20 : P2 (fun s => (f s).m20) a.m20 b.m20 c.m20
  m21 : P2 (fun s => (f s).m21) a.m21 b.m21 c.m21
  m22 : P2 (fun s => (f s).m22) a.m22 b.m22 c.m22

section
variable {f g : ℝ → Vec3} {a b c a' b' c' : Vec3} {M : ℝ → Mat3} {A B C : Mat3}

theorem P2V.congr (h : P2V f a b c) (ha : a = a') (hb : b = b') (hc : c = c') : P2V f a' b' c' := by
  subst ha hb hc; exact h

theorem P2V.const (a : Vec3) : P2V (fun _ => a) a 0 0 := ⟨.const _, .const _, .const _⟩

theorem P2V.add (h : P2V f a b c) (h' : P2V g a' b' c') :
    P2V (fun s => f s + g s) (a + a') (b + b') (c + c') :=
  ⟨h.x.add h'.x, h.y.add h'.y, h.z.add h'.z⟩

theorem P2V.neg (h : P2V f a b c) : P2V (fun s => -f s) (-a) (-b) (-c) :=
  ⟨h.x.neg, h.y.neg, h.z.neg⟩

theorem P2V.cross (h : P2V f a b c) (h' : P2V g a' b' c') :
    P2V (fun s => (f s).cross (g s)) (a.cross a') (a.cross b' + b.cross a')
      (a.cross c' + b.cross b' + c.cross a') := by
  refine ⟨?_, ?_, ?_⟩
  · exact ((h.y.mul h'.z).sub (h.z.mul h'.y)).congr (by simp [Vec3.cross])
      (by simp [Vec3.cross]; ring) (by simp [Vec3.cross]; ring)
  · exact ((h.z.mul h'.x).sub (h.x.mul h'.z)).congr (by simp [Vec3.cross])
      (by simp [Vec3.cross]; ring) (by simp [Vec3.cross]; ring)
  · exact ((h.x.mul h'.y).sub (h.y.mul h'.x)).congr (by simp [Vec3.cross])
      (by simp [Vec3.cross]; ring) (by simp [Vec3.cross]; ring)

theorem P2V.dot (h : P2V f a b c) (h' : P2V g a' b' c') :
    P2 (fun s => (f s).dot (g s)) (a.dot a') (a.dot b' + b.dot a')
      (a.dot c' + b.dot b' + c.dot a') :=
  (((h.x.mul h'.x).add (h.y.mul h'.y)).add (h.z.mul h'.z)).congr (by simp [Vec3.dot])
      (by simp [Vec3.dot]; ring) (by simp [Vec3.dot]; ring)

theorem P2Mat.mulVec (h : P2Mat M A B C) (h' : P2V f a b c) :
    P2V (fun s => (M s).mulVec (f s)) (A.mulVec a) (A.mulVec b + B.mulVec a)
      (A.mulVec c + B.mulVec b + C.mulVec a) := by
  refine ⟨?_, ?_, ?_⟩
  · exact (((h.m00.mul h'.x).add (h.m01.mul h'.y)).add (h.m02.mul h'.z)).congr
      (by simp [Mat3.mulVec]) (by simp [Mat3.mulVec]; ring) (by simp [Mat3.mulVec]; ring)
  · exact (((h.m10.mul h'.x).add (h.m11.mul h'.y)).add (h.m12.mul h'.z)).congr
      (by simp [Mat3.mulVec]) (by simp [Mat3.mulVec]; ring) (by simp [Mat3.mulVec]; ring)
  · exact (((h.m20.mul h'.x).add (h.m21.mul h'.y)).add (h.m22.mul h'.z)).congr
      (by simp [Mat3.mulVec]) (by simp [Mat3.mulVec]; ring) (by simp [Mat3.mulVec]; ring)

theorem P2Mat.T (h : P2Mat M A B C) : P2Mat (fun s => (M s).T) A.T B.T C.T :=
  ⟨h.m00, h.m10, h.m20, h.m01, h.m11, h.m21, h.m02, h.m12, h.m22⟩

theorem P2Mat.congr {A' B' C' : Mat3} (h : P2Mat M A B C) (ha : A = A') (hb : B = B') (hc : C = C') :
    P2Mat M A' B' C' := by
  subst ha hb hc; exact h

theorem P2Mat.const (A : Mat3) : P2Mat (fun _ => A) A 0 0 :=
  ⟨.const _, .const _, .const _, .const _, .const _, .const _, .const _, .const _, .const _⟩

theorem P2V.of_deriv {f' : ℝ → Vec3} {c : Vec3} (h : ∀ s, HasDerivVec f (f' s) s)
    (h' : HasDerivVec f' c 0) : P2V f (f 0) (f' 0) ((1 / 2 : ℝ) • c) := by
  refine ⟨?_, ?_, ?_⟩
  · exact (P2.of_deriv (fun s => (h s).x) h'.x).congr rfl rfl (by simp; ring)
  · exact (P2.of_deriv (fun s => (h s).y) h'.y).congr rfl rfl (by simp; ring)
  · exact (P2.of_deriv (fun s => (h s).z) h'.z).congr rfl rfl (by simp; ring)

theorem P2Mat.of_deriv {f' : ℝ → Mat3} {c : Mat3} (h : ∀ s, HasDerivMat M (f' s) s)
    (h' : HasDerivMat f' c 0) : P2Mat M (M 0) (f' 0) ((1 / 2 : ℝ) • c) := by
  refine ⟨?_, ?_, ?_, ?_, ?_, ?_, ?_, ?_, ?_⟩
  · exact (P2.of_deriv (fun s => (h s).d00) h'.d00).congr rfl rfl (by simp; ring)
  · exact (P2.of_deriv (fun s => (h s).d01) h'.d01).congr rfl rfl (by simp; ring)
  · exact (P2.of_deriv (fun s => (h s).d02) h'.d02).congr rfl rfl (by simp; ring)
  · exact (P2.of_deriv (fun s => (h s).d10) h'.d10).congr rfl rfl (by simp; ring)
  · exact (P2.of_deriv (fun s => (h s).d11) h'.d11).congr rfl rfl (by simp; ring)
  · exact (P2.of_deriv (fun s => (h s).d12) h'.d12).congr rfl rfl (by simp; ring)
  · exact (P2.of_deriv (fun s => (h s).d20) h'.d20).congr rfl rfl (by simp; ring)
  · exact (P2.of_deriv (fun s => (h s).d21) h'.d21).congr rfl rfl (by simp; ring)
  · exact (P2.of_deriv (fun s => (h s).d22) h'.d22).congr rfl rfl (by simp; ring)

end

end SpatialDyn
