import Verif.Lemmas.Tol
import Verif.Lemmas.Transparent
import Mathlib.LinearAlgebra.Matrix.NonsingularInverse
import Mathlib.LinearAlgebra.Matrix.Notation

/-! Dynamically sized matrices of the model as Mathlib matrices. -/

namespace SpatialDyn
open Matrix

namespace DMat
variable {m n p : ℕ} {A B : DMat} {M : Matrix (Fin m) (Fin n) ℝ}

theorem ofM_is (M : Matrix (Fin m) (Fin n) ℝ) : (ofM M).Is M :=
  ⟨rfl, rfl, fun i j => by simp [ofM]⟩

theorem Is.mul (hA : A.Is M) {K : Matrix (Fin n) (Fin p) ℝ} (hB : B.Is K) :
    (A.mul B).Is (M * K) := by
  refine ⟨hA.rows, hB.cols, fun i j => ?_⟩
  show ∑ k ∈ Finset.range A.cols, A.e i k * B.e k j = _
  rw [hA.cols, Finset.sum_range, Matrix.mul_apply]
  exact Finset.sum_congr rfl fun k _ => by rw [hA.e, hB.e]

theorem Is.tr (hA : A.Is M) : A.tr.Is Mᵀ := ⟨hA.cols, hA.rows, fun i j => hA.e j i⟩

theorem Is.sub (hA : A.Is M) {K : Matrix (Fin m) (Fin n) ℝ} (hB : B.Is K) :
    (A.sub B).Is (M - K) :=
  ⟨hA.rows, hA.cols, fun i j => by simp [DMat.sub, hA.e, hB.e]⟩

theorem id_is (n : ℕ) : (DMat.id n).Is (1 : Matrix (Fin n) (Fin n) ℝ) :=
  ⟨rfl, rfl, fun i j => by simp [DMat.id, Matrix.one_apply, Fin.ext_iff]⟩

theorem Is.mulVec (hA : A.Is M) (x : ℕ → ℝ) (i : Fin m) :
    A.mulVec x i = (M *ᵥ fun k : Fin n => x k) i := by
  show ∑ k ∈ Finset.range A.cols, A.e i k * x k = _
  rw [hA.cols, Finset.sum_range]
  exact Finset.sum_congr rfl fun k _ => by rw [hA.e]

theorem Is.trunc (hA : A.Is M) : A.trunc = ofM M := by
  unfold DMat.trunc ofM
  rw [hA.rows, hA.cols]
  congr 1
  funext i j
  by_cases h : i < m ∧ j < n
  · rw [if_pos h, dif_pos h]
    exact hA.e ⟨i, h.1⟩ ⟨j, h.2⟩
  · rw [if_neg h, dif_neg h]

theorem Is.eqv (hA : A.Is M) (h : B.Eqv A) : B.Is M :=
  ⟨h.1.trans hA.rows, h.2.1.trans hA.cols, fun i j => by
    rw [h.2.2 i (by rw [h.1, hA.rows]; exact i.2) j (by rw [h.2.1, hA.cols]; exact j.2), hA.e]⟩

theorem Is.unique {K : Matrix (Fin m) (Fin n) ℝ} (hA : A.Is M) (hB : A.Is K) : M = K := by
  ext i j; rw [← hA.e, hB.e]

theorem Is.eqv_of (hA : A.Is M) (hB : B.Is M) : A.Eqv B :=
  ⟨hA.rows.trans hB.rows.symm, hA.cols.trans hB.cols.symm, fun i hi j hj => by
    rw [hA.e ⟨i, hA.rows ▸ hi⟩ ⟨j, hA.cols ▸ hj⟩, hB.e ⟨i, hA.rows ▸ hi⟩ ⟨j, hA.cols ▸ hj⟩]⟩

theorem exists_is (A : DMat) (hr : A.rows = m) (hc : A.cols = n) :
    ∃ M : Matrix (Fin m) (Fin n) ℝ, A.Is M := ⟨Matrix.of fun i j => A.e i j, hr, hc, fun _ _ => rfl⟩

end DMat

namespace Body
variable {E : Ext} {b : Body}

theorem massM_step (h : Inv E b) {b' : Body} (h1 : Step E b b') {A : ℕ → ℕ → ℝ}
    (hA : IsA b'.fresh A) : toMat b.dof A = b.massM := by
  ext i j
  rw [h1.fresh_eq] at hA
  exact IsA.unique h.wf hA (inertia_run h).2.1 i i.2 j j.2

theorem solve_is {n : ℕ} {A : ℕ → ℕ → ℝ} (hd : PosMat (toMat n A)) (x : ℕ → ℝ) (i : Fin n) :
    E.solve n A x i = ((toMat n A)⁻¹ *ᵥ fun j => x j) i := by
  unfold Ext.solve ldltSolve
  rw [if_pos hd]
  simp

theorem ainvJT_is {n m : ℕ} {A : ℕ → ℕ → ℝ} (hd : PosMat (toMat n A)) {J : DMat}
    {JM : Matrix (Fin m) (Fin n) ℝ} (hJ : J.Is JM) :
    (ainvJT E n A J).Is ((toMat n A)⁻¹ * JMᵀ) := by
  refine ⟨rfl, hJ.rows, fun i k => ?_⟩
  show E.solve n A (fun j => J.e k j) i = _
  rw [solve_is hd, Matrix.mul_apply]
  show ∑ j, (toMat n A)⁻¹ i j * J.e k j = _
  exact Finset.sum_congr rfl fun j _ => by rw [hJ.e, Matrix.transpose_apply]

/-- The cached operational-space quantities after a call. -/
theorem ops_is (h : Inv E b) (hd : PosMat b.massM) {b' : Body} (h1 : Step E b b')
    (hi : b'.c.ops.lambdaInvDone = true) {J : DMat} {m : ℕ} {JM : Matrix (Fin m) (Fin b.dof) ℝ}
    (hJ : J.Is JM) (hE : b'.c.ops.J.Eqv J) :
    b'.c.ops.AinvJT.Is (b.massM⁻¹ * JMᵀ) ∧ b'.c.ops.LambdaInv.Is (b.taskInv JM) := by
  have h' := h.step h1
  obtain ⟨-, A, hA, h2, h3⟩ := h'.coh.opsInv hi
  have e := massM_step h h1 hA
  have hJ' := hJ.eqv hE
  rw [h1.dof_eq] at h2
  have h4 : b'.c.ops.AinvJT.Is (b.massM⁻¹ * JMᵀ) := by
    rw [h2, ← e]
    exact ainvJT_is (by rw [e]; exact hd) hJ'
  refine ⟨h4, ?_⟩
  rw [h3, taskInv, Matrix.mul_assoc]
  exact hJ'.mul h4

theorem opsInertiaInverse_is (h : Inv E b) (hd : PosMat b.massM) {J : DMat} {m : ℕ}
    {JM : Matrix (Fin m) (Fin b.dof) ℝ} (hJ : J.Is JM) {r : DMat × Body}
    (hr : b.opsInertiaInverse E J = .ok r) : r.1.Is (b.taskInv JM) := by
  obtain ⟨h1, h2, h3, h4⟩ := opsInertiaInverse_run h hr
  rw [h4]
  exact (ops_is h hd h1 h2 hJ h3).2

theorem opsInertia_eq (h : Inv E b) (hd : PosMat b.massM) {J : DMat} {m : ℕ}
    {JM : Matrix (Fin m) (Fin b.dof) ℝ} (hJ : J.Is JM) {eps : ℝ} {r : DMat × Body}
    (hr : b.opsInertia E J eps = .ok r) :
    r.1 = (E.pinv (DMat.ofM (b.taskInv JM)) eps).1 ∧
      r.2.c.ops.singular = (E.pinv (DMat.ofM (b.taskInv JM)) eps).2 := by
  obtain ⟨h1, h2, h3, h4, h5⟩ := opsInertia_run h hr
  obtain ⟨h6, h7, h8⟩ := (h.step h1).coh.opsLam h2
  have h9 := (ops_is h hd h1 h6 hJ h3).2.trunc
  rw [h5, h7, h8, h4]
  unfold Ext.pinvOf
  rw [h9]
  exact ⟨rfl, rfl⟩

theorem opsInertia_is (h : Inv E b) (hd : PosMat b.massM) {J : DMat} {m : ℕ}
    {JM : Matrix (Fin m) (Fin b.dof) ℝ} (hJ : J.Is JM) {eps : ℝ}
    (hE : Exact E (b.taskInv JM) eps) {r : DMat × Body}
    (hr : b.opsInertia E J eps = .ok r) : r.1.Is (b.taskInv JM)⁻¹ := by
  rw [(opsInertia_eq h hd hJ hr).1]
  exact hE

/-- `JacobianDynamicInverse`: the value for a tolerance in use. -/
theorem opsJbar_eq {T : Set ℝ} (h : Inv E b) (ht : TolC E T b.c.ops) (hd : PosMat b.massM)
    {J : DMat} {m : ℕ} {JM : Matrix (Fin m) (Fin b.dof) ℝ} (hJ : J.Is JM) {eps : ℝ} (he : eps ∈ T)
    {r : DMat × Body} (hr : b.opsJbar E J eps = .ok r) :
    ∃ e ∈ T, ∃ X : DMat, X.Is (b.massM⁻¹ * JMᵀ) ∧
      r.1 = X.mul (E.pinv (DMat.ofM (b.taskInv JM)) e).1 := by
  have h1 := opsJbar_tol h ht he hr
  obtain ⟨h2, h3, h4, h5⟩ := opsJbar_run h hr
  obtain ⟨e, he, h6⟩ := h1 h3
  obtain ⟨h7, -⟩ := (h.step h2).coh.opsJbar h3
  obtain ⟨h8, h9⟩ := ops_is h hd h2 h7 hJ h4
  refine ⟨e, he, _, h8, ?_⟩
  rw [h5, h6]
  unfold Ext.pinvOf
  rw [h9.trunc]

theorem opsJbar_is {T : Set ℝ} (h : Inv E b) (ht : TolC E T b.c.ops) (hd : PosMat b.massM)
    {J : DMat} {m : ℕ} {JM : Matrix (Fin m) (Fin b.dof) ℝ} (hJ : J.Is JM) {eps : ℝ} (he : eps ∈ T)
    (hE : ∀ e ∈ T, Exact E (b.taskInv JM) e) {r : DMat × Body}
    (hr : b.opsJbar E J eps = .ok r) : r.1.Is (b.massM⁻¹ * JMᵀ * (b.taskInv JM)⁻¹) := by
  obtain ⟨e, he, X, h1, h2⟩ := opsJbar_eq h ht hd hJ he hr
  rw [h2]
  exact h1.mul (hE e he)

theorem massM_eq (h : Inv E b) {b' : Body} (h1 : Step E b b') : HEq b'.massM b.massM := by
  have hd : b'.dof = b.dof := h1.dof_eq
  have e := massM_step h h1 (inertia_run (h.step h1)).2.1
  rw [← e]
  unfold massM
  rw [hd]

end Body

/-! ### Algebra of a task -/

section Algebra
variable {n m : ℕ} {A : Matrix (Fin n) (Fin n) ℝ} {N : Matrix (Fin n) (Fin n) ℝ}
  {J : Matrix (Fin m) (Fin n) ℝ}

/-- `N` projects on the torques (transposed: accelerations) left free, consistently with the
dynamics. -/
structure Projector (B N : Matrix (Fin n) (Fin n) ℝ) : Prop where
  idem : N * N = N
  self : N * B = B * Nᵀ

theorem Projector.one (B : Matrix (Fin n) (Fin n) ℝ) : Projector B 1 := ⟨by simp, by simp⟩

variable {B : Matrix (Fin n) (Fin n) ℝ}

/-- Projected task inertia and dynamically consistent inverse. -/
noncomputable abbrev projInv (B : Matrix (Fin n) (Fin n) ℝ) (K : Matrix (Fin m) (Fin n) ℝ) :=
  K * B * Kᵀ

noncomputable abbrev dynInv (B : Matrix (Fin n) (Fin n) ℝ) (K : Matrix (Fin m) (Fin n) ℝ) :=
  B * Kᵀ * (projInv B K)⁻¹

theorem projInv_symm (hB : Bᵀ = B) : (projInv B J)ᵀ = projInv B J := by
  simp [projInv, Matrix.transpose_mul, hB, Matrix.mul_assoc]

/-- The unprojected task sees the same inertia. -/
theorem Projector.proj (hN : Projector B N) : J * B * (J * N)ᵀ = projInv B (J * N) := by
  show _ = J * N * B * (J * N)ᵀ
  rw [Matrix.mul_assoc J N B, hN.self, Matrix.transpose_mul]
  calc J * B * (Nᵀ * Jᵀ) = J * (B * (N * N)ᵀ) * Jᵀ := by rw [hN.idem]; simp only [Matrix.mul_assoc]
    _ = _ := by rw [Matrix.transpose_mul]; simp only [Matrix.mul_assoc]

theorem Projector.dyn (hN : Projector B N) (hX : (projInv B (J * N)).det ≠ 0) :
    J * dynInv B (J * N) = 1 := by
  unfold dynInv
  rw [← Matrix.mul_assoc, ← Matrix.mul_assoc, hN.proj]
  exact Matrix.mul_nonsing_inv _ (Ne.isUnit hX)

theorem Projector.left (hN : Projector B N) : N * dynInv B (J * N) = dynInv B (J * N) := by
  unfold dynInv
  rw [← Matrix.mul_assoc, ← Matrix.mul_assoc, hN.self, Matrix.transpose_mul]
  congr 1
  calc B * Nᵀ * (Nᵀ * Jᵀ) = B * (N * N)ᵀ * Jᵀ := by
        rw [Matrix.transpose_mul]; simp only [Matrix.mul_assoc]
    _ = _ := by rw [hN.idem]; simp only [Matrix.mul_assoc]

theorem Projector.right (hN : Projector B N) : dynInv B (J * N) * (J * N) * N =
    dynInv B (J * N) * (J * N) := by
  rw [Matrix.mul_assoc, Matrix.mul_assoc J N N, hN.idem]

theorem Projector.next_eq (hN : Projector B N) :
    (1 - dynInv B (J * N) * (J * N)) * N = N - dynInv B (J * N) * (J * N) := by
  rw [Matrix.sub_mul, hN.right, Matrix.one_mul]

theorem dynInv_self {K : Matrix (Fin m) (Fin n) ℝ} (hB : Bᵀ = B) :
    dynInv B K * K * B = B * (dynInv B K * K)ᵀ := by
  unfold dynInv
  have hs := projInv_symm (J := K) hB
  rw [Matrix.transpose_mul, Matrix.transpose_mul, Matrix.transpose_nonsing_inv, hs,
    Matrix.transpose_mul, Matrix.transpose_transpose, hB]
  simp only [Matrix.mul_assoc]

/-- The next projector. -/
theorem Projector.next (hN : Projector B N) (hB : Bᵀ = B) (hX : (projInv B (J * N)).det ≠ 0) :
    Projector B ((1 - dynInv B (J * N) * (J * N)) * N) := by
  rw [hN.next_eq]
  set D := dynInv B (J * N) with hD
  have h1 : N * D = D := hN.left
  have h2 : D * (J * N) * N = D * (J * N) := hN.right
  have h3 : J * N * D = 1 := by rw [Matrix.mul_assoc, h1]; exact hN.dyn hX
  constructor
  · rw [Matrix.sub_mul, Matrix.mul_sub, Matrix.mul_sub, hN.idem, ← Matrix.mul_assoc N D, h1, h2]
    have : D * (J * N) * (D * (J * N)) = D * (J * N) := by
      rw [Matrix.mul_assoc, ← Matrix.mul_assoc (J * N) D, h3, Matrix.one_mul]
    rw [this]; simp
  · rw [Matrix.sub_mul, Matrix.transpose_sub, Matrix.mul_sub, hN.self]
    congr 1
    exact dynInv_self hB

/-- The new projector blocks the task just added. -/
theorem Projector.blocks (hN : Projector B N) (hX : (projInv B (J * N)).det ≠ 0) :
    J * ((1 - dynInv B (J * N) * (J * N)) * N) = 0 := by
  rw [hN.next_eq, Matrix.mul_sub, ← Matrix.mul_assoc J, hN.dyn hX, Matrix.one_mul, sub_self]

/-- It keeps blocking what was blocked. -/
theorem Projector.keeps (hN : Projector B N) {p : ℕ} {K : Matrix (Fin p) (Fin n) ℝ}
    (hK : K * N = 0) : K * ((1 - dynInv B (J * N) * (J * N)) * N) = 0 := by
  rw [hN.next_eq, Matrix.mul_sub, hK]
  have : K * (dynInv B (J * N) * (J * N)) = K * N * (dynInv B (J * N) * (J * N)) := by
    rw [Matrix.mul_assoc K N, ← Matrix.mul_assoc N, hN.left]
  rw [this, hK]; simp

/-- Blocked tasks do not feel torques of the projected task. -/
theorem Projector.silent (hN : Projector B N) {p : ℕ} {K : Matrix (Fin p) (Fin n) ℝ}
    (hK : K * N = 0) : K * B * (J * N)ᵀ = 0 := by
  rw [Matrix.transpose_mul, Matrix.mul_assoc, ← Matrix.mul_assoc B, ← hN.self, Matrix.mul_assoc,
    ← Matrix.mul_assoc K, hK, Matrix.zero_mul]

/-- The compensation term in task space. -/
theorem comp_task (hB : Bᵀ = B) (hX : (projInv B J).det ≠ 0) :
    projInv B J * (dynInv B J)ᵀ = J * B := by
  unfold dynInv
  have hs := projInv_symm (J := J) hB
  rw [Matrix.transpose_mul, Matrix.transpose_nonsing_inv, hs, Matrix.transpose_mul,
    Matrix.transpose_transpose, hB, ← Matrix.mul_assoc,
    Matrix.mul_nonsing_inv _ (Ne.isUnit hX), Matrix.one_mul]

end Algebra
end SpatialDyn
