import Verif.Props.Bounds
import Verif.Props.Opspace

/-! C149: the inverse inertia of a task between two multiples of the Jacobian, in all states. -/

namespace SpatialDyn
open Finset Body Matrix

variable {E : Ext} {b : Body} {d : Bool}

theorem dot_self_nonneg {n : ℕ} (v : Fin n → ℝ) : 0 ≤ v ⬝ᵥ v :=
  sum_nonneg fun i _ => mul_self_nonneg (v i)

/-- Bounds of a form and those of its inverse. -/
theorem inverse_bounds {n : ℕ} {A : Matrix (Fin n) (Fin n) ℝ} (hs : Aᵀ = A) (hp : PosMat A) {m M : ℝ}
    (m0 : 0 < m) (M0 : 0 < M) (h1 : ∀ v : Fin n → ℝ, m * (v ⬝ᵥ v) ≤ v ⬝ᵥ A *ᵥ v)
    (h2 : ∀ v : Fin n → ℝ, v ⬝ᵥ A *ᵥ v ≤ M * (v ⬝ᵥ v)) (w : Fin n → ℝ) :
    w ⬝ᵥ w / M ≤ w ⬝ᵥ A⁻¹ *ᵥ w ∧ w ⬝ᵥ A⁻¹ *ᵥ w ≤ w ⬝ᵥ w / m := by
  set x := A⁻¹ *ᵥ w with hx
  have hAx : A *ᵥ x = w := by
    rw [hx, mulVec_mulVec, mul_nonsing_inv _ (isUnit_iff_ne_zero.2 hp.det_ne), one_mulVec]
  have hxw : x ⬝ᵥ A *ᵥ x = w ⬝ᵥ x := by rw [hAx, dotProduct_comm]
  constructor
  · have h0 : 0 ≤ (x - M⁻¹ • w) ⬝ᵥ A *ᵥ (x - M⁻¹ • w) :=
      (mul_nonneg m0.le (dot_self_nonneg _)).trans (h1 _)
    have e : (x - M⁻¹ • w) ⬝ᵥ A *ᵥ (x - M⁻¹ • w) =
        w ⬝ᵥ x - 2 * (M⁻¹ * (w ⬝ᵥ w)) + M⁻¹ * M⁻¹ * (w ⬝ᵥ A *ᵥ w) := by
      have e1 : x ⬝ᵥ A *ᵥ w = w ⬝ᵥ w := by
        rw [dotProduct_mulVec, ← mulVec_transpose, hs, hAx]
      rw [mulVec_sub, mulVec_smul, sub_dotProduct, dotProduct_sub, dotProduct_sub, hxw, hAx,
        dotProduct_smul, smul_dotProduct, smul_dotProduct, dotProduct_smul, e1]
      simp only [smul_eq_mul]
      ring
    have h3 := mul_le_mul_of_nonneg_left (h2 w) (by positivity : 0 ≤ M⁻¹ * M⁻¹)
    have e2 : M⁻¹ * M⁻¹ * (M * (w ⬝ᵥ w)) = M⁻¹ * (w ⬝ᵥ w) := by field_simp
    rw [div_eq_inv_mul]
    linarith
  · have h0 : 0 ≤ (m • x - w) ⬝ᵥ (m • x - w) := dot_self_nonneg _
    have e : (m • x - w) ⬝ᵥ (m • x - w) = m * (m * (x ⬝ᵥ x)) - 2 * (m * (w ⬝ᵥ x)) + w ⬝ᵥ w := by
      simp only [sub_dotProduct, dotProduct_sub, smul_dotProduct, dotProduct_smul, smul_eq_mul]
      rw [dotProduct_comm x w]
      ring
    have h3 := h1 x
    rw [hxw] at h3
    have h4 := mul_le_mul_of_nonneg_left h3 m0.le
    rw [le_div_iff₀ m0]
    linarith

/-- C149: for a robot whose joints all turn, the inverse inertia that `opspace::InertiaInverse` answers lies
between two multiples of the square of the transposed Jacobian, the multiples being the same in all states
and for all tasks. -/
theorem C149_opspace (h : Reach E b d) (hd : b.Definite) (ht : ∀ i < b.dof,
      (b.rb i).joint.type = .rx ∨ (b.rb i).joint.type = .ry ∨ (b.rb i).joint.type = .rz) :
    ∃ c > 0, ∃ C, ∀ q B, b.setQ q = .ok B → ∀ (J : DMat) r, J.cols = b.dof →
      B.opsInertiaInverse E J = .ok r → ∀ u : ℕ → ℝ,
      c * ∑ j ∈ range b.dof, (∑ k ∈ range J.rows, J.e k j * u k) ^ 2 ≤
        ∑ k ∈ range J.rows, u k * ∑ l ∈ range J.rows, r.1.e k l * u l ∧
      ∑ k ∈ range J.rows, u k * ∑ l ∈ range J.rows, r.1.e k l * u l ≤
        C * ∑ j ∈ range b.dof, (∑ k ∈ range J.rows, J.e k j * u k) ^ 2 := by
  obtain ⟨m, m0, M, hM⟩ := C149_inertia h hd ht
  have M1 : 0 < |M| + 1 := by positivity
  refine ⟨1 / (|M| + 1), by positivity, 1 / m, fun q B hB J r hJ hr u => ?_⟩
  obtain ⟨hs, hn, -, _, R⟩ := h.after_setQ hB
  have hm := (hs.definite hd).massive R.inv.tree
  have hform := fun v : Fin B.dof → ℝ => hM q B hB (padFin v)
  have e1 : ∀ v : Fin B.dof → ℝ, ∑ i ∈ range b.dof, padFin v i ^ 2 = v ⬝ᵥ v := fun v => by
    rw [← hn, sum_range]
    exact sum_congr rfl fun i _ => by rw [padFin_at, sq]
  have e2 : ∀ v : Fin B.dof → ℝ, ∑ k ∈ range b.dof, padFin v k * ∑ j ∈ range b.dof,
      B.inertia.1 k j * padFin v j = v ⬝ᵥ B.massM *ᵥ v := fun v => by
    rw [← hn, sum_range]
    refine sum_congr rfl fun i _ => ?_
    rw [padFin_at, sum_range]
    congr 1
    exact sum_congr rfl fun j _ => by rw [padFin_at]; rfl
  simp only [e1, e2] at hform
  have hpos : PosMat B.massM := fun v hv => by
    refine lt_of_lt_of_le (mul_pos m0 ?_) (hform v).1
    refine lt_of_le_of_ne (dot_self_nonneg v) fun e => hv (funext fun i => ?_)
    exact mul_self_eq_zero.1 ((sum_eq_zero_iff_of_nonneg fun i _ => mul_self_nonneg (v i)).1 e.symm i (mem_univ i))
  have hsym : B.massMᵀ = B.massM := by
    ext i j
    exact C24_symmetric R hm j i j.2 i.2
  obtain ⟨JM, hJM⟩ := DMat.exists_is J rfl (hJ.trans hn.symm)
  have hX := opsInertiaInverse_is R.inv hpos hJM hr
  set w : Fin B.dof → ℝ := JMᵀ *ᵥ fun k : Fin J.rows => u k with hw
  have e3 : ∑ j ∈ range b.dof, (∑ k ∈ range J.rows, J.e k j * u k) ^ 2 = w ⬝ᵥ w := by
    rw [← hn, sum_range]
    refine sum_congr rfl fun j _ => ?_
    have : ∑ k ∈ range J.rows, J.e k j * u k = w j := by
      rw [sum_range]
      exact sum_congr rfl fun k _ => by rw [hJM.e]; rfl
    rw [this, sq]
  have e4 : ∑ k ∈ range J.rows, u k * ∑ l ∈ range J.rows, r.1.e k l * u l = w ⬝ᵥ B.massM⁻¹ *ᵥ w := by
    have : ∑ k ∈ range J.rows, u k * ∑ l ∈ range J.rows, r.1.e k l * u l =
        (fun k : Fin J.rows => u k) ⬝ᵥ B.taskInv JM *ᵥ fun k : Fin J.rows => u k := by
      rw [sum_range]
      refine sum_congr rfl fun k _ => ?_
      rw [sum_range]
      congr 1
      exact sum_congr rfl fun l _ => by rw [hX.e]
    rw [this, taskInv, ← mulVec_mulVec, ← mulVec_mulVec, dotProduct_mulVec, ← mulVec_transpose]
  rw [e3, e4]
  have := inverse_bounds hsym hpos m0 M1 (fun v => (hform v).1) (fun v => (hform v).2.trans
    (mul_le_mul_of_nonneg_right (by linarith [le_abs_self M]) (dot_self_nonneg v))) w
  rw [one_div_mul_eq_div, one_div_mul_eq_div]
  exact this

/-- The hypotheses hold for a body with one turning joint, at all positions, and the task of its rate. -/
example (E : Ext) : ∃ d, Reach E creak d ∧ creak.Definite ∧ (∀ i < creak.dof,
      (creak.rb i).joint.type = .rx ∨ (creak.rb i).joint.type = .ry ∨ (creak.rb i).joint.type = .rz) ∧
    ∀ x : ℝ, ∃ B r, creak.setQ [x] = .ok B ∧ B.opsInertiaInverse E ⟨1, 1, fun _ _ => 1⟩ = .ok r := by
  obtain ⟨d, h⟩ := creak_reach E
  have h0 : ∀ k < creak.dof, k = 0 := fun k hk => Nat.lt_one_iff.1 hk
  refine ⟨d, h, creak_definite, fun i hi => .inl (by rw [h0 i hi]; rfl), fun x => ?_⟩
  obtain ⟨B, hB, -⟩ := setQ_total (b := creak) (q := [x]) rfl
  obtain ⟨-, hn, -, _, R⟩ := h.after_setQ hB
  have h1 : B.dof = 1 := hn
  obtain ⟨r, hr⟩ := opsInertiaInverse_total R.inv (J := ⟨1, 1, fun _ _ => 1⟩) h1.symm (by omega)
  exact ⟨B, r, hB, hr⟩

end SpatialDyn
