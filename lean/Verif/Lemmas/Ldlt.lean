import Verif.Spec.RoundDynamics
import Verif.Lemmas.Loops

/-!
# The factorisation of a definite matrix, in exact arithmetic
-/

namespace SpatialDyn
open Finset

/-- The triangular factor, with ones on the diagonal. -/
def unitLower (L : ℕ → ℕ → ℝ) (i j : ℕ) : ℝ := if j < i then L i j else if j = i then 1 else 0

/-- A sum whose terms vanish after `m`. -/
theorem sum_upto {n m : ℕ} (hm : m < n) {f : ℕ → ℝ} (h : ∀ j < n, m < j → f j = 0) :
    ∑ j ∈ range n, f j = ∑ j ∈ range m, f j + f m := by
  rw [← sum_range_succ]
  refine (sum_subset (range_subset_range.2 (by omega)) fun j hn hj => h j (mem_range.1 hn) ?_).symm
  rw [mem_range] at hj
  omega

/-- A sum whose terms vanish before `i`. -/
theorem sum_from {n i : ℕ} (hi : i < n) {f : ℕ → ℝ} (h : ∀ j < i, f j = 0) :
    ∑ j ∈ range n, f j = f i + ∑ s ∈ range (n - 1 - i), f (n - 1 - s) := by
  rw [← sum_range_reflect, sum_upto (m := n - 1 - i) (by omega) fun j hn hj => h _ (by omega), add_comm]
  congr 2
  omega

/-- What the factorisation computes multiplies to the matrix, on the rows that were reached. -/
theorem ldlt_product {A L : ℕ → ℕ → ℝ} {D : ℕ → ℝ} {n : ℕ}
    (hs : ∀ i < n, ∀ j < n, A i j = A j i)
    (hD : ∀ k < n, D k = A k k - ∑ j ∈ range k, L k j * (D j * L k j))
    (hL : ∀ k < n, ∀ i < n, k < i → L i k * D k = A i k - ∑ j ∈ range k, L i j * (D j * L k j))
    {i m : ℕ} (hi : i < n) (hm : m < n) :
    ∑ j ∈ range n, unitLower L i j * (D j * unitLower L m j) = A i m := by
  have key : ∀ i m, i < n → m ≤ i → ∑ j ∈ range n, unitLower L i j * (D j * unitLower L m j) = A i m := by
    intro i m hi hm
    rw [sum_upto (m := m) (by omega) fun j _ hj => by
      simp [unitLower, show ¬ j < m by omega, show j ≠ m by omega]]
    have e : ∑ j ∈ range m, unitLower L i j * (D j * unitLower L m j) =
        ∑ j ∈ range m, L i j * (D j * L m j) := sum_congr rfl fun j hj => by
      have := mem_range.1 hj
      simp [unitLower, show j < i by omega, this]
    rw [e]
    rcases hm.eq_or_lt with rfl | hlt
    · have := hD m hi
      simp only [unitLower, lt_irrefl, if_false, if_true]
      linarith
    · have := hL m (by omega) i hi hlt
      simp only [unitLower, lt_irrefl, if_false, if_true, hlt]
      linarith
  rcases le_total m i with h | h
  · exact key i m hi h
  · rw [hs i hi m hm, ← key m i hm h]
    exact sum_congr rfl fun j _ => by ring

/-- Backward substitution solves the upper triangular system. -/
theorem upper_solves (n : ℕ) (L : ℕ → ℕ → ℝ) (z : ℕ → ℝ) {i : ℕ} (hi : i < n) :
    ∑ j ∈ range n, unitLower L j i * Fl.exact.upperSolve n L z j = z i := by
  rw [sum_from hi fun j hj => by simp [unitLower, show ¬ i < j by omega, show i ≠ j by omega]]
  have hc : Causal fun w r (_ : ℝ) => Fl.exact.less (z (n - 1 - r)) r
      (fun s => L (n - 1 - s) (n - 1 - r)) w := fun a b r _ h => by
    simp only [Fl.exact]
    rw [sum_congr rfl fun j hj => by rw [h j (mem_range.1 hj)]]
  have e1 : Fl.exact.upperSolve n L z i = z i - ∑ s ∈ range (n - 1 - i),
      L (n - 1 - s) i * Fl.exact.upperSolve n L z (n - 1 - s) := by
    have e := fwdLoop_spec hc n (fun _ => 0) (n - 1 - i) (by omega)
    unfold Fl.upperSolve
    rw [e]
    simp only [Fl.exact]
    rw [show n - 1 - (n - 1 - i) = i by omega]
    refine congrArg _ (sum_congr rfl fun s hs => ?_)
    have := mem_range.1 hs
    rw [show n - 1 - (n - 1 - s) = s by omega]
  rw [show unitLower L i i = 1 by simp [unitLower], one_mul, e1]
  have e2 : ∑ s ∈ range (n - 1 - i), unitLower L (n - 1 - s) i * Fl.exact.upperSolve n L z (n - 1 - s) =
      ∑ s ∈ range (n - 1 - i), L (n - 1 - s) i * Fl.exact.upperSolve n L z (n - 1 - s) :=
    sum_congr rfl fun s hs => by
      have := mem_range.1 hs
      simp [unitLower, show i < n - 1 - s by omega]
  rw [e2, sub_add_cancel]

/-- Forward substitution solves the lower triangular system. -/
theorem lower_solves (n : ℕ) (L : ℕ → ℕ → ℝ) (b : ℕ → ℝ) {i : ℕ} (hi : i < n) :
    ∑ j ∈ range n, unitLower L i j * Fl.exact.lowerSolve n L b j = b i := by
  have hc : Causal fun y i (_ : ℝ) => Fl.exact.less (b i) i (L i) y := fun x y i _ h => by
    simp only [Fl.exact]
    rw [sum_congr rfl fun j hj => by rw [h j (mem_range.1 hj)]]
  have e1 : Fl.exact.lowerSolve n L b i = b i - ∑ j ∈ range i, L i j * Fl.exact.lowerSolve n L b j :=
    fwdLoop_spec hc n (fun _ => 0) i hi
  rw [sum_upto hi fun j _ hj => by simp [unitLower, show ¬ j < i by omega, show j ≠ i by omega],
    show unitLower L i i = 1 by simp [unitLower], one_mul, e1]
  rw [sum_congr rfl fun j hj => by
    rw [show unitLower L i j = L i j by simp [unitLower, mem_range.1 hj]]]
  ring

/-- The pivots of a definite matrix are at least as large as its margin. -/
theorem pivot_margin {A L : ℕ → ℕ → ℝ} {D : ℕ → ℝ} {n : ℕ} {c : ℝ} (hc : 0 < c)
    (hs : ∀ i < n, ∀ j < n, A i j = A j i)
    (hd : ∀ v : ℕ → ℝ, c * ∑ i ∈ range n, v i ^ 2 ≤ ∑ i ∈ range n, v i * ∑ j ∈ range n, A i j * v j)
    (hD : ∀ k < n, D k = A k k - ∑ j ∈ range k, L k j * (D j * L k j))
    (hL : ∀ k < n, D k ≠ 0 → ∀ i < n, k < i →
      L i k * D k = A i k - ∑ j ∈ range k, L i j * (D j * L k j)) :
    ∀ k < n, c ≤ D k := by
  intro k
  induction k using Nat.strong_induction_on with
  | _ k ih =>
    intro hk
    let v : ℕ → ℝ := fun i => Fl.exact.upperSolve (k + 1) L (fun j => if j = k then 1 else 0) i
    have hv : ∀ j < k + 1, ∑ i ∈ range (k + 1), unitLower L i j * v i = if j = k then 1 else 0 :=
      fun j hj => upper_solves (k + 1) L _ hj
    have hvk : v k = 1 := by
      have := hv k (by omega)
      rw [sum_eq_single k (fun i hi hne => by
        have := mem_range.1 hi
        simp [unitLower, show ¬ k < i by omega, Ne.symm hne]) (fun h => absurd (mem_range.2 (by omega)) h)] at this
      simpa [unitLower] using this
    have hp : ∀ i < k + 1, ∀ m < k + 1,
        ∑ j ∈ range (k + 1), unitLower L i j * (D j * unitLower L m j) = A i m := fun i hi m hm =>
      ldlt_product (fun i hi j hj => hs i (by omega) j (by omega)) (fun j hj => hD j (by omega))
        (fun j _ i hi hlt => hL j (by omega) (by have := ih j (by omega) (by omega); linarith) i (by omega) hlt)
        hi hm
    have e1 : ∑ i ∈ range (k + 1), v i * ∑ m ∈ range (k + 1), A i m * v m = D k := by
      calc _ = ∑ i ∈ range (k + 1), ∑ m ∈ range (k + 1), ∑ j ∈ range (k + 1),
            (unitLower L i j * v i) * (D j * (unitLower L m j * v m)) := by
              refine sum_congr rfl fun i hi => ?_
              rw [mul_sum]
              refine sum_congr rfl fun m hm => ?_
              rw [← hp i (mem_range.1 hi) m (mem_range.1 hm), sum_mul, mul_sum]
              exact sum_congr rfl fun j _ => by ring
        _ = ∑ j ∈ range (k + 1), (∑ i ∈ range (k + 1), unitLower L i j * v i) *
            (D j * ∑ m ∈ range (k + 1), unitLower L m j * v m) := by
              rw [sum_congr rfl fun i _ => sum_comm, sum_comm]
              refine sum_congr rfl fun j _ => ?_
              rw [sum_mul]
              refine sum_congr rfl fun i _ => ?_
              rw [← mul_sum, ← mul_sum]
        _ = ∑ j ∈ range (k + 1), (if j = k then 1 else 0) * (D j * if j = k then 1 else 0) :=
              sum_congr rfl fun j hj => by rw [hv j (mem_range.1 hj)]
        _ = D k := by
              rw [sum_eq_single k (fun j _ hne => by simp [hne])
                (fun h => absurd (mem_range.2 (by omega)) h)]
              simp
    have e2 := hd fun i => if i < k + 1 then v i else 0
    have sub : range (k + 1) ⊆ range n := range_subset_range.2 (by omega)
    have cut : ∀ g : ℕ → ℝ, (∀ i, ¬ i < k + 1 → g i = 0) → ∑ i ∈ range n, g i = ∑ i ∈ range (k + 1), g i :=
      fun g hg => (sum_subset sub fun i _ hi => hg i (by simpa using hi)).symm
    rw [cut _ fun i hi => by simp [hi], cut _ fun i hi => by simp [hi]] at e2
    have e3 : ∑ i ∈ range (k + 1), (if i < k + 1 then v i else 0) ^ 2 = ∑ i ∈ range (k + 1), v i ^ 2 :=
      sum_congr rfl fun i hi => by rw [if_pos (mem_range.1 hi)]
    have e4 : ∑ i ∈ range (k + 1), (if i < k + 1 then v i else 0) *
        ∑ j ∈ range n, A i j * (if j < k + 1 then v j else 0) = D k := by
      rw [← e1]
      refine sum_congr rfl fun i hi => ?_
      rw [if_pos (mem_range.1 hi), cut _ fun j hj => by simp [hj]]
      refine congrArg _ (sum_congr rfl fun j hj => ?_)
      rw [if_pos (mem_range.1 hj)]
    rw [e3, e4] at e2
    refine le_trans ?_ e2
    have : 1 ≤ ∑ i ∈ range (k + 1), v i ^ 2 := by
      have := single_le_sum (f := fun i => v i ^ 2) (fun _ _ => sq_nonneg _)
        (mem_range.2 (show k < k + 1 by omega))
      simpa [hvk] using this
    nlinarith

/-- The columns of the exact factorisation. -/
theorem exact_cols (n : ℕ) (A : ℕ → ℕ → ℝ) :
    (∀ k < n, (Fl.exact.ldltCols n A k).1 = A k k - ∑ j ∈ range k, (Fl.exact.ldltCols n A j).2 k *
      ((Fl.exact.ldltCols n A j).1 * (Fl.exact.ldltCols n A j).2 k)) ∧
    ∀ k < n, (Fl.exact.ldltCols n A k).1 ≠ 0 → ∀ i < n, k < i →
      (Fl.exact.ldltCols n A k).2 i * (Fl.exact.ldltCols n A k).1 = A i k - ∑ j ∈ range k,
        (Fl.exact.ldltCols n A j).2 i * ((Fl.exact.ldltCols n A j).1 * (Fl.exact.ldltCols n A j).2 k) := by
  have hc : Causal fun (C : ℕ → ℝ × (ℕ → ℝ)) k (_ : ℝ × (ℕ → ℝ)) =>
      let temp := fun j => Fl.exact.mul (C j).1 ((C j).2 k)
      let d := Fl.exact.less (A k k) k (fun j => (C j).2 k) temp
      let a := fun i => Fl.exact.less (A i k) k (fun j => (C j).2 i) temp
      (d, fun i => if d = 0 then a i else Fl.exact.div (a i) d) := fun a b k _ h => by
    have e : ∀ i x, Fl.exact.less x k (fun j => (a j).2 i) (fun j => Fl.exact.mul (a j).1 ((a j).2 k)) =
        Fl.exact.less x k (fun j => (b j).2 i) fun j => Fl.exact.mul (b j).1 ((b j).2 k) := fun i x => by
      simp only [Fl.exact]
      rw [sum_congr rfl fun j hj => by rw [h j (mem_range.1 hj)]]
    simp only [e]
  have hk := fun k (hk : k < n) => fwdLoop_spec hc n (fun _ => (0, fun _ => 0)) k hk
  have h1 : ∀ k < n, (Fl.exact.ldltCols n A k).1 = A k k - ∑ j ∈ range k, (Fl.exact.ldltCols n A j).2 k *
      ((Fl.exact.ldltCols n A j).1 * (Fl.exact.ldltCols n A j).2 k) :=
    fun k hk' => congrArg Prod.fst (hk k hk')
  refine ⟨h1, fun k hk' hne i hi hlt => ?_⟩
  have e := congrFun (congrArg Prod.snd (hk k hk')) i
  change (Fl.exact.ldltCols n A k).2 i = if (A k k - ∑ j ∈ range k, (Fl.exact.ldltCols n A j).2 k *
      ((Fl.exact.ldltCols n A j).1 * (Fl.exact.ldltCols n A j).2 k)) = 0 then _ else
      (A i k - ∑ j ∈ range k, (Fl.exact.ldltCols n A j).2 i *
        ((Fl.exact.ldltCols n A j).1 * (Fl.exact.ldltCols n A j).2 k)) /
      (A k k - ∑ j ∈ range k, (Fl.exact.ldltCols n A j).2 k *
        ((Fl.exact.ldltCols n A j).1 * (Fl.exact.ldltCols n A j).2 k)) at e
  rw [← h1 k hk', if_neg hne] at e
  rw [e, div_mul_cancel₀ _ hne]

section definite
variable {A : ℕ → ℕ → ℝ} {n : ℕ} {c : ℝ}

theorem exact_pivot (hc : 0 < c) (hs : ∀ i < n, ∀ j < n, A i j = A j i)
    (hd : ∀ v : ℕ → ℝ, c * ∑ i ∈ range n, v i ^ 2 ≤ ∑ i ∈ range n, v i * ∑ j ∈ range n, A i j * v j) :
    ∀ k < n, c ≤ (Fl.exact.ldltCols n A k).1 :=
  pivot_margin (L := fun i j => (Fl.exact.ldltCols n A j).2 i) hc hs hd (exact_cols n A).1 (exact_cols n A).2

/-- In exact arithmetic the answer solves the system. -/
theorem exact_solves (hc : 0 < c) (hs : ∀ i < n, ∀ j < n, A i j = A j i)
    (hd : ∀ v : ℕ → ℝ, c * ∑ i ∈ range n, v i ^ 2 ≤ ∑ i ∈ range n, v i * ∑ j ∈ range n, A i j * v j)
    (b : ℕ → ℝ) {i : ℕ} (hi : i < n) :
    ∑ j ∈ range n, A i j * Fl.exact.solveOrdered n A b j = b i := by
  have hp := exact_pivot hc hs hd
  set D := fun k => (Fl.exact.ldltCols n A k).1 with hD
  set L := fun i j => (Fl.exact.ldltCols n A j).2 i with hL
  set y := Fl.exact.lowerSolve n L b with hy
  set z := Fl.exact.diagSolve D y with hz
  have hx : Fl.exact.solveOrdered n A b = Fl.exact.upperSolve n L z := rfl
  have hA : ∀ i < n, ∀ m < n, ∑ j ∈ range n, unitLower L i j * (D j * unitLower L m j) = A i m :=
    fun i hi m hm => ldlt_product hs (exact_cols n A).1 (fun k hk => (exact_cols n A).2 k hk
      (by have := hp k hk; linarith)) hi hm
  rw [hx]
  calc _ = ∑ m ∈ range n, ∑ j ∈ range n, unitLower L i j * D j *
        (unitLower L m j * Fl.exact.upperSolve n L z m) := by
          refine sum_congr rfl fun m hm => ?_
          rw [← hA i hi m (mem_range.1 hm), sum_mul]
          exact sum_congr rfl fun j _ => by ring
    _ = ∑ j ∈ range n, unitLower L i j * y j := by
          rw [sum_comm]
          refine sum_congr rfl fun j hj => ?_
          have hj := mem_range.1 hj
          rw [← mul_sum, upper_solves n L z hj, mul_assoc]
          have h0 := hp j hj
          have h1 : D j ≠ 0 := by linarith
          rw [hz, Fl.diagSolve, if_pos (show Fl.exact.least < |D j| from abs_pos.2 h1)]
          show _ * (D j * (y j / D j)) = _
          rw [mul_div_cancel₀ _ h1]
    _ = b i := lower_solves n L b hi

end definite

end SpatialDyn
