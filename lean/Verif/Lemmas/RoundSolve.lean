import Verif.Lemmas.RoundBody
import Verif.Lemmas.Ldlt
import Mathlib.Data.Fintype.Perm
import Mathlib.Data.Fintype.Lattice

/-!
# Systems of equations solved with a small error
-/

namespace SpatialDyn
open Finset Body

variable {P : Type*} {E : Ext} {b : Body} {d : Bool}

/-- Finitely many computed numbers. -/
theorem Acc.all {f : ℕ → Fl → P → ℝ} {x : ℕ → P → ℝ} (n : ℕ)
    (h : ∀ i < n, Acc (f i) (x i)) : ∃ K u0 : ℝ, 0 ≤ K ∧ 0 < u0 ∧ ∀ p (F : Fl) (u l : ℝ), F.Within u l →
      u ≤ u0 → ∀ i < n, |f i F p - x i p| ≤ K * u := by
  induction n with
  | zero => exact ⟨0, 1, le_rfl, one_pos, fun _ _ _ _ _ _ i hi => absurd hi (by omega)⟩
  | succ n ih =>
    obtain ⟨K, u0, hK, h0, ih⟩ := ih fun i hi => h i (by omega)
    obtain ⟨_, K', u0', _, hK', h0', h'⟩ := h n (by omega)
    refine ⟨max K K', min u0 u0', hK.trans (le_max_left _ _), lt_min h0 h0', fun p F u l hF hu i hi => ?_⟩
    rcases Nat.lt_succ_iff_lt_or_eq.1 hi with hi | rfl
    · exact (ih p F u l hF (hu.trans (min_le_left _ _)) i hi).trans
        (mul_le_mul_of_nonneg_right (le_max_left _ _) hF.nonneg.1)
    · exact ((h' p).2 F u l hF (hu.trans (min_le_right _ _))).trans
        (mul_le_mul_of_nonneg_right (le_max_right _ _) hF.nonneg.1)

/-- Finitely many exact numbers are bounded at once. -/
theorem Acc.bounds {f : ℕ → Fl → P → ℝ} {x : ℕ → P → ℝ} (n : ℕ) (h : ∀ i < n, Acc (f i) (x i)) :
    ∃ B : ℝ, 0 ≤ B ∧ ∀ p, ∀ i < n, |x i p| ≤ B := by
  induction n with
  | zero => exact ⟨0, le_rfl, fun _ i hi => absurd hi (by omega)⟩
  | succ n ih =>
    obtain ⟨B, hB, ih⟩ := ih fun i hi => h i (by omega)
    obtain ⟨B', _, _, hB', _, _, h'⟩ := h n (by omega)
    refine ⟨max B B', hB.trans (le_max_left _ _), fun p i hi => ?_⟩
    rcases Nat.lt_succ_iff_lt_or_eq.1 hi with hi | rfl
    · exact (ih p i hi).trans (le_max_left _ _)
    · exact (h' p).1.trans (le_max_right _ _)

/-! ## Sums of products -/

theorem Acc.sum' {f : ℕ → Fl → P → ℝ} {x : ℕ → P → ℝ} (k : ℕ) (h : ∀ j < k, Acc (f j) (x j)) :
    Acc (fun F p => ∑ j ∈ range k, f j F p) fun p => ∑ j ∈ range k, x j p := by
  induction k with
  | zero => simpa using Acc.const (P := P) 0
  | succ k ih =>
    simp only [sum_range_succ]
    exact (ih fun j hj => h j (by omega)).add' (h k (by omega))

theorem pow_err {u : ℝ} (h0 : 0 ≤ u) (h1 : u ≤ 1 / 4) (m : ℕ) : (1 + u) ^ m - 1 ≤ u * 3 ^ m := by
  induction m with
  | zero => simpa using h0
  | succ m ih =>
    have h3 : (1 : ℝ) ≤ 3 ^ m := one_le_pow₀ (by norm_num)
    rw [pow_succ, pow_succ]
    have := mul_le_mul_of_nonneg_right ih (show 0 ≤ 1 + u by linarith)
    have h4 : u * (u * 3 ^ m) ≤ 1 / 4 * (u * 3 ^ m) := by gcongr
    have h5 : u * 1 ≤ u * 3 ^ m := by gcongr
    nlinarith

theorem Acc.less {f : Fl → P → ℝ} {x : P → ℝ} {a b : Fl → P → ℕ → ℝ} {y z : P → ℕ → ℝ} {k : ℕ}
    (h : Acc f x) (ha : ∀ j < k, Acc (fun F p => a F p j) fun p => y p j)
    (hb : ∀ j < k, Acc (fun F p => b F p j) fun p => z p j) :
    Acc (fun F p => F.less (f F p) k (a F p) (b F p)) fun p => x p - ∑ j ∈ range k, y p j * z p j := by
  have hab := fun j hj => (ha j hj).mul' (hb j hj)
  refine (h.sub' (Acc.sum' k hab)).rounded ((Acc.const (3 ^ (k + 1))).mul' (h.abs'.add'
    (Acc.sum' k fun j hj => (hab j hj).abs'.add' (.const 1)))) fun p F u l hF => ?_
  refine (hF.less _ _ _ _).trans ?_
  have h0 := hF.nonneg
  have h1 : |f F p| + ∑ j ∈ range k, (|a F p j * b F p j| + l) ≤
      |f F p| + ∑ j ∈ range k, (|a F p j * b F p j| + 1) := by
    have : ∀ j ∈ range k, |a F p j * b F p j| + l ≤ |a F p j * b F p j| + 1 :=
      fun j _ => by linarith [hF.tiny.2]
    linarith [sum_le_sum this]
  have h2 : (0 : ℝ) ≤ |f F p| + ∑ j ∈ range k, (|a F p j * b F p j| + l) :=
    add_nonneg (abs_nonneg _) (sum_nonneg fun j _ => add_nonneg (abs_nonneg _) hF.tiny.1)
  have h3 := pow_err h0.1 h0.2 (k + 1)
  have h4 : (0 : ℝ) ≤ u * 3 ^ (k + 1) := mul_nonneg h0.1 (by positivity)
  calc _ ≤ u * 3 ^ (k + 1) * (|f F p| + ∑ j ∈ range k, (|a F p j * b F p j| + 1)) :=
        mul_le_mul h3 h1 h2 h4
    _ ≤ _ := by rw [mul_assoc]; exact mul_le_mul_of_nonneg_left (by linarith) h0.1

/-! ## Solving -/

/-- Numbers away from zero are computed as numbers that are not tiny. -/
theorem Acc.away {f : Fl → P → ℝ} {x : P → ℝ} (h : Acc f x) {c : ℝ} (hc : 0 < c) (hx : ∀ p, c ≤ |x p|) :
    ∃ u1 : ℝ, 0 < u1 ∧ ∀ p (F : Fl) (u l : ℝ), F.Within u l → u ≤ u1 → F.least < |f F p| ∧ f F p ≠ 0 := by
  obtain ⟨B, K, u0, hB, hK, h0, h⟩ := h
  refine ⟨min u0 (c / (2 * (K + 1))), lt_min h0 (by positivity), fun p F u l hF hu => ?_⟩
  simp only [le_min_iff] at hu
  have e1 := (h p).2 F u l hF hu.1
  have e2 := hx p
  have e3 := abs_sub_abs_le_abs_sub (x p) (f F p)
  rw [abs_sub_comm] at e3
  have e4 := hu.2
  rw [le_div_iff₀ (by positivity)] at e4
  have e5 := hF.nonneg.1
  have e6 := hF.least
  have e7 : u < |f F p| := by nlinarith
  exact ⟨by linarith, fun h0 => by rw [h0, abs_zero] at e7; linarith⟩

theorem Acc.same {f g : Fl → P → ℝ} {x : P → ℝ} (h : Acc f x) {u1 : ℝ} (h1 : 0 < u1)
    (he : ∀ p (F : Fl) (u l : ℝ), F.Within u l → u ≤ u1 → g F p = f F p) : Acc g x :=
  h.close le_rfl h1 fun p F u l hF hu => by rw [he p F u l hF hu, sub_self, abs_zero, zero_mul]

/-- A choice between finitely many ways of computing a number. -/
theorem Acc.choose {ι : Type*} [Finite ι] [Nonempty ι] {f : ι → Fl → P → ℝ} {x : P → ℝ}
    (h : ∀ i, Acc (f i) x) (sel : Fl → P → ι) : Acc (fun F p => f (sel F p) F p) x := by
  choose B K u0 hB hK hu hb using h
  obtain ⟨i0, h0⟩ := Finite.exists_min u0
  obtain ⟨i1, h1⟩ := Finite.exists_max K
  refine ⟨B i0, K i1, u0 i0, hB i0, hK i1, hu i0, fun p => ⟨(hb i0 p).1, fun F u l hF hle => ?_⟩⟩
  exact ((hb _ p).2 F u l hF (hle.trans (h0 _))).trans (mul_le_mul_of_nonneg_right (h1 _) hF.nonneg.1)

section solve
variable {n : ℕ} {A : Fl → P → ℕ → ℕ → ℝ} {A0 : P → ℕ → ℕ → ℝ} {c : ℝ}

theorem Acc.cols (hc : 0 < c) (hA : ∀ i < n, ∀ j < n, Acc (fun F p => A F p i j) fun p => A0 p i j)
    (hs : ∀ p, ∀ i < n, ∀ j < n, A0 p i j = A0 p j i)
    (hd : ∀ p (v : ℕ → ℝ), c * ∑ i ∈ range n, v i ^ 2 ≤ ∑ i ∈ range n, v i * ∑ j ∈ range n, A0 p i j * v j) :
    ∀ k < n, Acc (fun F p => (F.ldltCols n (A F p) k).1) (fun p => (Fl.exact.ldltCols n (A0 p) k).1) ∧
      ∀ i < n, k < i → Acc (fun F p => (F.ldltCols n (A F p) k).2 i)
        fun p => (Fl.exact.ldltCols n (A0 p) k).2 i := by
  have hp := fun p => exact_pivot hc (hs p) (hd p)
  have key : ∀ m ≤ n, ∀ k < m, Acc (fun F p => (F.ldltCols m (A F p) k).1)
      (fun p => (Fl.exact.ldltCols n (A0 p) k).1) ∧
      ∀ i < n, k < i → Acc (fun F p => (F.ldltCols m (A F p) k).2 i)
        fun p => (Fl.exact.ldltCols n (A0 p) k).2 i := by
    intro m
    induction m with
    | zero => intro _ k hk; omega
    | succ m ih =>
      intro hm k hk
      have ih := ih (by omega)
      by_cases hkm : k = m
      · subst hkm
        have ht : ∀ j < k, Acc (fun F p => F.mul (F.ldltCols k (A F p) j).1 ((F.ldltCols k (A F p) j).2 k))
            fun p => (Fl.exact.ldltCols n (A0 p) j).1 * (Fl.exact.ldltCols n (A0 p) j).2 k :=
          fun j hj => (ih j hj).1.mul ((ih j hj).2 k (by omega) hj)
        have h1 : Acc (fun F p => F.less (A F p k k) k (fun j => (F.ldltCols k (A F p) j).2 k)
            fun j => F.mul (F.ldltCols k (A F p) j).1 ((F.ldltCols k (A F p) j).2 k))
            fun p => (Fl.exact.ldltCols n (A0 p) k).1 :=
          ((hA k (by omega) k (by omega)).less (y := fun p j => (Fl.exact.ldltCols n (A0 p) j).2 k)
            (z := fun p j => (Fl.exact.ldltCols n (A0 p) j).1 * (Fl.exact.ldltCols n (A0 p) j).2 k)
            (fun j hj => (ih j hj).2 k (by omega) hj) ht).congr
            fun p => ((exact_cols n (A0 p)).1 k (by omega)).symm
        have hpos : ∀ p, c ≤ |(Fl.exact.ldltCols n (A0 p) k).1| :=
          fun p => (hp p k (by omega)).trans (le_abs_self _)
        obtain ⟨u1, hu1, haw⟩ := h1.away hc hpos
        unfold Fl.ldltCols
        simp only [fwdLoop_succ, Function.update_self]
        refine ⟨h1, fun i hi hlt => ?_⟩
        have h2 := ((hA i hi k (by omega)).less (y := fun p j => (Fl.exact.ldltCols n (A0 p) j).2 i)
            (z := fun p j => (Fl.exact.ldltCols n (A0 p) j).1 * (Fl.exact.ldltCols n (A0 p) j).2 k)
            (fun j hj => (ih j hj).2 i hi (by omega)) ht)
        have h3 := (h2.div h1 hc hpos).congr (y := fun p => (Fl.exact.ldltCols n (A0 p) k).2 i) fun p => by
          have h0 : (Fl.exact.ldltCols n (A0 p) k).1 ≠ 0 := by have := hp p k (by omega); linarith
          rw [div_eq_iff h0]
          exact ((exact_cols n (A0 p)).2 k (by omega) h0 i hi hlt).symm
        exact h3.same hu1 fun p F u l hF hu => if_neg (haw p F u l hF hu).2
      · unfold Fl.ldltCols
        simp only [fwdLoop_succ, Function.update_of_ne hkm]
        exact ih k (by omega)
  exact key n le_rfl

theorem Acc.lower {L : Fl → P → ℕ → ℕ → ℝ} {L0 : P → ℕ → ℕ → ℝ} {r : Fl → P → ℕ → ℝ} {r0 : P → ℕ → ℝ}
    (hL : ∀ j < n, ∀ i < n, j < i → Acc (fun F p => L F p i j) fun p => L0 p i j)
    (hr : ∀ i < n, Acc (fun F p => r F p i) fun p => r0 p i) :
    ∀ i < n, Acc (fun F p => F.lowerSolve n (L F p) (r F p) i)
      fun p => Fl.exact.lowerSolve n (L0 p) (r0 p) i := by
  have hc : ∀ p, Causal fun y i (_ : ℝ) => Fl.exact.less (r0 p i) i (L0 p i) y := fun p x y i _ h => by
    simp only [Fl.exact]
    rw [sum_congr rfl fun j hj => by rw [h j (mem_range.1 hj)]]
  have key : ∀ m ≤ n, ∀ i < m, Acc (fun F p => F.lowerSolve m (L F p) (r F p) i)
      fun p => Fl.exact.lowerSolve n (L0 p) (r0 p) i := by
    intro m
    induction m with
    | zero => intro _ i hi; omega
    | succ m ih =>
      intro hm i hi
      have ih := ih (by omega)
      by_cases h : i = m
      · subst h
        refine Acc.congr ?_ fun p => (fwdLoop_spec (hc p) n (fun _ => 0) i (by omega)).symm
        unfold Fl.lowerSolve at ih ⊢
        simp only [fwdLoop_succ, Function.update_self]
        exact (hr i (by omega)).less (fun j hj => hL j (by omega) i (by omega) hj) ih
      · unfold Fl.lowerSolve at ih ⊢
        simp only [fwdLoop_succ, Function.update_of_ne h]
        exact ih i (by omega)
  exact key n le_rfl

theorem Acc.upper {L : Fl → P → ℕ → ℕ → ℝ} {L0 : P → ℕ → ℕ → ℝ} {r : Fl → P → ℕ → ℝ} {r0 : P → ℕ → ℝ}
    (hL : ∀ j < n, ∀ i < n, j < i → Acc (fun F p => L F p i j) fun p => L0 p i j)
    (hr : ∀ i < n, Acc (fun F p => r F p i) fun p => r0 p i) :
    ∀ i < n, Acc (fun F p => F.upperSolve n (L F p) (r F p) i)
      fun p => Fl.exact.upperSolve n (L0 p) (r0 p) i := by
  -- the same substitution with rows and columns counted from the end
  intro i hi
  exact Acc.lower (n := n) (L := fun F p r s => L F p (n - 1 - s) (n - 1 - r))
    (L0 := fun p r s => L0 p (n - 1 - s) (n - 1 - r)) (r := fun F p i => r F p (n - 1 - i))
    (r0 := fun p i => r0 p (n - 1 - i))
    (fun j hj i hi hlt => hL _ (by omega) _ (by omega) (by omega)) (fun i hi => hr _ (by omega)) (n - 1 - i)
    (by omega)

theorem Acc.ordered (hc : 0 < c) (hA : ∀ i < n, ∀ j < n, Acc (fun F p => A F p i j) fun p => A0 p i j)
    {r : Fl → P → ℕ → ℝ} {r0 : P → ℕ → ℝ} (hr : ∀ i < n, Acc (fun F p => r F p i) fun p => r0 p i)
    (hs : ∀ p, ∀ i < n, ∀ j < n, A0 p i j = A0 p j i)
    (hd : ∀ p (v : ℕ → ℝ), c * ∑ i ∈ range n, v i ^ 2 ≤ ∑ i ∈ range n, v i * ∑ j ∈ range n, A0 p i j * v j)
    {i : ℕ} (hi : i < n) : Acc (fun F p => F.solveOrdered n (A F p) (r F p) i)
      fun p => Fl.exact.solveOrdered n (A0 p) (r0 p) i := by
  have hC := Acc.cols hc hA hs hd
  have hp := fun p => exact_pivot hc (hs p) (hd p)
  have hL := fun j hj => (hC j hj).2
  refine Acc.upper hL (fun i hi => ?_) i hi
  have hpos : ∀ p, c ≤ |(Fl.exact.ldltCols n (A0 p) i).1| := fun p => (hp p i hi).trans (le_abs_self _)
  obtain ⟨u1, hu1, haw⟩ := (hC i hi).1.away hc hpos
  have h1 := (Acc.lower hL hr i hi).div (hC i hi).1 hc hpos
  refine (h1.congr fun p => ?_).same hu1 fun p F u l hF hu => if_pos (haw p F u l hF hu).1
  rw [Fl.diagSolve, if_pos (show Fl.exact.least < _ from lt_of_lt_of_le hc (hpos p))]
  rfl

end solve

/-! ## The order of the rows -/

theorem place_lt {n : ℕ} (π : Equiv.Perm (Fin n)) {i : ℕ} (hi : i < n) : Fl.place π i < n := by
  rw [Fl.place, dif_pos hi]; exact (π _).2

theorem place_symm {n : ℕ} (π : Equiv.Perm (Fin n)) {i : ℕ} (hi : i < n) :
    Fl.place π (Fl.place π.symm i) = i := by
  rw [Fl.place, dif_pos (place_lt _ hi)]
  simp [Fl.place, hi]

theorem place_symm' {n : ℕ} (π : Equiv.Perm (Fin n)) {i : ℕ} (hi : i < n) :
    Fl.place π.symm (Fl.place π i) = i := place_symm π.symm hi

theorem sum_place {n : ℕ} (π : Equiv.Perm (Fin n)) (f : ℕ → ℝ) :
    ∑ i ∈ range n, f (Fl.place π i) = ∑ i ∈ range n, f i :=
  sum_nbij' (fun i => Fl.place π i) (fun i => Fl.place π.symm i)
    (fun i hi => mem_range.2 (place_lt π (mem_range.1 hi)))
    (fun i hi => mem_range.2 (place_lt π.symm (mem_range.1 hi)))
    (fun i hi => place_symm' π (mem_range.1 hi)) (fun i hi => place_symm π (mem_range.1 hi))
    fun _ _ => rfl

/-- A definite system has one solution. -/
theorem definite_unique {n : ℕ} {A : ℕ → ℕ → ℝ} {c : ℝ} (hc : 0 < c)
    (hd : ∀ v : ℕ → ℝ, c * ∑ i ∈ range n, v i ^ 2 ≤ ∑ i ∈ range n, v i * ∑ j ∈ range n, A i j * v j)
    {x y : ℕ → ℝ} (h : ∀ i < n, ∑ j ∈ range n, A i j * x j = ∑ j ∈ range n, A i j * y j) {i : ℕ}
    (hi : i < n) : x i = y i := by
  have e1 := hd fun j => x j - y j
  have e2 : ∀ i ∈ range n, (x i - y i) * ∑ j ∈ range n, A i j * (x j - y j) = 0 := fun i hi => by
    rw [sum_congr rfl fun j _ => mul_sub _ _ _, sum_sub_distrib, h i (mem_range.1 hi), sub_self, mul_zero]
  rw [sum_eq_zero e2] at e1
  have e3 : ∑ i ∈ range n, (x i - y i) ^ 2 = 0 :=
    le_antisymm (by nlinarith) (sum_nonneg fun _ _ => sq_nonneg _)
  rw [sum_eq_zero_iff_of_nonneg fun _ _ => sq_nonneg _] at e3
  have := e3 i (mem_range.2 hi)
  exact sub_eq_zero.1 (pow_eq_zero_iff (by norm_num) |>.1 this)

theorem Acc.solve {n : ℕ} {A : Fl → P → ℕ → ℕ → ℝ} {A0 : P → ℕ → ℕ → ℝ} {r : Fl → P → ℕ → ℝ}
    {r0 x : P → ℕ → ℝ} {c : ℝ} (hc : 0 < c) (hA : ∀ i < n, ∀ j < n, Acc (fun F p => A F p i j) fun p => A0 p i j)
    (hr : ∀ i < n, Acc (fun F p => r F p i) fun p => r0 p i)
    (hs : ∀ p, ∀ i < n, ∀ j < n, A0 p i j = A0 p j i)
    (hd : ∀ p (v : ℕ → ℝ), c * ∑ i ∈ range n, v i ^ 2 ≤ ∑ i ∈ range n, v i * ∑ j ∈ range n, A0 p i j * v j)
    (hx : ∀ p, ∀ i < n, ∑ j ∈ range n, A0 p i j * x p j = r0 p i) {i : ℕ} (hi : i < n) :
    Acc (fun F p => F.solve n (A F p) (r F p) i) fun p => x p i := by
  refine Acc.choose (f := fun π F p => F.solveBy π (A F p) (r F p) i) (fun π => ?_)
    fun F p => F.pivot n (A F p)
  have hs' : ∀ p, ∀ i < n, ∀ j < n, A0 p (Fl.place π i) (Fl.place π j) = A0 p (Fl.place π j) (Fl.place π i) :=
    fun p i hi j hj => hs p _ (place_lt π hi) _ (place_lt π hj)
  have back : ∀ p (v : ℕ → ℝ) (i : ℕ), ∑ j ∈ range n, A0 p i (Fl.place π j) * v j =
      ∑ j ∈ range n, A0 p i j * v (Fl.place π.symm j) := fun p v i => by
    rw [← sum_place π fun j => A0 p i j * v (Fl.place π.symm j)]
    exact sum_congr rfl fun j hj => by rw [place_symm' π (mem_range.1 hj)]
  have hd' : ∀ p (v : ℕ → ℝ), c * ∑ i ∈ range n, v i ^ 2 ≤
      ∑ i ∈ range n, v i * ∑ j ∈ range n, A0 p (Fl.place π i) (Fl.place π j) * v j := fun p v => by
    have e := hd p fun i => v (Fl.place π.symm i)
    rw [sum_place π.symm fun i => v i ^ 2, ← sum_place π fun i => v (Fl.place π.symm i) * _] at e
    refine e.trans_eq (sum_congr rfl fun i hi => ?_)
    rw [place_symm' π (mem_range.1 hi), back p v]
  refine (Acc.ordered hc (A := fun F p i j => A F p (Fl.place π i) (Fl.place π j))
    (A0 := fun p i j => A0 p (Fl.place π i) (Fl.place π j)) (r := fun F p i => r F p (Fl.place π i))
    (r0 := fun p i => r0 p (Fl.place π i)) (fun i hi j hj => hA _ (place_lt π hi) _ (place_lt π hj))
    (fun i hi => hr _ (place_lt π hi)) hs' hd' (place_lt π.symm hi)).congr fun p => ?_
  have e1 := fun k (hk : k < n) => exact_solves hc (hs' p) (hd' p) (fun i => r0 p (Fl.place π i)) hk
  have e2 := definite_unique hc (hd' p)
    (x := Fl.exact.solveOrdered n (fun i j => A0 p (Fl.place π i) (Fl.place π j)) fun i => r0 p (Fl.place π i))
    (y := fun i => x p (Fl.place π i)) (fun k hk => by
      rw [e1 k hk, ← hx p _ (place_lt π hk), ← sum_place π]) (place_lt π.symm hi)
  rw [e2, place_symm π hi]

/-! ## Robots -/

namespace Body

/-- Rates are bounded by the kinetic energy, for all positions within `R`. -/
theorem rate_bound (h : Inv E b) (hd : b.Definite) (R : ℝ) {i : ℕ} (hi : i < b.dof) : ∃ C : ℝ, 0 ≤ C ∧
    ∀ u w : ℕ → ℝ, (∀ i < b.dof, |u i| ≤ R) → w i ^ 2 ≤ C * (b.sysAt u w).energy2 w := by
  have loc : ∀ k < b.dof, ∃ C : ℝ, 0 ≤ C ∧ ∀ u w : ℕ → ℝ,
      (b.locVel u w k).sq ≤ C * (b.sysAt u w).energy2 w := by
    intro k hk
    obtain ⟨C, hC, hb⟩ := Inertia.lower (b.fresh.Itot k) (hd.physPD k hk).1 (hd.physPD k hk).2.2
    refine ⟨C, hC, fun u w => (hb _).trans (mul_le_mul_of_nonneg_left ?_ hC)⟩
    rw [← kin_term h _ _ hk]
    exact single_le_sum (f := fun k => ((b.sysAt u w).V w k).dot ((b.sysAt u w).Iw k ((b.sysAt u w).V w k)))
      (fun k hk => kin_term_nonneg h hd _ _ (mem_range.1 hk)) (mem_range.2 hk)
  have hS : 0 < (b.rb i).joint.subspace.sq := by
    refine lt_of_le_of_ne (Motion.sq_nonneg _) fun h0 => hd.axes i hi ?_
    show (b.rb i).joint.subspace = 0
    have e := h0.symm
    unfold Motion.sq Vec3.dot at e
    ext <;> simp <;> nlinarith [sq_nonneg (b.rb i).joint.subspace.lin.x,
      sq_nonneg (b.rb i).joint.subspace.lin.y, sq_nonneg (b.rb i).joint.subspace.lin.z,
      sq_nonneg (b.rb i).joint.subspace.ang.x, sq_nonneg (b.rb i).joint.subspace.ang.y,
      sq_nonneg (b.rb i).joint.subspace.ang.z]
  have hT : (b.rb i).T.Valid := h.rigid.link i hi
  set Z : ℝ := 2 + 2 * (2 * R ^ 2 + 2 * (b.rb i).T.t.dot (b.rb i).T.t) with hZ
  have hZ0 : 0 ≤ Z := by have := Vec3.dot_self_nonneg (b.rb i).T.t; positivity
  have key : ∀ (u w : ℕ → ℝ), (∀ i < b.dof, |u i| ≤ R) → ∀ x : Motion,
      b.locVel u w i = (b.TpAt i (u i)).inv.actM x + w i • (b.rb i).joint.subspace →
      w i ^ 2 * (b.rb i).joint.subspace.sq ≤ 2 * (b.locVel u w i).sq + 2 * (Z * x.sq) := by
    intro u w hu x hx
    have e1 : w i • (b.rb i).joint.subspace = b.locVel u w i - (b.TpAt i (u i)).inv.actM x := by
      rw [hx]; ext <;> simp
    have e2 : (w i • (b.rb i).joint.subspace).sq = w i ^ 2 * (b.rb i).joint.subspace.sq := by
      simp [Motion.sq, Vec3.dot]; ring
    have e3 : (b.locVel u w i - (b.TpAt i (u i)).inv.actM x).sq ≤
        2 * (b.locVel u w i).sq + 2 * ((b.TpAt i (u i)).inv.actM x).sq := by
      have k1 := Vec3.sub_sq_le (b.locVel u w i).lin ((b.TpAt i (u i)).inv.actM x).lin
      have k2 := Vec3.sub_sq_le (b.locVel u w i).ang ((b.TpAt i (u i)).inv.actM x).ang
      unfold Motion.sq
      simp only [Motion.sub_lin, Motion.sub_ang]
      linarith
    have hV : (b.TpAt i (u i)).Valid := hT.mul (JType.Tjoint_valid _ _)
    have e4 := hV.inv.sq_actM x
    rw [hV.inv_t_sq] at e4
    have e5 : (b.TpAt i (u i)).t.dot (b.TpAt i (u i)).t ≤ 2 * R ^ 2 + 2 * (b.rb i).T.t.dot (b.rb i).T.t := by
      have k1 := Vec3.add_sq_le ((b.rb i).T.R.mulVec ((b.rb i).joint.type.Tjoint (u i)).t) (b.rb i).T.t
      rw [Mat3.IsRot.dot hT] at k1
      have k2 := (b.rb i).joint.type.t_sq_le (u i)
      have k3 : u i ^ 2 ≤ R ^ 2 := by rw [← sq_abs]; exact pow_le_pow_left₀ (abs_nonneg _) (hu i hi) 2
      unfold TpAt
      rw [Iso.mul_t]
      linarith
    have e6 : ((b.TpAt i (u i)).inv.actM x).sq ≤ Z * x.sq :=
      e4.trans (mul_le_mul_of_nonneg_right (by rw [hZ]; linarith) (Motion.sq_nonneg x))
    rw [← e2, e1]
    linarith
  obtain ⟨C, hC, hl⟩ := loc i hi
  cases hpar : b.par i with
  | none =>
    refine ⟨2 * C / (b.rb i).joint.subspace.sq, by positivity, fun u w hu => ?_⟩
    have e1 := locVel_rec h u w hi
    rw [hpar] at e1
    have e2 := key u w hu 0 e1
    rw [div_mul_eq_mul_div, le_div_iff₀ hS]
    have : (0 : Motion).sq = 0 := by simp [Motion.sq, Vec3.dot]
    rw [this] at e2
    linarith [hl u w]
  | some p =>
    have hp : p < b.dof := by have := h.tree.parLt i hi p hpar; omega
    obtain ⟨C', hC', hl'⟩ := loc p hp
    refine ⟨(2 * C + 2 * (Z * C')) / (b.rb i).joint.subspace.sq, by positivity, fun u w hu => ?_⟩
    have e1 := locVel_rec h u w hi
    rw [hpar] at e1
    have e2 := key u w hu _ e1
    rw [div_mul_eq_mul_div, le_div_iff₀ hS]
    have := mul_le_mul_of_nonneg_left (hl' u w) hZ0
    linarith [hl u w]

/-- The mass matrices at all positions within `R` are positive definite by one margin. -/
theorem mass_margin (h : Inv E b) (hd : b.Definite) (R : ℝ) : ∃ c : ℝ, 0 < c ∧
    ∀ u w : ℕ → ℝ, (∀ i < b.dof, |u i| ≤ R) → ∀ v : ℕ → ℝ, c * ∑ i ∈ range b.dof, v i ^ 2 ≤
      ∑ i ∈ range b.dof, v i * ∑ j ∈ range b.dof, (b.sysAt u w).massSpec i j * v j := by
  have key : ∀ n ≤ b.dof, ∃ C : ℝ, 0 ≤ C ∧ ∀ u v : ℕ → ℝ, (∀ i < b.dof, |u i| ≤ R) →
      ∑ i ∈ range n, v i ^ 2 ≤ C * (b.sysAt u v).energy2 v := by
    intro n
    induction n with
    | zero => intro _; exact ⟨0, le_rfl, fun u v _ => by simp⟩
    | succ n ih =>
      intro hn
      obtain ⟨C, hC, hl⟩ := ih (by omega)
      obtain ⟨C', hC', hl'⟩ := rate_bound h hd R (show n < b.dof by omega)
      refine ⟨C + C', by positivity, fun u v hu => ?_⟩
      rw [sum_range_succ]
      linarith [hl u v hu, hl' u v hu]
  obtain ⟨C, hC, hl⟩ := key b.dof le_rfl
  refine ⟨1 / (C + 1), by positivity, fun u w hu v => ?_⟩
  have e1 := hl u v hu
  have e2 := energy2_nonneg h hd u v
  have e3 : (b.sysAt u v).energy2 v = ∑ i ∈ range b.dof, v i * ∑ j ∈ range b.dof,
      (b.sysAt u w).massSpec i j * v j := Sys.energy2_eq (σ := b.sysAt u v) v
  rw [← e3, div_mul_eq_mul_div, one_mul, div_le_iff₀ (by positivity)]
  linarith

theorem acc_fd (h : Reach E b d) (hd : b.Definite) (tau : ℕ → ℝ) (fext : FExt) (o : FDOpts)
    {q dq : Fl → P → ℕ → ℝ} {x w : P → ℕ → ℝ}
    (hq : ∀ i < b.dof, Acc (fun F p => q F p i) fun p => x p i)
    (hdq : ∀ i < b.dof, Acc (fun F p => dq F p i) fun p => w p i) {a : P → ℕ → ℝ}
    (ha : ∀ p, ∀ i < b.dof, ∑ j ∈ range b.dof, (b.sysAt (x p) (w p)).massSpec i j * a p j =
      tau i - (b.sysAt (x p) (w p)).idSpec (fun _ => 0) fext o.cc o.gravity i) {i : ℕ} (hi : i < b.dof) :
    Acc (fun F p => F.fd (F.sysAt b (q F p) (dq F p)) tau fext o i) fun p => a p i := by
  have hm := hd.massive h.inv.tree
  have hS := acc_sys h.inv.tree hq hdq
  obtain ⟨R, -, hR⟩ := Acc.bounds b.dof hq
  obtain ⟨c, hc, hcd⟩ := mass_margin h.inv hd R
  have hw := fun p => sysAt_wf h.inv.tree h.inv.rigid (x p) (w p)
  refine Acc.solve (n := b.dof) (A := fun F p => F.crba (F.sysAt b (q F p) (dq F p)))
    (A0 := fun p => (b.sysAt (x p) (w p)).massSpec)
    (r := fun F p i => F.sub (tau i) (F.rnea (F.sysAt b (q F p) (dq F p)) (fun _ => 0) fext
      ⟨o.gravity, o.cc, false, 0.01⟩ i))
    hc (fun i hi j hj => ?_) (fun i hi => ?_) (fun p i _ j _ => sum_congr rfl fun k hk =>
      (hw p).Iw_symm hm.symI (mem_range.1 hk) _ _)
    (fun p => hcd (x p) (w p) (hR p)) ha hi
  · refine (hS.crba hm.loadOK h.inv.tree.parLt (fun _ hi => hd.heavy hi) i j).congr fun p => ?_
    have hpm := hm.posMass h.inv.tree
    exact (hw p).crba_spec hm.symI ⟨hpm.1, hpm.2⟩ _ i j hi hj
  · refine (Acc.const (tau i)).sub ((hS.rnea hm.loadOK h.inv.tree.parLt (dd := fun _ _ _ => 0)
      (e := fun _ _ => 0) (fun _ _ => .const 0) fext ⟨o.gravity, o.cc, false, 0.01⟩ rfl hi).congr
      fun p => ?_)
    exact (hw p).rnea_spec (ddq := fun _ => 0) (fext := fext) (o := ⟨o.gravity, o.cc, false, 0.01⟩)
      (vd := false) (arr0 := fun _ => ⟨0, 0, 0⟩) (fun h => by cases h) rfl i hi

end Body
end SpatialDyn
