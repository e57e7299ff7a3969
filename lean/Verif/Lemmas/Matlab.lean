import Verif.Spec.Matlab
import Verif.Lemmas.Transparent
import Verif.Lemmas.Same
import Verif.Lemmas.OpsSteps

namespace SpatialDyn
namespace Mex

theorem place_lt : ∀ {ds is : List ℕ}, Inside ds is → place ds is < ds.prod
  | [], [], _ => by simp [place]
  | d :: ds, i :: is, h => by
    have := place_lt h.2
    have hi := h.1
    simp only [place, List.prod_cons]
    calc i + d * place ds is < d + d * place ds is := by omega
      _ = d * (place ds is + 1) := by ring
      _ ≤ d * ds.prod := Nat.mul_le_mul_left _ this
  | [], _ :: _, h => h.elim
  | _ :: _, [], h => h.elim

theorem inside_last : ∀ {ds : List ℕ}, ds.prod ≠ 0 → Inside ds (lastOf ds)
  | [], _ => trivial
  | d :: ds, h => by
    rw [List.prod_cons] at h
    exact ⟨by show d - 1 < d; have := left_ne_zero_of_mul h; omega, inside_last (right_ne_zero_of_mul h)⟩

theorem place_last : ∀ {ds : List ℕ}, ds.prod ≠ 0 → place ds (lastOf ds) + 1 = ds.prod
  | [], _ => rfl
  | d :: ds, h => by
    rw [List.prod_cons] at h
    have h1 := left_ne_zero_of_mul h
    have h2 := place_last (right_ne_zero_of_mul h)
    simp only [lastOf, List.map_cons, place, List.prod_cons]
    unfold lastOf at h2
    rw [← h2, Nat.mul_add]
    omega

/-- A column in memory is the column of the array. -/
theorem col_eq {Q : Arr} {n : ℕ} (hr : Q.rows n = true) {is : List ℕ}
    (hi : Inside Q.dims.tail is) :
    Q.col n (place Q.dims.tail is) = .ok (Q.column n is) := by
  obtain ⟨ds, hd⟩ : ∃ ds, Q.dims = n :: ds := by
    unfold Arr.rows at hr
    rw [decide_eq_true_eq] at hr
    cases h : Q.dims with
    | nil => rw [h] at hr; cases hr
    | cons a l => rw [h] at hr; cases hr; exact ⟨l, rfl⟩
  rw [hd] at hi
  unfold Arr.col Arr.numel Arr.column Arr.at
  rw [hd, List.tail_cons] at *
  rw [List.prod_cons, if_pos (Nat.mul_le_mul_left _ (place_lt hi))]
  congr 1
  refine List.map_congr_left fun j _ => ?_
  rw [place, Nat.add_comm]

theorem exists_place : ∀ {ds : List ℕ} {i : ℕ}, i < ds.prod → ∃ is, Inside ds is ∧ place ds is = i
  | [], i, h => ⟨[], trivial, by simp at h; simp [place, h]⟩
  | d :: ds, i, h => by
    rw [List.prod_cons] at h
    have hd : 0 < d := by
      rcases Nat.eq_zero_or_pos d with h0 | h0
      · simp [h0] at h
      · exact h0
    obtain ⟨is, h1, h2⟩ := exists_place (ds := ds) (i := i / d) (Nat.div_lt_of_lt_mul h)
    exact ⟨i % d :: is, ⟨Nat.mod_lt _ hd, h1⟩, by rw [place, h2, Nat.mod_add_div]⟩

/-- The loop, given what one pass does from any state satisfying an invariant. -/
theorem loop_spec {total size : ℕ} {f : Body → ℕ → Out ((ℕ → ℝ) × Body)} (P : ℕ → Body → Prop)
    (R : ℕ → Body → Prop) (val : ℕ → ℕ → ℝ) {b : Body} (h0 : P 0 b) : ∀ {n : ℕ}, size * n ≤ total →
    (∀ i < n, ∀ b1, P i b1 → ∃ v b2, f b1 i = .ok (v, b2) ∧ P (i + 1) b2 ∧ R i b2 ∧
      ∀ k < size, v k = val i k) →
    ∃ e b', loop total size f n b = .ok (e, b') ∧ P n b' ∧ (n = 0 → b' = b) ∧
      (∀ m, n = m + 1 → R m b') ∧ ∀ i < n, ∀ k < size, e (size * i + k) = val i k
  | 0, _, _ => ⟨_, b, rfl, h0, fun _ => rfl, fun _ h => by omega, fun _ h => by omega⟩
  | n + 1, hn, hf => by
    obtain ⟨e, b1, h1, p1, -, -, e1⟩ := loop_spec (total := total) P R val h0
      (le_trans (Nat.mul_le_mul_left _ (Nat.le_succ n)) hn) fun i hi => hf i (by omega)
    obtain ⟨v, b2, h2, p2, r2, e2⟩ := hf n (by omega) b1 p1
    refine ⟨fun k => if size * n ≤ k ∧ k < size * (n + 1) then v (k - size * n) else e k, b2, ?_, p2,
      fun h => by omega, fun m hm => ?_, fun i hi k hk => ?_⟩
    · unfold loop
      rw [h1, Out.bind, h2, Out.bind, put, if_pos hn]
      rfl
    · obtain rfl : n = m := by omega
      exact r2
    · rcases Nat.lt_or_ge i n with h | h
      · have : size * i + k < size * n := by
          calc size * i + k < size * i + size := by omega
            _ = size * (i + 1) := by ring
            _ ≤ size * n := Nat.mul_le_mul_left _ h
        simp only
        rw [if_neg (by omega), e1 i h k hk]
      · obtain rfl : i = n := by omega
        simp only
        rw [if_pos ⟨by omega, by rw [Nat.mul_succ]; omega⟩, Nat.add_sub_cancel_left, e2 k hk]

theorem byCols_at {n i j : ℕ} (hi : i < n) (A : ℕ → ℕ → ℝ) : byCols n A (i + n * j) = A i j := by
  unfold byCols
  rw [Nat.add_mul_mod_self_left, Nat.mod_eq_of_lt hi, Nat.add_mul_div_left _ _ (by omega),
    Nat.div_eq_of_lt hi, Nat.zero_add]

theorem byCols6_at {i j : ℕ} (hi : i < 6) (J : ℕ → Motion) :
    byCols6 J (i + 6 * j) = (J j).entry i := by
  unfold byCols6
  rw [Nat.add_mul_mod_self_left, Nat.mod_eq_of_lt hi, Nat.add_mul_div_left _ _ (by omega),
    Nat.div_eq_of_lt hi, Nat.zero_add]

theorem byCols3_at {n i j k : ℕ} (hi : i < n) (hj : j < n) (H : ℕ → ℕ → Motion) :
    byCols3 n H (i + n * (j + n * k)) = (H i j).entry k := by
  have h0 : 0 < n := by omega
  unfold byCols3
  rw [Nat.add_mul_mod_self_left, Nat.mod_eq_of_lt hi, Nat.add_mul_div_left _ _ h0,
    Nat.div_eq_of_lt hi, Nat.zero_add, Nat.add_mul_mod_self_left, Nat.mod_eq_of_lt hj,
    Nat.add_mul_div_left _ _ h0, Nat.div_eq_of_lt hj, Nat.zero_add]

/-- The whole call, given what one pass does for one column. -/
theorem fill_spec {pre ds : List ℕ} {f : Body → ℕ → Out ((ℕ → ℝ) × Body)} (P : ℕ → Body → Prop)
    (R : ℕ → Body → Prop) (val : ℕ → ℕ → ℝ) {b : Body} (h0 : P 0 b)
    (hf : ∀ is, Inside ds is → ∀ b1, P (place ds is) b1 → ∃ v b2,
      f b1 (place ds is) = .ok (v, b2) ∧ P (place ds is + 1) b2 ∧
      R (place ds is) b2 ∧ ∀ k < pre.prod, v k = val (place ds is) k) :
    ∃ A b', fill (pre ++ ds) pre.prod ds.prod b f = .ok (some A, b') ∧ P ds.prod b' ∧
      (ds.prod = 0 → b' = b) ∧ (ds.prod ≠ 0 → R (place ds (lastOf ds)) b') ∧
      A.dims = pre ++ ds ∧ ∀ is, Inside ds is → ∀ js, Inside pre js →
        A.at (js ++ is) = val (place ds is) (place pre js) := by
  obtain ⟨e, b', h1, h2, h3, h4, h5⟩ := loop_spec (total := (pre ++ ds).prod) (size := pre.prod)
    (f := f) P R val h0 (n := ds.prod) (by rw [List.prod_append]) (fun i hi b1 p1 => by
      obtain ⟨is, hi1, rfl⟩ := exists_place hi
      exact hf is hi1 b1 p1)
  refine ⟨⟨pre ++ ds, e⟩, b', by unfold fill; rw [h1]; rfl, h2, h3, fun h => h4 _ ?_, rfl,
    fun is hi js hj => ?_⟩
  · exact (place_last h).symm
  · have hp : ∀ {pre js : List ℕ}, Inside pre js →
        place (pre ++ ds) (js ++ is) = pre.prod * place ds is + place pre js := by
      intro pre
      induction pre with
      | nil =>
        intro js hj
        cases js with
        | nil => simp [place]
        | cons => exact hj.elim
      | cons d pre ih =>
        intro js hj
        cases js with
        | nil => exact hj.elim
        | cons j js =>
          rw [List.cons_append, List.cons_append, place, ih hj.2, List.prod_cons, place]
          ring
    unfold Arr.at
    rw [hp hj]
    exact h5 _ (place_lt hi) _ (place_lt hj)

end Mex
end SpatialDyn
