import Verif.Model.Loops
import Mathlib.Algebra.BigOperators.Group.Finset.Piecewise

/-! Characterisation of the loops by fixpoint equations. -/

namespace SpatialDyn

section fwd
variable {α : Type*} {f : (ℕ → α) → ℕ → α → α}

/-- The forward step at `i` reads only entries before `i`. -/
def Causal (f : (ℕ → α) → ℕ → α → α) : Prop :=
  ∀ a b i o, (∀ j < i, a j = b j) → f a i o = f b i o

theorem fwdLoop_succ (n : ℕ) (f : (ℕ → α) → ℕ → α → α) (a0 : ℕ → α) :
    fwdLoop (n + 1) f a0 =
      Function.update (fwdLoop n f a0) n (f (fwdLoop n f a0) n (fwdLoop n f a0 n)) := by
  simp [fwdLoop, List.range_succ]

theorem fwdLoop_ge (n : ℕ) (f : (ℕ → α) → ℕ → α → α) (a0 : ℕ → α) (i : ℕ) (h : n ≤ i) :
    fwdLoop n f a0 i = a0 i := by
  induction n with
  | zero => rfl
  | succ n ih =>
    rw [fwdLoop_succ, Function.update_of_ne (by omega)]
    exact ih (by omega)

/-- The result of a causal forward loop satisfies the loop equation at every index. -/
theorem fwdLoop_spec (hf : Causal f) (n : ℕ) (a0 : ℕ → α) (i : ℕ) (h : i < n) :
    fwdLoop n f a0 i = f (fwdLoop n f a0) i (a0 i) := by
  induction n with
  | zero => omega
  | succ n ih =>
    have hcongr : ∀ j, j ≤ n → f (fwdLoop (n + 1) f a0) j (a0 j) = f (fwdLoop n f a0) j (a0 j) := by
      intro j hj
      apply hf
      intro k hk
      rw [fwdLoop_succ, Function.update_of_ne (by omega)]
    rw [hcongr i (by omega)]
    by_cases hi : i = n
    · subst hi
      rw [fwdLoop_succ, Function.update_self, fwdLoop_ge i f a0 i le_rfl]
    · rw [fwdLoop_succ, Function.update_of_ne hi]
      exact ih (by omega)

/-- The loop equation has only one solution on `[0, n)`. -/
theorem fwdLoop_unique (hf : Causal f) (n : ℕ) (a0 r : ℕ → α)
    (hr : ∀ i < n, r i = f r i (a0 i)) (i : ℕ) (h : i < n) : fwdLoop n f a0 i = r i := by
  induction i using Nat.strong_induction_on with
  | _ i ih =>
    rw [fwdLoop_spec hf n a0 i h, hr i h]
    exact hf _ _ _ _ (fun j hj => ih j hj (by omega))

end fwd

section bwd
variable {β γ : Type*} (op : β → β → β)

/-- Pure accumulation loop, without outputs. -/
def accLoop (n : ℕ) (par : ℕ → Option ℕ) (contrib : ℕ → β → β) (B0 : ℕ → β) : ℕ → β :=
  (List.range n).reverse.foldl
    (fun B i => match par i with
      | none => B
      | some p => accum op B p (contrib i (B i))) B0

theorem accLoop_succ (n : ℕ) (par : ℕ → Option ℕ) (contrib : ℕ → β → β) (B0 : ℕ → β) :
    accLoop op (n + 1) par contrib B0 = accLoop op n par contrib
      (match par n with | none => B0 | some p => accum op B0 p (contrib n (B0 n))) := by
  simp [accLoop, List.range_succ]

/-- Parents come before children. -/
def ParLt (n : ℕ) (par : ℕ → Option ℕ) : Prop := ∀ i < n, ∀ p, par i = some p → p < i

theorem ParLt.mono {n : ℕ} {par : ℕ → Option ℕ} (h : ParLt (n + 1) par) : ParLt n par :=
  fun i hi p hp => h i (by omega) p hp

theorem accLoop_ge {n : ℕ} {par : ℕ → Option ℕ} (hp : ParLt n par) (contrib : ℕ → β → β)
    (B0 : ℕ → β) (i : ℕ) (h : n ≤ i + 1) : accLoop op n par contrib B0 i = B0 i := by
  induction n generalizing B0 with
  | zero => rfl
  | succ n ih =>
    rw [accLoop_succ, ih hp.mono _ (by omega)]
    cases hpar : par n with
    | none => rfl
    | some p =>
      have := hp n (by omega) p hpar
      simp only [accum]
      rw [Function.update_of_ne (by omega)]

/-- The backward loop with outputs, in terms of the pure accumulation loop. -/
theorem bwdLoop_eq {n : ℕ} {par : ℕ → Option ℕ} (hp : ParLt n par) (out : ℕ → β → γ)
    (fin contrib : ℕ → β → β) (B0 : ℕ → β) (C0 : ℕ → γ) :
    bwdLoop op n par out fin contrib B0 C0 =
      (fun i => if i < n then fin i (accLoop op n par contrib B0 i) else B0 i,
       fun i => if i < n then out i (accLoop op n par contrib B0 i) else C0 i) := by
  have key : ∀ (n : ℕ) (B B' : ℕ → β) (C0 : ℕ → γ), ParLt n par → (∀ i < n, B' i = B i) →
      bwdLoop op n par out fin contrib B' C0 =
      (fun i => if i < n then fin i (accLoop op n par contrib B i) else B' i,
       fun i => if i < n then out i (accLoop op n par contrib B i) else C0 i) := by
    intro n
    induction n with
    | zero => intro B B' C0 _ _; simp [bwdLoop]
    | succ n ih =>
      intro B B' C0 hp hB
      have hstep : bwdLoop op (n + 1) par out fin contrib B' C0 =
          bwdLoop op n par out fin contrib
            (match par n with
              | none => Function.update B' n (fin n (B' n))
              | some p => accum op (Function.update B' n (fin n (B' n))) p (contrib n (B' n)))
            (Function.update C0 n (out n (B' n))) := by
        unfold bwdLoop
        rw [List.range_succ, List.reverse_append]
        simp only [List.reverse_cons, List.reverse_nil, List.nil_append, List.cons_append,
          List.foldl_cons]
        cases par n <;> rfl
      rw [hstep]
      have hBn := hB n (by omega)
      rw [ih (match par n with | none => B | some p => accum op B p (contrib n (B n)))]
      · have hlast : accLoop op (n + 1) par contrib B n = B n := accLoop_ge op hp contrib B n le_rfl
        refine Prod.ext ?_ ?_
        · funext i
          simp only [← accLoop_succ]
          by_cases hi : i < n
          · simp [hi, Nat.lt_succ_of_lt hi]
          · by_cases hin : i = n
            · subst hin
              simp only [lt_irrefl, if_false, Nat.lt_succ_self, if_true, hlast]
              cases hpar : par i with
              | none => simp [hBn]
              | some p =>
                have := hp i (by omega) p hpar
                simp only [accum]
                rw [Function.update_of_ne (by omega), Function.update_self, hBn]
            · have h1 : ¬ i < n + 1 := by omega
              simp only [hi, h1, if_false]
              cases hpar : par n with
              | none => simp [Function.update_of_ne hin]
              | some p =>
                have := hp n (by omega) p hpar
                simp only [accum]
                rw [Function.update_of_ne (by omega), Function.update_of_ne hin]
        · funext i
          simp only [← accLoop_succ]
          by_cases hi : i < n
          · simp [hi, Nat.lt_succ_of_lt hi]
          · by_cases hin : i = n
            · subst hin
              simp [hlast, hBn]
            · have h1 : ¬ i < n + 1 := by omega
              simp [hi, h1, Function.update_of_ne hin]
      · exact hp.mono
      · intro i hi
        cases hpar : par n with
        | none => simp only; rw [Function.update_of_ne (by omega), hB i (by omega)]
        | some p =>
          have := hp n (by omega) p hpar
          simp only [accum]
          rw [hBn]
          by_cases hip : i = p
          · subst hip
            rw [Function.update_self, Function.update_self, Function.update_of_ne (by omega),
              hB i (by omega)]
          · rw [Function.update_of_ne hip, Function.update_of_ne hip,
              Function.update_of_ne (by omega), hB i (by omega)]
  exact key n B0 B0 C0 hp (fun _ _ => rfl)

open Finset in
/-- The accumulation loop in a commutative monoid satisfies the tree equation: own value plus the
contributions of all children. -/
theorem accLoop_spec {β : Type*} [AddCommMonoid β] {n : ℕ} {par : ℕ → Option ℕ} (hp : ParLt n par)
    (contrib : ℕ → β → β) (B0 : ℕ → β) (i : ℕ) :
    accLoop (· + ·) n par contrib B0 i =
      B0 i + ∑ j ∈ range n, if par j = some i then contrib j (accLoop (· + ·) n par contrib B0 j)
        else 0 := by
  induction n generalizing B0 with
  | zero => simp [accLoop]
  | succ n ih =>
    have hge : accLoop (· + ·) (n + 1) par contrib B0 n = B0 n :=
      accLoop_ge _ hp contrib B0 n le_rfl
    rw [sum_range_succ, hge, accLoop_succ, ih hp.mono]
    cases hpar : par n with
    | none => simp
    | some p =>
      have hlt := hp n (by omega) p hpar
      by_cases hip : p = i
      · subst hip
        simp only [accum, Function.update_self, if_true]
        rw [add_assoc, add_comm (contrib n (B0 n)), ← add_assoc]
      · have : ¬ (some p = some i) := by simpa using hip
        simp only [accum, this, if_false, add_zero]
        rw [Function.update_of_ne (Ne.symm hip)]

open Finset in
/-- A solution of the tree equation is unique on `[0, n)`. -/
theorem tree_eq_unique {β : Type*} [AddCommMonoid β] {n : ℕ} {par : ℕ → Option ℕ}
    (hp : ParLt n par) (contrib : ℕ → β → β) (B0 F G : ℕ → β)
    (hF : ∀ i < n, F i = B0 i + ∑ j ∈ range n, if par j = some i then contrib j (F j) else 0)
    (hG : ∀ i < n, G i = B0 i + ∑ j ∈ range n, if par j = some i then contrib j (G j) else 0)
    (i : ℕ) (h : i < n) : F i = G i := by
  induction hk : n - i using Nat.strong_induction_on generalizing i with
  | _ k ih =>
    rw [hF i h, hG i h]
    congr 1
    apply sum_congr rfl
    intro j hj
    have hj' := mem_range.1 hj
    split
    · next hpj =>
      have := hp j hj' i hpj
      rw [ih (n - j) (by omega) j hj' rfl]
    · rfl

end bwd

end SpatialDyn
