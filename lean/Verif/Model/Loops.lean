import Mathlib.Algebra.BigOperators.Group.Finset.Basic
import Mathlib.Data.List.Range
import Mathlib.Logic.Function.Basic

/-!
# Loops over bodies

The C++ algorithms use two loop shapes over the body index: a forward loop
`for (size_t i = 0; i < dof; i++)` that writes entry `i` from earlier entries, and a backward loop
`for (int i = dof - 1; i >= 0; i--)` that reads entry `i` and accumulates into the parent's entry.
Arrays (`std::vector`) are functions from the index.
-/

namespace SpatialDyn

/-- Forward loop: at index `i` the entry is overwritten by `f a i (a i)`. -/
def fwdLoop {α : Type*} (n : ℕ) (f : (ℕ → α) → ℕ → α → α) (a0 : ℕ → α) : ℕ → α :=
  (List.range n).foldl (fun a i => Function.update a i (f a i (a i))) a0

/-- Accumulate `c` into entry `p` of an array with a given combination operator (`+=`). -/
def accum {β : Type*} (op : β → β → β) (B : ℕ → β) (p : ℕ) (c : β) : ℕ → β :=
  Function.update B p (op (B p) c)

/-- Backward loop with outputs.  At index `i`, with accumulated value `b = B i`:
`C i := out i b`, `B i := fin i b`, and if the body has a parent `p`, `B p += contrib i b`. -/
def bwdLoop {β γ : Type*} (op : β → β → β) (n : ℕ) (par : ℕ → Option ℕ) (out : ℕ → β → γ)
    (fin : ℕ → β → β) (contrib : ℕ → β → β) (B0 : ℕ → β) (C0 : ℕ → γ) : (ℕ → β) × (ℕ → γ) :=
  (List.range n).reverse.foldl
    (fun s i =>
      let b := s.1 i
      let C := Function.update s.2 i (out i b)
      let B := Function.update s.1 i (fin i b)
      match par i with
      | none => (B, C)
      | some p => (accum op B p (contrib i b), C))
    (B0, C0)

end SpatialDyn
