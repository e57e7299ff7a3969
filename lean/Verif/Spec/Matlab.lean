import Verif.Model.Matlab

/-!
# MATLAB arrays, as their users index them

An array is read by one index per dimension (here from zero); the first index varies fastest in memory.
-/

namespace SpatialDyn
namespace Mex

/-- Place of the entry with indices `is` in the memory of an array. -/
def place : List ℕ → List ℕ → ℕ
  | d :: ds, i :: is => i + d * place ds is
  | _, _ => 0

/-- `is` gives one index within range for each dimension. -/
def Inside : List ℕ → List ℕ → Prop
  | [], [] => True
  | d :: ds, i :: is => i < d ∧ Inside ds is
  | _, _ => False

/-- `A(i, j, …)`. -/
def Arr.at (a : Arr) (is : List ℕ) : ℝ := a.e (place a.dims is)

/-- `A(:, i, j, …)` of an array with `n` rows. -/
def Arr.column (a : Arr) (n : ℕ) (is : List ℕ) : List ℝ :=
  (List.range n).map fun j => a.at (j :: is)

/-- The last index within the dimensions. -/
def lastOf (ds : List ℕ) : List ℕ := ds.map (· - 1)

/-- `out` was computed from the array `Q` column by column: it has the dimensions `pre` followed by the
dimensions of `Q` after the first, and its part at the indices `is` satisfies `P is`. -/
def ByColumn (Q out : Arr) (pre : List ℕ) (P : List ℕ → (List ℕ → ℝ) → Prop) : Prop :=
  out.dims = pre ++ Q.dims.tail ∧
    ∀ is, Inside Q.dims.tail is → P is fun js => out.at (js ++ is)

/-- The names and values `l` ask for link `i` and offset `x`: the last of several values counts, other
names are ignored, and without a value the link is the last one (`-1`) and the offset is zero. -/
inductive Asks : List Val → ℤ → Vec3 → Prop
  | none : Asks [] (-1) 0
  | offset {l : List Val} {i : ℤ} {x : Vec3} {a : Arr} {ds : List ℕ} : Asks l i x →
      a.dims = 3 :: ds → 0 < ds.prod →
      Asks (l ++ [.chars "offset".toList, .num a]) i ⟨a.e 0, a.e 1, a.e 2⟩
  | link {l : List Val} {i : ℤ} {x : Vec3} {a : Arr} {ds : List ℕ} {k : ℤ} : Asks l i x →
      a.dims = 1 :: ds → 0 < ds.prod → a.e 0 = k →
      Asks (l ++ [.chars "link".toList, .num a]) k x
  | other {l : List Val} {i : ℤ} {x : Vec3} {s : Str} {v : Val} : Asks l i x →
      s ≠ "offset".toList → s ≠ "link".toList → Asks (l ++ [.chars s, v]) i x

end Mex
end SpatialDyn
