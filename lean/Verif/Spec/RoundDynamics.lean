import Verif.Model.RoundDynamics
import Verif.Spec.Rounding

/-!
# How wrong an arithmetic may be: products, quotients and longer sums
-/

namespace SpatialDyn

open Finset

/-- Every operation is right up to `u` relative to its terms; products and quotients so small that they
underflow are right up to `u * l`, and sums of more terms as if each of their operations were.  Nothing
overflows, and the smallest normal number is less than `u`. -/
structure Fl.Within (F : Fl) (u l : ℝ) : Prop extends F.toArith.Within u l where
  mul : ∀ x y, |F.mul x y - x * y| ≤ u * (|x * y| + l)
  div : ∀ x y, y ≠ 0 → |F.div x y - x / y| ≤ u * (|x / y| + l)
  dot6 : ∀ m f, |F.dot6 m f - (m.lin.dot f.lin + m.ang.dot f.ang)| ≤
    u * (|m.lin.x * f.lin.x| + |m.lin.y * f.lin.y| + |m.lin.z * f.lin.z| + |m.ang.x * f.ang.x| +
      |m.ang.y * f.ang.y| + |m.ang.z * f.ang.z| + l)
  less : ∀ x k a b, |F.less x k a b - (x - ∑ j ∈ range k, a j * b j)| ≤
    ((1 + u) ^ (k + 1) - 1) * (|x| + ∑ j ∈ range k, (|a j * b j| + l))
  least : F.least ≤ u

/-- Every entry of two motions differs by at most `e`. -/
def Motion.Near (a b : Motion) (e : ℝ) : Prop :=
  |a.lin.x - b.lin.x| ≤ e ∧ |a.lin.y - b.lin.y| ≤ e ∧ |a.lin.z - b.lin.z| ≤ e ∧
  |a.ang.x - b.ang.x| ≤ e ∧ |a.ang.y - b.ang.y| ≤ e ∧ |a.ang.z - b.ang.z| ≤ e

/-- Exact arithmetic. -/
noncomputable def Fl.exact : Fl where
  toArith := Arith.exact
  mul x y := x * y
  div x y := x / y
  dot6 m f := m.dot f
  less x k a b := x - ∑ j ∈ range k, a j * b j
  pivot _ _ := 1
  least := 0

/-- Every operation rounds to the nearest number with `n` binary digits; sums of six or more products are
added from the left.  The order of the rows of a factorisation is given. -/
noncomputable def Fl.digits (left : Bool) (order : (n : ℕ) → (ℕ → ℕ → ℝ) → Equiv.Perm (Fin n)) (n : ℕ) :
    Fl where
  toArith := Arith.digits left n
  mul x y := nearest n (x * y)
  div x y := nearest n (x / y)
  dot6 m f :=
    let add x y := nearest n (x + y)
    let mul x y := nearest n (x * y)
    add (add (add (add (add (mul m.lin.x f.lin.x) (mul m.lin.y f.lin.y)) (mul m.lin.z f.lin.z))
      (mul m.ang.x f.ang.x)) (mul m.ang.y f.ang.y)) (mul m.ang.z f.ang.z)
  less x k a b :=
    nearest n (x - (List.range k).foldl (fun s j => nearest n (s + nearest n (a j * b j))) 0)
  pivot := order
  least := 0

end SpatialDyn
