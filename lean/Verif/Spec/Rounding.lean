import Verif.Model.Rounding
import Verif.Spec.Turns
import Mathlib.Data.Int.Log
import Mathlib.Algebra.Order.Round

/-!
# How wrong an arithmetic may be
-/

namespace SpatialDyn

/-- Size of a matrix: root of the sum of the squares of its entries. -/
noncomputable def Mat3.frob (m : Mat3) : ℝ :=
  Real.sqrt (m.m00 ^ 2 + m.m01 ^ 2 + m.m02 ^ 2 + m.m10 ^ 2 + m.m11 ^ 2 + m.m12 ^ 2 + m.m20 ^ 2 +
    m.m21 ^ 2 + m.m22 ^ 2)

/-- Every operation is right up to `u` relative to its terms; products so small that they underflow are
right up to `u * l`.  Nothing overflows. -/
structure Arith.Within (A : Arith) (u l : ℝ) : Prop where
  nonneg : 0 ≤ u ∧ u ≤ 1 / 4
  tiny : 0 ≤ l ∧ l ≤ 1
  add : ∀ x y, |A.add x y - (x + y)| ≤ u * |x + y|
  sub : ∀ x y, |A.sub x y - (x - y)| ≤ u * |x - y|
  sin : ∀ x, |A.sin x - Real.sin x| ≤ u
  cos : ∀ x, |A.cos x - Real.cos x| ≤ u
  dot : ∀ v w, |A.dot v w - v.dot w| ≤ u * (|v.x * w.x| + |v.y * w.y| + |v.z * w.z| + l)

/-- Sums of three products from a product and a sum, from the left or from the right. -/
def dotOf (left : Bool) (add mul : ℝ → ℝ → ℝ) (v w : Vec3) : ℝ :=
  if left then add (add (mul v.x w.x) (mul v.y w.y)) (mul v.z w.z)
  else add (mul v.x w.x) (add (mul v.y w.y) (mul v.z w.z))

/-- Exact arithmetic. -/
noncomputable def Arith.exact : Arith where
  add x y := x + y
  sub x y := x - y
  sin := Real.sin
  cos := Real.cos
  dot v w := v.dot w

/-- The nearest number with `n` binary digits (exponents are not bounded). -/
noncomputable def nearest (n : ℕ) (x : ℝ) : ℝ :=
  round (x / 2 ^ (Int.log 2 |x| + 1 - n)) * 2 ^ (Int.log 2 |x| + 1 - n)

/-- Every operation rounds to the nearest number with `n` binary digits; 53 of them are a `double`. -/
noncomputable def Arith.digits (left : Bool) (n : ℕ) : Arith where
  add x y := nearest n (x + y)
  sub x y := nearest n (x - y)
  sin x := nearest n (Real.sin x)
  cos x := nearest n (Real.cos x)
  dot := dotOf left (fun x y => nearest n (x + y)) fun x y => nearest n (x * y)

end SpatialDyn
