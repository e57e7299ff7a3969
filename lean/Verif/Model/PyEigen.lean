import Mathlib.Data.Fin.VecNotation
import Verif.Model.Spatial

/-!
# Transforms in Python

`src/python/eigen.cc`: the classes `Isometry3d` and `Translation3d` of the module `spatialeigen`.

Eigen stores an `Isometry3d` as a 4x4 matrix.  Its constructors and `inverse` are external and transcribed
here: construction from a 4x4 matrix copies all entries unchecked, `inverse` transposes the 3x3 block.
pybind11 hands out `matrix()`, `linear()` and `translation()` as arrays that share memory with the
transform (`reference_internal`), so that assigning to their entries writes the transform.
The constructor from `Quaterniond` is left out: no Python type converts to it.
-/

namespace SpatialDyn

/-- A Python object of class `Isometry3d`: the entries of `matrix()`. -/
abbrev PyIso := Fin 4 → Fin 4 → ℝ

/-- A place in an array that shares memory with a transform. -/
inductive View where
  | matrix (i j : Fin 4)
  | linear (i j : Fin 3)
  | translation (i : Fin 3)

namespace PyIso

/-- `Isometry3d(T)` (eigen.cc 25) and `Isometry3d(matrix)` for a 4x4 matrix (eigen.cc 26). -/
def ofMatrix (M : Fin 4 → Fin 4 → ℝ) : PyIso := M

/-- `Isometry3d(matrix)` for a 3x3 matrix (eigen.cc 27): no translation, last row `0 0 0 1`. -/
def ofLinear (R : Fin 3 → Fin 3 → ℝ) : PyIso := fun i j =>
  if hi : (i : ℕ) < 3 then if hj : (j : ℕ) < 3 then R ⟨i, hi⟩ ⟨j, hj⟩ else 0
  else if (j : ℕ) < 3 then 0 else 1

/-- The blocks `linear()` and `translation()` (eigen.cc 31-34), which the operators read. -/
def iso (T : PyIso) : Iso where
  R := ⟨T 0 0, T 0 1, T 0 2, T 1 0, T 1 1, T 1 2, T 2 0, T 2 1, T 2 2⟩
  t := ⟨T 0 3, T 1 3, T 2 3⟩

/-- The entry of the matrix that a place in an array is. -/
def place : View → Fin 4 × Fin 4
  | .matrix i j => (i, j)
  | .linear i j => (i.castSucc, j.castSucc)
  | .translation i => (i.castSucc, 3)

/-- Reading `T.matrix()[i, j]`, `T.linear()[i, j]`, `T.translation()[i]` (eigen.cc 29-34). -/
def get (T : PyIso) (v : View) : ℝ := T (place v).1 (place v).2

/-- Assigning to such an entry. -/
def put (T : PyIso) (v : View) (x : ℝ) : PyIso := fun i j => if (i, j) = place v then x else T i j

/-- A matrix with the given blocks and last row `0 0 0 1`. -/
def ofIso (T : Iso) : PyIso :=
  ![![T.R.m00, T.R.m01, T.R.m02, T.t.x], ![T.R.m10, T.R.m11, T.R.m12, T.t.y],
    ![T.R.m20, T.R.m21, T.R.m22, T.t.z], ![0, 0, 0, 1]]

/-- `T.inverse()` (eigen.cc 35): `Transform::inverse` with mode `Isometry`, that is the transposed block,
the translation turned by it with opposite sign, and `makeAffine`. -/
def inverse (T : PyIso) : PyIso := ofIso ⟨T.iso.R.T, -(T.iso.R.T.mulVec T.iso.t)⟩

/-- `T.mdot(m)` (eigen.cc 40-43). -/
def mdot (T : PyIso) (m : Motion) : Motion := T.iso.actM m

/-- `T.fdot(f)` (eigen.cc 36-39). -/
def fdot (T : PyIso) (f : Force) : Force := T.iso.actF f

end PyIso

/-- A Python object of class `Translation3d`. -/
abbrev PyTrans := Vec3

namespace PyTrans

/-- `T.inverse()` (eigen.cc 51). -/
def inverse (t : PyTrans) : PyTrans := (-t : Vec3)

/-- `T.mdot(m)` (eigen.cc 56-59). -/
def mdot (t : PyTrans) (m : Motion) : Motion := transM t m

/-- `T.fdot(f)` (eigen.cc 52-55). -/
def fdot (t : PyTrans) (f : Force) : Force := transF t f

end PyTrans

end SpatialDyn
