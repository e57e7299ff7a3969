import Mathlib.Data.Real.Basic
import Mathlib.Algebra.Module.Basic
import Mathlib.Algebra.BigOperators.Group.Finset.Basic
import Mathlib.Tactic.Ring
import Mathlib.Tactic.Abel
import Mathlib.Tactic.Module
import Mathlib.Tactic.Linarith
import Mathlib.Tactic.NormNum
import Mathlib.Tactic.FieldSimp
import Mathlib.Tactic.LinearCombination

/-!
# Spatial vector algebra

Model of `include/spatial_dyn/eigen/*.h`.  Scalars are real numbers.  Spatial vectors keep the
order of the C++ code: rows 0-2 are the linear part, rows 3-5 the angular part.
-/

namespace SpatialDyn

/-- `Eigen::Vector3d`. -/
@[ext] structure Vec3 where
  x : ℝ
  y : ℝ
  z : ℝ

/-- `Eigen::Matrix3d`, entry `mij` is row `i`, column `j`. -/
@[ext] structure Mat3 where
  m00 : ℝ
  m01 : ℝ
  m02 : ℝ
  m10 : ℝ
  m11 : ℝ
  m12 : ℝ
  m20 : ℝ
  m21 : ℝ
  m22 : ℝ

/-- `SpatialMotiond` (include/spatial_dyn/eigen/spatial_motion.h): linear rows 0-2 then angular
rows 3-5 (`linear()`, `angular()`, spatial_motion_base.h 772-794). -/
@[ext] structure Motion where
  lin : Vec3
  ang : Vec3

/-- `SpatialForced` (include/spatial_dyn/eigen/spatial_force.h), same row order. -/
@[ext] structure Force where
  lin : Vec3
  ang : Vec3

/-- `SpatialInertiad`: mass, centre of mass and rotational inertia about the centre of mass
(spatial_inertia.h 65-67). -/
@[ext] structure Inertia where
  mass : ℝ
  com : Vec3
  Icom : Mat3

/-- `SpatialInertiaMatrixd` (spatial_inertia.h 71-103): a 6x6 matrix in 3x3 blocks. -/
@[ext] structure Mat6 where
  ll : Mat3
  la : Mat3
  al : Mat3
  aa : Mat3

/-- `Eigen::Isometry3d`: `linear()` and `translation()`. -/
@[ext] structure Iso where
  R : Mat3
  t : Vec3

namespace Vec3

instance : Zero Vec3 := ⟨⟨0, 0, 0⟩⟩
instance : Add Vec3 := ⟨fun a b => ⟨a.x + b.x, a.y + b.y, a.z + b.z⟩⟩
instance : Neg Vec3 := ⟨fun a => ⟨-a.x, -a.y, -a.z⟩⟩
instance : Sub Vec3 := ⟨fun a b => ⟨a.x - b.x, a.y - b.y, a.z - b.z⟩⟩
instance : SMul ℝ Vec3 := ⟨fun c a => ⟨c * a.x, c * a.y, c * a.z⟩⟩

@[simp] theorem zero_x : (0 : Vec3).x = 0 := rfl
@[simp] theorem zero_y : (0 : Vec3).y = 0 := rfl
@[simp] theorem zero_z : (0 : Vec3).z = 0 := rfl
@[simp] theorem add_x (a b : Vec3) : (a + b).x = a.x + b.x := rfl
@[simp] theorem add_y (a b : Vec3) : (a + b).y = a.y + b.y := rfl
@[simp] theorem add_z (a b : Vec3) : (a + b).z = a.z + b.z := rfl
@[simp] theorem neg_x (a : Vec3) : (-a).x = -a.x := rfl
@[simp] theorem neg_y (a : Vec3) : (-a).y = -a.y := rfl
@[simp] theorem neg_z (a : Vec3) : (-a).z = -a.z := rfl
@[simp] theorem sub_x (a b : Vec3) : (a - b).x = a.x - b.x := rfl
@[simp] theorem sub_y (a b : Vec3) : (a - b).y = a.y - b.y := rfl
@[simp] theorem sub_z (a b : Vec3) : (a - b).z = a.z - b.z := rfl
@[simp] theorem smul_x (c : ℝ) (a : Vec3) : (c • a).x = c * a.x := rfl
@[simp] theorem smul_y (c : ℝ) (a : Vec3) : (c • a).y = c * a.y := rfl
@[simp] theorem smul_z (c : ℝ) (a : Vec3) : (c • a).z = c * a.z := rfl

instance : AddCommGroup Vec3 where
  add_assoc a b c := by ext <;> simp <;> ring
  zero_add a := by ext <;> simp
  add_zero a := by ext <;> simp
  add_comm a b := by ext <;> simp <;> ring
  neg_add_cancel a := by ext <;> simp
  sub_eq_add_neg a b := by ext <;> simp <;> ring
  nsmul := nsmulRec
  zsmul := zsmulRec

instance : Module ℝ Vec3 where
  one_smul a := by ext <;> simp
  mul_smul c d a := by ext <;> simp <;> ring
  smul_zero c := by ext <;> simp
  smul_add c a b := by ext <;> simp <;> ring
  add_smul c d a := by ext <;> simp <;> ring
  zero_smul a := by ext <;> simp

/-- Euclidean dot product. -/
def dot (a b : Vec3) : ℝ := a.x * b.x + a.y * b.y + a.z * b.z

/-- Eigen's 3D cross product. -/
def cross (a b : Vec3) : Vec3 :=
  ⟨a.y * b.z - a.z * b.y, a.z * b.x - a.x * b.z, a.x * b.y - a.y * b.x⟩

end Vec3

namespace Mat3

instance : Zero Mat3 := ⟨⟨0, 0, 0, 0, 0, 0, 0, 0, 0⟩⟩
instance : One Mat3 := ⟨⟨1, 0, 0, 0, 1, 0, 0, 0, 1⟩⟩
instance : Add Mat3 := ⟨fun a b => ⟨a.m00 + b.m00, a.m01 + b.m01, a.m02 + b.m02,
  a.m10 + b.m10, a.m11 + b.m11, a.m12 + b.m12, a.m20 + b.m20, a.m21 + b.m21, a.m22 + b.m22⟩⟩
instance : Neg Mat3 := ⟨fun a => ⟨-a.m00, -a.m01, -a.m02, -a.m10, -a.m11, -a.m12,
  -a.m20, -a.m21, -a.m22⟩⟩
instance : Sub Mat3 := ⟨fun a b => ⟨a.m00 - b.m00, a.m01 - b.m01, a.m02 - b.m02,
  a.m10 - b.m10, a.m11 - b.m11, a.m12 - b.m12, a.m20 - b.m20, a.m21 - b.m21, a.m22 - b.m22⟩⟩
instance : SMul ℝ Mat3 := ⟨fun c a => ⟨c * a.m00, c * a.m01, c * a.m02,
  c * a.m10, c * a.m11, c * a.m12, c * a.m20, c * a.m21, c * a.m22⟩⟩

/-- Matrix product. -/
def mul (a b : Mat3) : Mat3 where
  m00 := a.m00 * b.m00 + a.m01 * b.m10 + a.m02 * b.m20
  m01 := a.m00 * b.m01 + a.m01 * b.m11 + a.m02 * b.m21
  m02 := a.m00 * b.m02 + a.m01 * b.m12 + a.m02 * b.m22
  m10 := a.m10 * b.m00 + a.m11 * b.m10 + a.m12 * b.m20
  m11 := a.m10 * b.m01 + a.m11 * b.m11 + a.m12 * b.m21
  m12 := a.m10 * b.m02 + a.m11 * b.m12 + a.m12 * b.m22
  m20 := a.m20 * b.m00 + a.m21 * b.m10 + a.m22 * b.m20
  m21 := a.m20 * b.m01 + a.m21 * b.m11 + a.m22 * b.m21
  m22 := a.m20 * b.m02 + a.m21 * b.m12 + a.m22 * b.m22

instance : Mul Mat3 := ⟨mul⟩

/-- Matrix-vector product. -/
def mulVec (a : Mat3) (v : Vec3) : Vec3 :=
  ⟨a.m00 * v.x + a.m01 * v.y + a.m02 * v.z,
   a.m10 * v.x + a.m11 * v.y + a.m12 * v.z,
   a.m20 * v.x + a.m21 * v.y + a.m22 * v.z⟩

/-- Transpose. -/
def T (a : Mat3) : Mat3 :=
  ⟨a.m00, a.m10, a.m20, a.m01, a.m11, a.m21, a.m02, a.m12, a.m22⟩

/-- Determinant. -/
def det (a : Mat3) : ℝ :=
  a.m00 * (a.m11 * a.m22 - a.m12 * a.m21) - a.m01 * (a.m10 * a.m22 - a.m12 * a.m20) +
    a.m02 * (a.m10 * a.m21 - a.m11 * a.m20)

/-- Columns and rows (Eigen `col`, `row`). -/
def row0 (a : Mat3) : Vec3 := ⟨a.m00, a.m01, a.m02⟩
def row1 (a : Mat3) : Vec3 := ⟨a.m10, a.m11, a.m12⟩
def row2 (a : Mat3) : Vec3 := ⟨a.m20, a.m21, a.m22⟩
def col0 (a : Mat3) : Vec3 := ⟨a.m00, a.m10, a.m20⟩
def col1 (a : Mat3) : Vec3 := ⟨a.m01, a.m11, a.m21⟩
def col2 (a : Mat3) : Vec3 := ⟨a.m02, a.m12, a.m22⟩
/-- Assemble from rows / columns. -/
def ofRows (a b c : Vec3) : Mat3 := ⟨a.x, a.y, a.z, b.x, b.y, b.z, c.x, c.y, c.z⟩
def ofCols (a b c : Vec3) : Mat3 := ⟨a.x, b.x, c.x, a.y, b.y, c.y, a.z, b.z, c.z⟩

/-- Eigen `M.rowwise().cross(t)`. -/
def rowCross (a : Mat3) (t : Vec3) : Mat3 :=
  ofRows (a.row0.cross t) (a.row1.cross t) (a.row2.cross t)
/-- Eigen `M.colwise().cross(t)`. -/
def colCross (a : Mat3) (t : Vec3) : Mat3 :=
  ofCols (a.col0.cross t) (a.col1.cross t) (a.col2.cross t)

/-- A proper rotation: orthogonal with determinant one.  `Eigen::Isometry3d` does not enforce
this; it is the stated precondition of rigid transforms. -/
def IsRot (a : Mat3) : Prop := a.T * a = 1 ∧ a.det = 1

/-- Symmetric matrix. -/
def IsSymm (a : Mat3) : Prop := a.T = a

/-- Positive semidefinite (as a quadratic form). -/
def PSD (a : Mat3) : Prop := ∀ v : Vec3, 0 ≤ v.dot (a.mulVec v)

end Mat3

/-- `ctrl_utils::DoubleCrossMatrix(x)` (external dependency, not in /repo): the matrix of
`v ↦ x × (x × v)`.  Used by `SpatialInertia::operator+` (spatial_inertia.h 213-214, 226-227). -/
def doubleCross (a : Vec3) : Mat3 where
  m00 := -(a.y * a.y) - a.z * a.z
  m01 := a.x * a.y
  m02 := a.x * a.z
  m10 := a.x * a.y
  m11 := -(a.x * a.x) - a.z * a.z
  m12 := a.y * a.z
  m20 := a.x * a.z
  m21 := a.y * a.z
  m22 := -(a.x * a.x) - a.y * a.y

namespace Iso

/-- `Eigen::Isometry3d::Identity()`. -/
instance : One Iso := ⟨⟨1, 0⟩⟩
/-- Product of isometries (`Eigen::Transform::operator*`). -/
instance : Mul Iso := ⟨fun a b => ⟨a.R * b.R, a.R.mulVec b.t + a.t⟩⟩
/-- `Eigen::Isometry3d::inverse()`: uses the transpose in `Isometry` mode. -/
def inv (a : Iso) : Iso := ⟨a.R.T, -(a.R.T.mulVec a.t)⟩
/-- `T * point`. -/
def app (a : Iso) (p : Vec3) : Vec3 := a.R.mulVec p + a.t
/-- Rigid transforms: the rotation block is a proper rotation. -/
def Valid (a : Iso) : Prop := a.R.IsRot

end Iso

namespace Motion

instance : Zero Motion := ⟨⟨0, 0⟩⟩
instance : Add Motion := ⟨fun a b => ⟨a.lin + b.lin, a.ang + b.ang⟩⟩
instance : Neg Motion := ⟨fun a => ⟨-a.lin, -a.ang⟩⟩
instance : Sub Motion := ⟨fun a b => ⟨a.lin - b.lin, a.ang - b.ang⟩⟩
instance : SMul ℝ Motion := ⟨fun c a => ⟨c • a.lin, c • a.ang⟩⟩

@[simp] theorem zero_lin : (0 : Motion).lin = 0 := rfl
@[simp] theorem zero_ang : (0 : Motion).ang = 0 := rfl
@[simp] theorem add_lin (a b : Motion) : (a + b).lin = a.lin + b.lin := rfl
@[simp] theorem add_ang (a b : Motion) : (a + b).ang = a.ang + b.ang := rfl
@[simp] theorem neg_lin (a : Motion) : (-a).lin = -a.lin := rfl
@[simp] theorem neg_ang (a : Motion) : (-a).ang = -a.ang := rfl
@[simp] theorem sub_lin (a b : Motion) : (a - b).lin = a.lin - b.lin := rfl
@[simp] theorem sub_ang (a b : Motion) : (a - b).ang = a.ang - b.ang := rfl
@[simp] theorem smul_lin (c : ℝ) (a : Motion) : (c • a).lin = c • a.lin := rfl
@[simp] theorem smul_ang (c : ℝ) (a : Motion) : (c • a).ang = c • a.ang := rfl

instance : AddCommGroup Motion where
  add_assoc a b c := by ext <;> simp <;> ring
  zero_add a := by ext <;> simp
  add_zero a := by ext <;> simp
  add_comm a b := by ext <;> simp <;> ring
  neg_add_cancel a := by ext <;> simp
  sub_eq_add_neg a b := by ext <;> simp <;> ring
  nsmul := nsmulRec
  zsmul := zsmulRec

instance : Module ℝ Motion where
  one_smul a := by ext <;> simp
  mul_smul c d a := by ext <;> simp <;> ring
  smul_zero c := by ext <;> simp
  smul_add c a b := by ext <;> simp
  add_smul c d a := by ext <;> simp <;> ring
  zero_smul a := by ext <;> simp

end Motion

namespace Force

instance : Zero Force := ⟨⟨0, 0⟩⟩
instance : Add Force := ⟨fun a b => ⟨a.lin + b.lin, a.ang + b.ang⟩⟩
instance : Neg Force := ⟨fun a => ⟨-a.lin, -a.ang⟩⟩
instance : Sub Force := ⟨fun a b => ⟨a.lin - b.lin, a.ang - b.ang⟩⟩
instance : SMul ℝ Force := ⟨fun c a => ⟨c • a.lin, c • a.ang⟩⟩

@[simp] theorem zero_lin : (0 : Force).lin = 0 := rfl
@[simp] theorem zero_ang : (0 : Force).ang = 0 := rfl
@[simp] theorem add_lin (a b : Force) : (a + b).lin = a.lin + b.lin := rfl
@[simp] theorem add_ang (a b : Force) : (a + b).ang = a.ang + b.ang := rfl
@[simp] theorem neg_lin (a : Force) : (-a).lin = -a.lin := rfl
@[simp] theorem neg_ang (a : Force) : (-a).ang = -a.ang := rfl
@[simp] theorem sub_lin (a b : Force) : (a - b).lin = a.lin - b.lin := rfl
@[simp] theorem sub_ang (a b : Force) : (a - b).ang = a.ang - b.ang := rfl
@[simp] theorem smul_lin (c : ℝ) (a : Force) : (c • a).lin = c • a.lin := rfl
@[simp] theorem smul_ang (c : ℝ) (a : Force) : (c • a).ang = c • a.ang := rfl

instance : AddCommGroup Force where
  add_assoc a b c := by ext <;> simp <;> ring
  zero_add a := by ext <;> simp
  add_zero a := by ext <;> simp
  add_comm a b := by ext <;> simp <;> ring
  neg_add_cancel a := by ext <;> simp
  sub_eq_add_neg a b := by ext <;> simp <;> ring
  nsmul := nsmulRec
  zsmul := zsmulRec

instance : Module ℝ Force where
  one_smul a := by ext <;> simp
  mul_smul c d a := by ext <;> simp <;> ring
  smul_zero c := by ext <;> simp
  smul_add c a b := by ext <;> simp
  add_smul c d a := by ext <;> simp <;> ring
  zero_smul a := by ext <;> simp

end Force

/-- `Transform * SpatialMotion` (spatial_motion_base.h 302-313): the angular rows are rotated
first, the linear rows use the rotated angular rows. -/
def Iso.actM (T : Iso) (m : Motion) : Motion :=
  let ang := T.R.mulVec m.ang
  ⟨T.R.mulVec m.lin - ang.cross T.t, ang⟩

/-- `Transform * SpatialForce` (spatial_force_base.h 292-303). -/
def Iso.actF (T : Iso) (f : Force) : Force :=
  let lin := T.R.mulVec f.lin
  ⟨lin, T.R.mulVec f.ang - lin.cross T.t⟩

/-- `Translation * SpatialMotion` (spatial_motion_base.h 293-300). -/
def transM (t : Vec3) (m : Motion) : Motion := ⟨m.lin - m.ang.cross t, m.ang⟩

/-- `Translation * SpatialForce` (spatial_force_base.h 283-290). -/
def transF (t : Vec3) (f : Force) : Force := ⟨f.lin, f.ang - f.lin.cross t⟩

/-- `SpatialMotion::dot(SpatialForce)` (spatial_motion_base.h 680-690). -/
def Motion.dot (m : Motion) (f : Force) : ℝ :=
  m.lin.x * f.lin.x + m.lin.y * f.lin.y + m.lin.z * f.lin.z +
    m.ang.x * f.ang.x + m.ang.y * f.ang.y + m.ang.z * f.ang.z

/-- `SpatialForce::dot(SpatialMotion)` (spatial_force_base.h 669-679). -/
def Force.dot (f : Force) (m : Motion) : ℝ :=
  f.lin.x * m.lin.x + f.lin.y * m.lin.y + f.lin.z * m.lin.z +
    f.ang.x * m.ang.x + f.ang.y * m.ang.y + f.ang.z * m.ang.z

/-- `SpatialMotion::cross(SpatialMotion)` (spatial_motion_base.h 692-709), written with the same
six coefficient expressions. -/
def Motion.crossM (l r : Motion) : Motion where
  lin := ⟨l.lin.y * r.ang.z - l.lin.z * r.ang.y + l.ang.y * r.lin.z - l.ang.z * r.lin.y,
          l.lin.z * r.ang.x - l.lin.x * r.ang.z + l.ang.z * r.lin.x - l.ang.x * r.lin.z,
          l.lin.x * r.ang.y - l.lin.y * r.ang.x + l.ang.x * r.lin.y - l.ang.y * r.lin.x⟩
  ang := ⟨l.ang.y * r.ang.z - l.ang.z * r.ang.y,
          l.ang.z * r.ang.x - l.ang.x * r.ang.z,
          l.ang.x * r.ang.y - l.ang.y * r.ang.x⟩

/-- `SpatialMotion::cross(SpatialForce)` (spatial_motion_base.h 710-727). -/
def Motion.crossF (l : Motion) (r : Force) : Force where
  lin := ⟨l.ang.y * r.lin.z - l.ang.z * r.lin.y,
          l.ang.z * r.lin.x - l.ang.x * r.lin.z,
          l.ang.x * r.lin.y - l.ang.y * r.lin.x⟩
  ang := ⟨l.lin.y * r.lin.z - l.lin.z * r.lin.y + l.ang.y * r.ang.z - l.ang.z * r.ang.y,
          l.lin.z * r.lin.x - l.lin.x * r.lin.z + l.ang.z * r.ang.x - l.ang.x * r.ang.z,
          l.lin.x * r.lin.y - l.lin.y * r.lin.x + l.ang.x * r.ang.y - l.ang.y * r.ang.x⟩

namespace Inertia

/-- Default constructed inertia (spatial_inertia.h 65-67). -/
instance : Zero Inertia := ⟨⟨0, 0, 0⟩⟩

/-- `SpatialInertia * SpatialMotion` (spatial_inertia.h 194-206). -/
def app (I : Inertia) (m : Motion) : Force :=
  let mc : Vec3 := I.mass • I.com
  ⟨I.mass • m.lin + m.ang.cross mc,
   I.Icom.mulVec m.ang - m.lin.cross mc - (m.ang.cross I.com).cross mc⟩

/-- `SpatialInertia::operator+` and `operator+=` (spatial_inertia.h 208-230).  The C++ divides by
`mass + other.mass`; when that is zero the C++ result is NaN, so statements about `add` carry the
hypothesis `AddDefined`. -/
noncomputable def add (a b : Inertia) : Inertia :=
  let com : Vec3 := (1 / (a.mass + b.mass)) • (a.mass • a.com + b.mass • b.com)
  { com := com
    Icom := a.Icom + b.Icom - a.mass • doubleCross (com - a.com) - b.mass • doubleCross (com - b.com)
    mass := a.mass + b.mass }

/-- The division in `operator+` is defined. -/
def AddDefined (a b : Inertia) : Prop := a.mass + b.mass ≠ 0

open Classical in
/-- `SpatialInertia::operator+` with the 0/0 outcome made explicit: `none` stands for the NaN centre
of mass produced by dividing by a zero total mass (spatial_inertia.h 211, 224). -/
noncomputable def add? (a b : Inertia) : Option Inertia :=
  if a.mass + b.mass = 0 then none else some (a.add b)

/-- `SpatialInertia::matrix()` and the `SpatialInertiaMatrix(SpatialInertia)` constructor
(spatial_inertia.h 242-261, 270-290). -/
def matrix (I : Inertia) : Mat6 :=
  let mcx := I.mass * I.com.x
  let mcy := I.mass * I.com.y
  let mcz := I.mass * I.com.z
  let Imcxx := I.Icom.m00 + I.mass * (I.com.y * I.com.y + I.com.z * I.com.z)
  let Imcyy := I.Icom.m11 + I.mass * (I.com.x * I.com.x + I.com.z * I.com.z)
  let Imczz := I.Icom.m22 + I.mass * (I.com.x * I.com.x + I.com.y * I.com.y)
  let Imcxy := I.Icom.m01 - I.mass * I.com.x * I.com.y
  let Imcxz := I.Icom.m02 - I.mass * I.com.x * I.com.z
  let Imcyz := I.Icom.m12 - I.mass * I.com.y * I.com.z
  { ll := ⟨I.mass, 0, 0, 0, I.mass, 0, 0, 0, I.mass⟩
    la := ⟨0, mcz, -mcy, -mcz, 0, mcx, mcy, -mcx, 0⟩
    al := ⟨0, -mcz, mcy, mcz, 0, -mcx, -mcy, mcx, 0⟩
    aa := ⟨Imcxx, Imcxy, Imcxz, Imcxy, Imcyy, Imcyz, Imcxz, Imcyz, Imczz⟩ }

/-- `SpatialInertia::I_com_flat()` (spatial_inertia.h 263-268): xx, yy, zz, xy, xz, yz. -/
def flat (I : Inertia) : ℝ × ℝ × ℝ × ℝ × ℝ × ℝ :=
  (I.Icom.m00, I.Icom.m11, I.Icom.m22, I.Icom.m01, I.Icom.m02, I.Icom.m12)

/-- Constructor from mass, com and the flat rotational inertia (spatial_inertia.h 161-174). -/
def ofFlat (m : ℝ) (c : Vec3) : ℝ × ℝ × ℝ × ℝ × ℝ × ℝ → Inertia
  | (i0, i1, i2, i3, i4, i5) => ⟨m, c, ⟨i0, i3, i4, i3, i1, i5, i4, i5, i2⟩⟩

/-- A physically meaningful inertia. -/
def Phys (I : Inertia) : Prop := 0 ≤ I.mass ∧ I.Icom.IsSymm ∧ I.Icom.PSD

end Inertia

/-- `Transform * SpatialInertia` (spatial_inertia.h 118-130). -/
def Iso.actI (T : Iso) (I : Inertia) : Inertia :=
  ⟨I.mass, T.app I.com, T.R * I.Icom * T.R.T⟩

/-- `Translation * SpatialInertia` (spatial_inertia.h 106-116). -/
def transI (t : Vec3) (I : Inertia) : Inertia := ⟨I.mass, t + I.com, I.Icom⟩

namespace Mat6

instance : Zero Mat6 := ⟨⟨0, 0, 0, 0⟩⟩
/-- `SpatialInertiaMatrix += SpatialInertiaMatrix` (spatial_inertia.h 306-312). -/
instance : Add Mat6 := ⟨fun a b => ⟨a.ll + b.ll, a.la + b.la, a.al + b.al, a.aa + b.aa⟩⟩
instance : Sub Mat6 := ⟨fun a b => ⟨a.ll - b.ll, a.la - b.la, a.al - b.al, a.aa - b.aa⟩⟩

/-- `SpatialInertiaMatrix * SpatialMotion` (spatial_inertia.h 292-297). -/
def app (A : Mat6) (m : Motion) : Force :=
  ⟨A.ll.mulVec m.lin + A.la.mulVec m.ang, A.al.mulVec m.lin + A.aa.mulVec m.ang⟩

/-- Outer product `h * h.transpose() / d` as used by the articulated-body recursion
(forward_dynamics.cc 82, 172; opspace_dynamics_aba.cc 57, 122): the 6x6 matrix of
`m ↦ (h · m / d) h`. -/
noncomputable def outerDiv (h : Force) (d : ℝ) : Mat6 where
  ll := ⟨h.lin.x * h.lin.x / d, h.lin.x * h.lin.y / d, h.lin.x * h.lin.z / d,
         h.lin.y * h.lin.x / d, h.lin.y * h.lin.y / d, h.lin.y * h.lin.z / d,
         h.lin.z * h.lin.x / d, h.lin.z * h.lin.y / d, h.lin.z * h.lin.z / d⟩
  la := ⟨h.lin.x * h.ang.x / d, h.lin.x * h.ang.y / d, h.lin.x * h.ang.z / d,
         h.lin.y * h.ang.x / d, h.lin.y * h.ang.y / d, h.lin.y * h.ang.z / d,
         h.lin.z * h.ang.x / d, h.lin.z * h.ang.y / d, h.lin.z * h.ang.z / d⟩
  al := ⟨h.ang.x * h.lin.x / d, h.ang.x * h.lin.y / d, h.ang.x * h.lin.z / d,
         h.ang.y * h.lin.x / d, h.ang.y * h.lin.y / d, h.ang.y * h.lin.z / d,
         h.ang.z * h.lin.x / d, h.ang.z * h.lin.y / d, h.ang.z * h.lin.z / d⟩
  aa := ⟨h.ang.x * h.ang.x / d, h.ang.x * h.ang.y / d, h.ang.x * h.ang.z / d,
         h.ang.y * h.ang.x / d, h.ang.y * h.ang.y / d, h.ang.y * h.ang.z / d,
         h.ang.z * h.ang.x / d, h.ang.z * h.ang.y / d, h.ang.z * h.ang.z / d⟩

end Mat6

/-- `Transform * SpatialInertiaMatrix` (spatial_inertia.h 143-159): the four in-place block
assignments, in order. -/
def Iso.actMat (T : Iso) (A : Mat6) : Mat6 :=
  -- leftCols = leftCols * R^T
  let ll := A.ll * T.R.T
  let al := A.al * T.R.T
  -- rightCols = rightCols * R^T - leftCols.rowwise().cross(t)
  let la := A.la * T.R.T - ll.rowCross T.t
  let aa := A.aa * T.R.T - al.rowCross T.t
  -- topRows = R * topRows
  let ll' := T.R * ll
  let la' := T.R * la
  -- bottomRows = R * bottomRows - topRows.colwise().cross(t)
  let al' := T.R * al - ll'.colCross T.t
  let aa' := T.R * aa - la'.colCross T.t
  ⟨ll', la', al', aa'⟩

/-- `Translation * SpatialInertiaMatrix` (spatial_inertia.h 132-141). -/
def transMat (t : Vec3) (A : Mat6) : Mat6 :=
  let la := A.la - A.ll.rowCross t
  let aa := A.aa - A.al.rowCross t
  ⟨A.ll, la, A.al - A.ll.colCross t, aa - la.colCross t⟩

end SpatialDyn
