import Verif.Model.Kinematics
import Mathlib.Analysis.SpecialFunctions.Sqrt

/-!
# Orientations as quaternions

`set_T_to_parent(ori, pos)` and `set_T_base_to_world(ori, pos)` take an orientation, usually an
`Eigen::Quaterniond`, and the functions `Orientation` answer with one.  The conversions between
quaternions and matrices are Eigen's (`Eigen/src/Geometry/Quaternion.h`, an external library; they are
written out here from its documentation and source).  Scalars are real numbers.
-/

namespace SpatialDyn

/-- `Eigen::Quaterniond`. -/
@[ext] structure Quat where
  w : ℝ
  x : ℝ
  y : ℝ
  z : ℝ

namespace Quat

/-- `squaredNorm()`. -/
def norm2 (q : Quat) : ℝ := q.w * q.w + q.x * q.x + q.y * q.y + q.z * q.z

/-- `toRotationMatrix()`: no normalisation. -/
def toRot (q : Quat) : Mat3 where
  m00 := 1 - (2 * q.y * q.y + 2 * q.z * q.z)
  m01 := 2 * q.y * q.x - 2 * q.z * q.w
  m02 := 2 * q.z * q.x + 2 * q.y * q.w
  m10 := 2 * q.y * q.x + 2 * q.z * q.w
  m11 := 1 - (2 * q.x * q.x + 2 * q.z * q.z)
  m12 := 2 * q.z * q.y - 2 * q.x * q.w
  m20 := 2 * q.z * q.x - 2 * q.y * q.w
  m21 := 2 * q.z * q.y + 2 * q.x * q.w
  m22 := 1 - (2 * q.x * q.x + 2 * q.y * q.y)

open Classical in
/-- The number whose root `Quaterniond(Matrix3d)` takes, and divides by. -/
noncomputable def pivot (R : Mat3) : ℝ :=
  if 0 < R.m00 + R.m11 + R.m22 then R.m00 + R.m11 + R.m22 + 1
  else if R.m00 < R.m11 then
    if R.m11 < R.m22 then R.m22 - R.m00 - R.m11 + 1 else R.m11 - R.m22 - R.m00 + 1
  else if R.m00 < R.m22 then R.m22 - R.m00 - R.m11 + 1
  else R.m00 - R.m11 - R.m22 + 1

open Classical in
/-- `Quaterniond(Matrix3d)` (`quaternionbase_assign_impl`). -/
noncomputable def ofRot (R : Mat3) : Quat :=
  let t := Real.sqrt (pivot R)
  let k := 0.5 / t
  let byX : Quat := ⟨(R.m21 - R.m12) * k, 0.5 * t, (R.m10 + R.m01) * k, (R.m20 + R.m02) * k⟩
  let byY : Quat := ⟨(R.m02 - R.m20) * k, (R.m01 + R.m10) * k, 0.5 * t, (R.m21 + R.m12) * k⟩
  let byZ : Quat := ⟨(R.m10 - R.m01) * k, (R.m02 + R.m20) * k, (R.m12 + R.m21) * k, 0.5 * t⟩
  if 0 < R.m00 + R.m11 + R.m22 then
    ⟨0.5 * t, (R.m21 - R.m12) * k, (R.m02 - R.m20) * k, (R.m10 - R.m01) * k⟩
  else if R.m00 < R.m11 then
    if R.m11 < R.m22 then byZ else byY
  else if R.m00 < R.m22 then byZ
  else byX

/-- `operator*`. -/
def mul (a b : Quat) : Quat where
  w := a.w * b.w - a.x * b.x - a.y * b.y - a.z * b.z
  x := a.w * b.x + a.x * b.w + a.y * b.z - a.z * b.y
  y := a.w * b.y + a.y * b.w + a.z * b.x - a.x * b.z
  z := a.w * b.z + a.z * b.w + a.x * b.y - a.y * b.x

open Classical in
/-- `inverse()`: the zero quaternion for the zero quaternion. -/
noncomputable def inv (q : Quat) : Quat :=
  if 0 < q.norm2 then ⟨q.w / q.norm2, -q.x / q.norm2, -q.y / q.norm2, -q.z / q.norm2⟩ else ⟨0, 0, 0, 0⟩

/-- `dot`. -/
def dot (a b : Quat) : ℝ := a.w * b.w + a.x * b.x + a.y * b.y + a.z * b.z

open Classical in
/-- `ctrl_utils::NearQuaternion(quat, quat_reference)` (external): of the two quaternions of the
rotation the one on the side of the reference. -/
noncomputable def near (q r : Quat) : Quat :=
  if q.dot r < 0 then ⟨-q.w, -q.x, -q.y, -q.z⟩ else q

end Quat

/-- `RigidBody::set_T_to_parent(ori_in_parent, pos_in_parent)` with a quaternion
(`rigid_body.h:97-101`). -/
def RB.setTToParentOri (r : RB) (ori : Quat) (pos : Vec3) : RB := { r with T := ⟨ori.toRot, pos⟩ }

namespace Body

/-- `set_T_base_to_world(ori_in_world, pos_in_world)` with a quaternion
(`articulated_body.h:232-236`). -/
def setBaseOri (b : Body) (ori : Quat) (pos : Vec3) : Body := b.setBase ⟨ori.toRot, pos⟩

/-- `Orientation(ab, link)` (`forward_kinematics.cc:32-35`), with the conversion to a quaternion. -/
noncomputable def orientationQuat (b : Body) (link : ℤ) : Out (Quat × Body) :=
  (b.orientation link).bind fun r => .ok (Quat.ofRot r.1, r.2)

/-- `Orientation(ab, q, link)` (`forward_kinematics.cc:37-45`), with the conversion. -/
noncomputable def orientationQuatQ (b : Body) (q : ℕ → ℝ) (link : ℤ) : Out Quat :=
  (b.orientationQ q link).bind fun R => .ok (Quat.ofRot R)

end Body
end SpatialDyn
