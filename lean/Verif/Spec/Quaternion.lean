import Verif.Model.Quaternion
import Mathlib.Algebra.Quaternion
import Mathlib.Topology.Instances.Real.Lemmas

/-!
# What orientations given as quaternions should mean

The quaternions of Mathlib are the reference: a unit quaternion `q` turns the vector `v` into
`q v q*`.
-/

namespace SpatialDyn
open scoped Quaternion

/-- The same quaternion in Mathlib. -/
def Quat.toH (q : Quat) : ℍ[ℝ] := ⟨q.w, q.x, q.y, q.z⟩

/-- A vector as a quaternion without real part. -/
def Vec3.toH (v : Vec3) : ℍ[ℝ] := ⟨0, v.x, v.y, v.z⟩

/-- Unit quaternions. -/
def Quat.Unit (q : Quat) : Prop := q.w ^ 2 + q.x ^ 2 + q.y ^ 2 + q.z ^ 2 = 1

/-- The quaternion is a real number. -/
def Quat.IsReal (q : Quat) : Prop := q.x = 0 ∧ q.y = 0 ∧ q.z = 0

/-- The opposite quaternion. -/
def Quat.opp (q : Quat) : Quat := ⟨-q.w, -q.x, -q.y, -q.z⟩

/-- Squared distance of two points. -/
def Vec3.dist2 (a b : Vec3) : ℝ := (a.x - b.x) ^ 2 + (a.y - b.y) ^ 2 + (a.z - b.z) ^ 2

/-- The entries depend continuously on the parameter. -/
structure Quat.ContOn (f : ℝ → Quat) (S : Set ℝ) : Prop where
  w : ContinuousOn (fun s => (f s).w) S
  x : ContinuousOn (fun s => (f s).x) S
  y : ContinuousOn (fun s => (f s).y) S
  z : ContinuousOn (fun s => (f s).z) S

/-- Joints that turn. -/
def JType.Turns : JType → Prop
  | .rx => True
  | .ry => True
  | .rz => True
  | _ => False

end SpatialDyn
