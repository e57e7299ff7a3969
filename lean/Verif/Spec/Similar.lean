import Verif.Spec.Alike
import Verif.Spec.Traj

/-!
# Mirror images, and other units of length

A similarity multiplies lengths by `ℓ` and turns around some of the coordinate axes.  `φ.Similar b b'`:
`b'` is the image of `b`, link frames and all.  With one or three axes turned around it is a mirror image.
-/

namespace SpatialDyn

/-- Lengths times `ℓ`, coordinates times the signs `s`. -/
structure Similarity where
  ℓ : ℝ
  s : Vec3
  pos : 0 < ℓ
  sx : s.x = 1 ∨ s.x = -1
  sy : s.y = 1 ∨ s.y = -1
  sz : s.z = 1 ∨ s.z = -1

namespace Similarity
variable (φ : Similarity)

/-- `1`, or `-1` for a mirror image. -/
def hand : ℝ := φ.s.x * φ.s.y * φ.s.z

/-- A direction. -/
def dir (v : Vec3) : Vec3 := ⟨φ.s.x * v.x, φ.s.y * v.y, φ.s.z * v.z⟩

/-- A place, a linear velocity or acceleration, or a force. -/
def vec (v : Vec3) : Vec3 := φ.ℓ • φ.dir v

/-- A velocity: what turns clockwise turns counterclockwise in a mirror. -/
def motion (m : Motion) : Motion := ⟨φ.vec m.lin, φ.hand • φ.dir m.ang⟩

/-- A force with its moment. -/
def force (f : Force) : Force := ⟨φ.vec f.lin, (φ.ℓ ^ 2 * φ.hand) • φ.dir f.ang⟩

/-- An orientation: the image of the direction `R v` is `R'` applied to the image of `v`. -/
def rot (R : Mat3) : Mat3 :=
  ⟨φ.s.x * R.m00 * φ.s.x, φ.s.x * R.m01 * φ.s.y, φ.s.x * R.m02 * φ.s.z,
   φ.s.y * R.m10 * φ.s.x, φ.s.y * R.m11 * φ.s.y, φ.s.y * R.m12 * φ.s.z,
   φ.s.z * R.m20 * φ.s.x, φ.s.z * R.m21 * φ.s.y, φ.s.z * R.m22 * φ.s.z⟩

/-- A pose. -/
def pose (T : Iso) : Iso := ⟨φ.rot T.R, φ.vec T.t⟩

/-- The same mass, at the image of its place. -/
def inertia (I : Inertia) : Inertia := ⟨I.mass, φ.vec I.com, φ.ℓ ^ 2 • φ.rot I.Icom⟩

/-- What the position of a joint is multiplied by: `ℓ` if it slides, and `-1` if the image moves
backwards. -/
def gain : JType → ℝ
  | .rx => φ.s.y * φ.s.z
  | .ry => φ.s.x * φ.s.z
  | .rz => φ.s.x * φ.s.y
  | .px => φ.ℓ * φ.s.x
  | .py => φ.ℓ * φ.s.y
  | .pz => φ.ℓ * φ.s.z
  | .undefined => 1

/-- What the position of joint `i` is multiplied by. -/
def joint (b : Body) (i : ℕ) : ℝ := φ.gain (b.rb i).joint.type

/-- See the header comment. -/
structure Similar (b b' : Body) : Prop where
  dof : b'.dof = b.dof
  parent : ∀ i < b.dof, (b'.rb i).idParent = (b.rb i).idParent
  pose : ∀ i < b.dof, (b'.rb i).T = φ.pose (b.rb i).T
  type : ∀ i < b.dof, (b'.rb i).joint.type = (b.rb i).joint.type
  axes : b.AxesOK
  axes' : b'.AxesOK
  total : ∀ i < b.dof, b'.totalInertia i = φ.inertia (b.totalInertia i)
  q : ∀ i < b.dof, b'.q.getD i 0 = φ.joint b i * b.q.getD i 0
  dq : ∀ i < b.dof, b'.dq.getD i 0 = φ.joint b i * b.dq.getD i 0
  g : b'.g = φ.vec b.g
  T0 : b'.T0 = φ.pose b.T0

end Similarity
end SpatialDyn
