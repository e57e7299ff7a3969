import Verif.Model.Kinematics

/-!
# `LinearJacobian(ab, q, link, offset)`
-/

namespace SpatialDyn.Body

/-- `LinearJacobian(ab, q, link, offset)` (`forward_kinematics.cc:118-121`). -/
noncomputable def linearJacobianQ (b : Body) (q : ℕ → ℝ) (link : ℤ) (offset : Vec3) : Out (ℕ → Vec3) :=
  (b.jacobianQ q link offset).bind fun J => .ok fun i => (J i).lin

end SpatialDyn.Body
