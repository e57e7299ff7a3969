import Verif.Spec.Mechanics
import Mathlib.Data.Fin.VecNotation

/-!
# The ten inertial parameters of a link

Mass, first moments and second moments about the origin of the link frame: what an experiment with a
robot of known geometry tries to find out.
-/

namespace SpatialDyn

/-- Mass, mass times centre of mass, and the moments and products of inertia about the origin. -/
def Inertia.params (I : Inertia) : Fin 10 → ℝ :=
  ![I.mass, I.mass * I.com.x, I.mass * I.com.y, I.mass * I.com.z,
    I.Icom.m00 + I.mass * (I.com.y ^ 2 + I.com.z ^ 2),
    I.Icom.m11 + I.mass * (I.com.x ^ 2 + I.com.z ^ 2),
    I.Icom.m22 + I.mass * (I.com.x ^ 2 + I.com.y ^ 2),
    I.Icom.m01 - I.mass * (I.com.x * I.com.y),
    I.Icom.m02 - I.mass * (I.com.x * I.com.z),
    I.Icom.m12 - I.mass * (I.com.y * I.com.z)]

namespace Body

/-- The parameters of a link together with its load. -/
noncomputable def params (b : Body) (k : ℕ) : Fin 10 → ℝ := ((b.parts k).map Inertia.params).sum

/-- The same links, joints, state, gravity and base; masses, inertias, loads and friction may differ. -/
structure SameGeometry (b b' : Body) : Prop where
  dof : b'.dof = b.dof
  parent : ∀ i < b.dof, (b'.rb i).idParent = (b.rb i).idParent
  T : ∀ i < b.dof, (b'.rb i).T = (b.rb i).T
  type : ∀ i < b.dof, (b'.rb i).joint.type = (b.rb i).joint.type
  axis : ∀ i < b.dof, (b'.rb i).joint.subspace = (b.rb i).joint.subspace
  q : b'.q = b.q
  dq : b'.dq = b.dq
  g : b'.g = b.g
  T0 : b'.T0 = b.T0

end Body
end SpatialDyn
