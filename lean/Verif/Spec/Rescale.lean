import Verif.Spec.Alike

/-!
# The same robot in other units of mass and time

`Rescaled c v γ b b'`: the tree, joints, configuration and base pose are the same; every link with
its load weighs `c` times as much, moves `v` times as fast, and gravity is `γ` times as strong.
-/

namespace SpatialDyn

/-- The same distribution of mass, `c` times as heavy. -/
def Inertia.scale (c : ℝ) (I : Inertia) : Inertia := ⟨c * I.mass, I.com, c • I.Icom⟩

/-- See the header comment. -/
structure Body.Rescaled (c v γ : ℝ) (b b' : Body) : Prop where
  dof : b'.dof = b.dof
  parent : ∀ i < b.dof, (b'.rb i).idParent = (b.rb i).idParent
  pose : ∀ i < b.dof, (b'.rb i).T = (b.rb i).T
  joint : ∀ i < b.dof, (b'.rb i).joint = (b.rb i).joint
  total : ∀ i < b.dof, b'.totalInertia i = (b.totalInertia i).scale c
  q : ∀ i < b.dof, b'.q.getD i 0 = b.q.getD i 0
  dq : ∀ i < b.dof, b'.dq.getD i 0 = v * b.dq.getD i 0
  g : b'.g = γ • b.g
  T0 : b'.T0 = b.T0

end SpatialDyn
