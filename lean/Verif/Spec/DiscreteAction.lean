import Verif.Spec.Discrete
import Verif.Props.Energy

/-!
# The action of a discrete path

Between two configurations a step of length `dt` apart every link is taken to move with the constant
velocity that leads from one pose to the other; the potential energy is that of the first
configuration.  The action of a path is the sum over its steps.
-/

namespace SpatialDyn
namespace Body

/-- Velocity of link `k`, in its own frame, over a step from `u` to `w`. -/
noncomputable def stepVel (E : Ext) (b : Body) (dt : ℝ) (u w : ℕ → ℝ) (k : ℕ) : Motion :=
  (1 / dt) • E.log (b.disp u w k)

/-- Kinetic less potential energy over a step from `u` to `w`, times its length. -/
noncomputable def stepAction (E : Ext) (b : Body) (dt : ℝ) (grav : Bool) (u w : ℕ → ℝ) : ℝ :=
  dt * (∑ k ∈ Finset.range b.dof,
      1 / 2 * (b.stepVel E dt u w k).dot (b.linkMomentum k (b.stepVel E dt u w k))) -
    dt * (if grav then b.potential fun k x => (b.twAt u k).app x else 0)

/-- Action of the path `X 0, X 1, …, X N`. -/
noncomputable def pathAction (E : Ext) (b : Body) (dt : ℝ) (grav : Bool) (N : ℕ)
    (X : ℕ → ℕ → ℝ) : ℝ :=
  ∑ n ∈ Finset.range N, b.stepAction E dt grav (X n) (X (n + 1))

end Body
end SpatialDyn
