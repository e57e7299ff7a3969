import Verif.Spec.Feedback

/-!
# Calls of `Integrate` with torques that a program computes from the time and the state
-/

namespace SpatialDyn.Body

/-- `n` calls of `Integrate`, each with the torques that `law` gives for the time, positions and velocities
before the call. -/
noncomputable def pursuit (E : Ext) (law : ℝ → List ℝ → List ℝ → ℕ → ℝ) (dt : ℝ) (fext : FExt) (o : IntOpts) :
    ℕ → Body → Out Body
  | 0, b => .ok b
  | n + 1, b => match pursuit E law dt fext o n b with
    | .ok b1 => b1.integrate E (law (n * dt) b1.q b1.dq) dt fext o
    | .throws => .throws
    | .ub => .ub

end SpatialDyn.Body
