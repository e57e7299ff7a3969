import Verif.Spec.Hold

/-!
# Calls of `Integrate` with torques that a program computes from the state
-/

namespace SpatialDyn.Body

/-- `n` calls of `Integrate`, each with the torques that `law` gives for the positions and velocities
before the call. -/
noncomputable def feedback (E : Ext) (law : List ℝ → List ℝ → ℕ → ℝ) (dt : ℝ) (fext : FExt) (o : IntOpts) :
    ℕ → Body → Out Body
  | 0, b => .ok b
  | n + 1, b => match feedback E law dt fext o n b with
    | .ok b1 => b1.integrate E (law b1.q b1.dq) dt fext o
    | .throws => .throws
    | .ub => .ub

end SpatialDyn.Body
