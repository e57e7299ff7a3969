import Verif.Spec.DiscreteAction
import Mathlib.MeasureTheory.Integral.IntervalIntegral.Basic

/-!
# Circulation of the momenta around a loop of motions

A loop of motions is a closed one-parameter family of initial states of a robot, each followed for
the same number of steps.  Hamiltonian flows keep the integral of `p · dq` around such a loop
(Poincaré's integral invariant); a step map that does is symplectic.
-/

namespace SpatialDyn
namespace Body

/-- Momentum of joint `i` at the end of a step from `u` to `w`: how the action of the step depends on
its position there. -/
noncomputable def endMomentum (E : Ext) (b : Body) (dt : ℝ) (grav : Bool) (u w : ℕ → ℝ) (i : ℕ) : ℝ :=
  deriv (fun x => b.stepAction E dt grav u (Function.update w i x)) (w i)

/-- Circulation of the momenta at the ends `w` of the steps from `u` to `w` around the loop. -/
noncomputable def circulation (E : Ext) (b : Body) (dt : ℝ) (grav : Bool) (u w : ℝ → ℕ → ℝ) : ℝ :=
  ∫ s in (0 : ℝ)..1, ∑ i ∈ Finset.range b.dof,
    b.endMomentum E dt grav (u s) (w s) i * deriv (fun s => w s i) s

/-- Length of a loop of configurations, as the sum over the joints. -/
noncomputable def loopLength (b : Body) (w : ℝ → ℕ → ℝ) : ℝ :=
  ∫ s in (0 : ℝ)..1, ∑ i ∈ Finset.range b.dof, |deriv (fun s => w s i) s|

end Body
end SpatialDyn
