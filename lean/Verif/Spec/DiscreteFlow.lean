import Verif.Spec.Flow
import Verif.Spec.Discrete

/-! Repeated calls of the variational integrator. -/

namespace SpatialDyn.Body

/-- `n` calls of `discrete::Integrate` with the same arguments. -/
noncomputable def dsteps (E : Ext) (tau : ℕ → ℝ) (dt : ℝ) (fext : FExt) (o : DIntOpts) :
    ℕ → Body → Out Body
  | 0, b => .ok b
  | n + 1, b => match dsteps E tau dt fext o n b with
    | .ok b1 => b1.discreteIntegrate E tau dt fext o
    | .throws => .throws
    | .ub => .ub

/-- `(q, dq)` is what a motion of `b` during `[0, T]` would be if every acceleration were `s` times what
forward dynamics answers: `B t` is `b` after `set_q(q(t))` and `set_dq(dq(t))`. -/
def MovesBy (s : ℝ) (E : Ext) (b : Body) (tau : ℕ → ℝ) (fext : FExt) (o : IntOpts) (T : ℝ)
    (q dq : ℝ → List ℝ) : Prop :=
  ∀ t ∈ Set.Icc 0 T, ∃ b1 B, b.setQ (q t) = .ok b1 ∧ b1.setDq (dq t) = .ok B ∧ ∀ i < b.dof,
    HasDerivWithinAt (fun r => (q r).getD i 0) ((dq t).getD i 0) (Set.Icc 0 T) t ∧
    HasDerivWithinAt (fun r => (dq r).getD i 0) (s * B.acceleration E tau fext o i) (Set.Icc 0 T) t

end SpatialDyn.Body
