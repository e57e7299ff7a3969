import Verif.Spec.Scheme
import Mathlib.Analysis.Calculus.Deriv.Basic

/-!
# Motions of a body, and repeated integration

A motion is a curve of states whose velocity is the rate of the positions and whose acceleration is
what forward dynamics answers for a body put in that state.
-/

namespace SpatialDyn

open Set

/-- The order of accuracy expected of a method. -/
def Method.order : Method → ℕ
  | .euler => 1
  | .heuns => 2
  | .rk4 => 4

namespace Body

/-- Forward dynamics as selected by the options of `Integrate`. -/
noncomputable def acceleration (E : Ext) (b : Body) (tau : ℕ → ℝ) (fext : FExt) (o : IntOpts) :
    ℕ → ℝ :=
  if o.aba then (b.forwardDynamicsAba tau fext ⟨o.gravity, o.cc, o.friction, o.eps⟩).1
  else (b.fd E tau fext ⟨o.gravity, o.cc, o.friction, o.eps⟩).1

/-- `(q, dq)` is a motion of `b` during `[0, T]` under torques `tau` and external forces `fext`: `B t`
is `b` after `set_q(q(t))` and `set_dq(dq(t))`. -/
def Moves (E : Ext) (b : Body) (tau : ℕ → ℝ) (fext : FExt) (o : IntOpts) (T : ℝ)
    (q dq : ℝ → List ℝ) : Prop :=
  ∀ t ∈ Icc 0 T, ∃ b1 B, b.setQ (q t) = .ok b1 ∧ b1.setDq (dq t) = .ok B ∧ ∀ i < b.dof,
    HasDerivWithinAt (fun s => (q s).getD i 0) ((dq t).getD i 0) (Icc 0 T) t ∧
    HasDerivWithinAt (fun s => (dq s).getD i 0) (B.acceleration E tau fext o i) (Icc 0 T) t

/-- `n` calls of `Integrate` with the same arguments. -/
noncomputable def steps (E : Ext) (tau : ℕ → ℝ) (dt : ℝ) (fext : FExt) (o : IntOpts) :
    ℕ → Body → Out Body
  | 0, b => .ok b
  | n + 1, b => match steps E tau dt fext o n b with
    | .ok b1 => b1.integrate E tau dt fext o
    | .throws => .throws
    | .ub => .ub

end Body
end SpatialDyn
