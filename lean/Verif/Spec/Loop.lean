import Verif.Spec.Flow
import Verif.Model.Control

/-!
# A controller in the loop

A controller reads the body and answers torques (and a flag or a status word, and the body as it
leaves it).
-/

namespace SpatialDyn

open Set

/-- What the controllers answer. -/
abbrev Answer (α : Type) := ((ℕ → ℝ) × α) × Body

namespace Body

/-- `(q, dq)` is a motion of `b` during `[0, T]` under the torques that `ctl` answers, at every time,
for the body `B` put in the current state. -/
def Driven (E : Ext) (b : Body) {α : Type} (ctl : Body → Out (Answer α)) (o : IntOpts) (T : ℝ)
    (q dq : ℝ → List ℝ) : Prop :=
  ∀ t ∈ Icc 0 T, ∃ b1 B r, b.setQ (q t) = .ok b1 ∧ b1.setDq (dq t) = .ok B ∧ ctl B = .ok r ∧
    ∀ i < b.dof,
      HasDerivWithinAt (fun s => (q s).getD i 0) ((dq t).getD i 0) (Icc 0 T) t ∧
      HasDerivWithinAt (fun s => (dq s).getD i 0) (B.acceleration E r.1.1 noExt o i) (Icc 0 T) t

/-- `n` calls of a controller that moves the body itself. -/
def calls {α : Type} (ctl : Body → Out (Answer α)) : ℕ → Body → Out Body
  | 0, b => .ok b
  | n + 1, b => match calls ctl n b with
    | .ok b1 => match ctl b1 with
      | .ok r => .ok r.2
      | .throws => .throws
      | .ub => .ub
    | .throws => .throws
    | .ub => .ub

/-- Positions within `ρ` of the goal and velocities within `ρ` of zero. -/
def Near (n : ℕ) (goal q dq : List ℝ) (ρ : ℝ) : Prop :=
  ∀ i < n, |q.getD i 0 - goal.getD i 0| ≤ ρ ∧ |dq.getD i 0| ≤ ρ

end Body
end SpatialDyn
