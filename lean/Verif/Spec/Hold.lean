import Verif.Spec.Flow

/-!
# Motions under torques that vary with time, and calls with torques of their own
-/

namespace SpatialDyn
open Set

namespace Body

/-- `(q, dq)` is a motion of `b` during `[0, T]` under torques `tau t` at time `t`. -/
def MovesWith (E : Ext) (b : Body) (tau : ℝ → ℕ → ℝ) (fext : FExt) (o : IntOpts) (T : ℝ)
    (q dq : ℝ → List ℝ) : Prop :=
  ∀ t ∈ Icc 0 T, ∃ b1 B, b.setQ (q t) = .ok b1 ∧ b1.setDq (dq t) = .ok B ∧ ∀ i < b.dof,
    HasDerivWithinAt (fun s => (q s).getD i 0) ((dq t).getD i 0) (Icc 0 T) t ∧
    HasDerivWithinAt (fun s => (dq s).getD i 0) (B.acceleration E (tau t) fext o i) (Icc 0 T) t

/-- `n` calls of `Integrate`, the `k`-th with torques `u k`. -/
noncomputable def drive (E : Ext) (u : ℕ → ℕ → ℝ) (dt : ℝ) (fext : FExt) (o : IntOpts) :
    ℕ → Body → Out Body
  | 0, b => .ok b
  | n + 1, b => match drive E u dt fext o n b with
    | .ok b1 => b1.integrate E (u n) dt fext o
    | .throws => .throws
    | .ub => .ub

/-- Torques that do not jump. -/
def Steady (n : ℕ) (T : ℝ) (tau : ℝ → ℕ → ℝ) : Prop :=
  ∃ L : ℝ, ∀ s ∈ Icc 0 T, ∀ t ∈ Icc 0 T, ∀ i < n, |tau s i - tau t i| ≤ L * |s - t|

end Body
end SpatialDyn
