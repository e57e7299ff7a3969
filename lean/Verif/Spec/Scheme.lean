import Verif.Model.Machine
import Mathlib.Data.EReal.Basic
import Mathlib.Algebra.Module.Prod
import Mathlib.Algebra.Module.Pi

/-!
# One-step methods, as in the textbooks

Explicit Runge-Kutta methods for `y' = F y` in any real vector space, with a projection `flt` applied
to every new state (`id` when there is none), and what it means to respect joint limits.
-/

namespace SpatialDyn

section RK
variable {V : Type*} [AddCommGroup V] [Module ℝ V]

/-- `Σ_j a_j k_j`. -/
def lin : List ℝ → List V → V
  | a :: as, k :: ks => a • k + lin as ks
  | _, _ => 0

/-- Slopes at the stages: each row of coefficients gives the next stage from the slopes so far. -/
def rkSlopes (F flt : V → V) (dt : ℝ) (y : V) : List (List ℝ) → List V → List V
  | [], ks => ks
  | row :: rows, ks => rkSlopes F flt dt y rows (ks ++ [F (flt (y + dt • lin row ks))])

/-- One step with the given rows (those after the first stage) and weights. -/
def rkStep (rows : List (List ℝ)) (weights : List ℝ) (F flt : V → V) (dt : ℝ) (y : V) : V :=
  flt (y + dt • lin weights (rkSlopes F flt dt y rows [F y]))

/-- Heun's method. -/
noncomputable def heun (F flt : V → V) (dt : ℝ) (y : V) : V :=
  rkStep [[1]] [1 / 2, 1 / 2] F flt dt y

/-- The classical fourth-order method. -/
noncomputable def rk4 (F flt : V → V) (dt : ℝ) (y : V) : V :=
  rkStep [[1 / 2], [0, 1 / 2], [0, 0, 1]] [1 / 6, 1 / 3, 1 / 3, 1 / 6] F flt dt y

end RK

/-- Positions and velocities of `n` joints. -/
abbrev State (n : ℕ) := (Fin n → ℝ) × (Fin n → ℝ)

/-- Second-order Taylor step for the positions, Euler step for the velocities (what `kEuler` names). -/
noncomputable def taylor {n : ℕ} (F flt : State n → State n) (dt : ℝ) (y : State n) : State n :=
  flt (y.1 + dt • y.2 + (dt ^ 2 / 2) • (F y).2, y.2 + dt • (F y).2)

/-- A `double` as an extended real (NaN excluded by the users of this function). -/
noncomputable def Dbl.toEReal : Dbl → EReal
  | .nan => 0
  | .ninf => ⊥
  | .fin r => (r : EReal)
  | .pinf => ⊤

/-- Limits that leave room for a real position. -/
structure Joint.LimitsOK (j : Joint) : Prop where
  min_nan : j.qMin ≠ .nan
  max_nan : j.qMax ≠ .nan
  min_top : j.qMin.toEReal ≠ ⊤
  max_bot : j.qMax.toEReal ≠ ⊥
  le : j.qMin.toEReal ≤ j.qMax.toEReal

/-- The position `x` is within the limits. -/
def Joint.Within (j : Joint) (x : ℝ) : Prop := j.qMin.toEReal ≤ x ∧ (x : EReal) ≤ j.qMax.toEReal

/-- The velocity `v` does not push a joint at a limit further. -/
def Joint.NotOutward (j : Joint) (x v : ℝ) : Prop :=
  ((x : EReal) = j.qMax.toEReal → v ≤ 0) ∧ ((x : EReal) = j.qMin.toEReal → 0 ≤ v)

/-- Nearest legal position. -/
noncomputable def Joint.clamp (j : Joint) (x : ℝ) : ℝ :=
  (max j.qMin.toEReal (min j.qMax.toEReal x)).toReal

open Classical in
/-- Nearest velocity that is not outward at position `x`. -/
noncomputable def Joint.brake (j : Joint) (x v : ℝ) : ℝ :=
  if (x : EReal) = j.qMax.toEReal ∧ (x : EReal) = j.qMin.toEReal then 0
  else if (x : EReal) = j.qMax.toEReal then min v 0
  else if (x : EReal) = j.qMin.toEReal then max v 0
  else v

namespace Body

/-- Positions and velocities. -/
def state (b : Body) : State b.dof := (fun i => b.q.getD i 0, fun i => b.dq.getD i 0)

/-- The same body in another state and with cache contents `c`. -/
def inState (b : Body) (c : Cache) (y : State b.dof) : Body :=
  { b with q := List.ofFn y.1, dq := List.ofFn y.2, c := c }

/-- The equations of motion `(q, dq)' = (dq, ForwardDynamics)`, each acceleration asked from a body
with cache contents `c`. -/
noncomputable def field (E : Ext) (b : Body) (c : Cache) (tau : ℕ → ℝ) (fext : FExt) (o : IntOpts)
    (y : State b.dof) : State b.dof :=
  (y.2, fun i =>
    if o.aba then
      ((b.inState c y).forwardDynamicsAba tau fext ⟨o.gravity, o.cc, o.friction, o.eps⟩).1 i
    else ((b.inState c y).fd E tau fext ⟨o.gravity, o.cc, o.friction, o.eps⟩).1 i)

/-- Nearest legal state: positions first, then velocities. -/
noncomputable def limit (b : Body) (y : State b.dof) : State b.dof :=
  (fun i => (b.rb i).joint.clamp (y.1 i),
   fun i => (b.rb i).joint.brake ((b.rb i).joint.clamp (y.1 i)) (y.2 i))

/-- The method selected by the options. -/
noncomputable def scheme {n : ℕ} (m : Method) : (F flt : State n → State n) → ℝ → State n → State n :=
  match m with
  | .euler => taylor
  | .heuns => heun
  | .rk4 => rk4

end Body
end SpatialDyn
