import Verif.Spec.Scheme
import Verif.Model.JointLimits

/-!
# Joints at their limits, and the quadratic program
-/

namespace SpatialDyn
open Finset

/-- `x` satisfies `A x ≤ b`, where `A` is given row by row. -/
def QpFeasible (m : ℕ) (A b : List ℝ) (x : ℕ → ℝ) : Prop :=
  ∀ i < m, ∑ j ∈ range m, A.getD (i * m + j) 0 * x j ≤ b.getD i 0

/-- The solver finds the shortest vector that satisfies the constraints, if any vector does. -/
def Qp.Exact (Q : Qp) : Prop :=
  ∀ (m : ℕ) (A b : List ℝ), (∃ x, QpFeasible m A b x) →
    QpFeasible m A b (fun j => (Q.run m A b).getD j 0) ∧
    ∀ y, QpFeasible m A b y → ∑ j ∈ range m, (Q.run m A b).getD j 0 ^ 2 ≤ ∑ j ∈ range m, y j ^ 2

namespace Body

/-- Joint `i` is at (or beyond) its upper limit at position `x`. -/
def AtMax (b : Body) (i : ℕ) (x : ℝ) : Prop := (b.rb i).joint.qMax.toEReal ≤ x

/-- Joint `i` is at (or beyond) its lower limit at position `x`. -/
def AtMin (b : Body) (i : ℕ) (x : ℝ) : Prop := (x : EReal) ≤ (b.rb i).joint.qMin.toEReal

/-- Joint `i` is at its upper limit (`s`), or else at its lower one (`¬ s`). -/
def AtLimit (b : Body) (i : ℕ) (x : ℝ) : Bool → Prop
  | true => b.AtMax i x
  | false => ¬ b.AtMax i x ∧ b.AtMin i x

/-- Only the joints `i` and `j` are at limits: `i` on the side `s`, `j` on the side `t`. -/
def TwoLimits (b : Body) (x : ℕ → ℝ) (i j : ℕ) (s t : Bool) : Prop :=
  i < b.dof ∧ j < b.dof ∧ b.AtLimit i (x i) s ∧ b.AtLimit j (x j) t ∧
    ∀ k < b.dof, k ≠ i → k ≠ j → ¬ b.AtMax k (x k) ∧ ¬ b.AtMin k (x k)

/-- The accelerations `u` are those that a unit torque at joint `j` adds. -/
def Response (b : Body) (j : ℕ) (u : ℕ → ℝ) : Prop :=
  ∀ l < b.dof, ∑ k ∈ range b.dof, b.inertia.1 l k * u k = if l = j then 1 else 0

/-- The accelerations `a` move no joint at a limit further out (a joint between equal limits is
treated as at its upper one). -/
def NoPush (b : Body) (x : ℕ → ℝ) (a : ℕ → ℝ) : Prop :=
  ∀ i < b.dof, (b.AtMax i (x i) → a i ≤ 0) ∧ (¬ b.AtMax i (x i) → b.AtMin i (x i) → 0 ≤ a i)

/-- `f` is zero at the joints that are not at a limit. -/
def OnlyStops (b : Body) (x : ℕ → ℝ) (f : ℕ → ℝ) : Prop :=
  ∀ i < b.dof, ¬ b.AtMax i (x i) → ¬ b.AtMin i (x i) → f i = 0

/-- No two joints are at limits on different sides. -/
def OneSided (b : Body) (x : ℕ → ℝ) : Prop :=
  (∀ i < b.dof, b.AtMin i (x i) → b.AtMax i (x i)) ∨ ∀ i < b.dof, ¬ b.AtMax i (x i)

end Body
end SpatialDyn
