import Verif.Model.Simulation
import Mathlib.Algebra.BigOperators.Group.Finset.Basic

/-!
# Simulation in the build with `JOINT_LIMITS` (`src/algorithms/simulation.cc:20-77`)

`JOINT_LIMITS` is not defined anywhere in the repository; this is the library as it is when the symbol
is defined by whoever builds it.  The solver (qpOASES) is a parameter.
-/

namespace SpatialDyn

/-- `qpOASES::QProblem(m, m, HST_IDENTITY)` with `init` and `getPrimalSolution`
(`simulation.cc:69-73`): from the `m * m` numbers found at the address of the constraint matrix and the
`m` upper bounds, the contents of the array of the primal solution.  The library documents that
it reads the matrix row by row. -/
structure Qp where
  run : (m : ℕ) → (A b : List ℝ) → List ℝ

/-- `A.data()` of an `Eigen::MatrixXd`, which is stored column by column. -/
def colMajor (m : ℕ) (A : ℕ → ℕ → ℝ) : List ℝ :=
  (List.range (m * m)).map fun k => A (k % m) (k / m)

namespace Body
variable (E : Ext) (Q : Qp)

open Classical in
/-- `idx_limits` and `is_max` (`simulation.cc:31-39`). -/
noncomputable def limited (b : Body) : List (ℕ × Bool) :=
  (List.range b.dof).filterMap fun i =>
    if (b.rb i).joint.qMax.Le (.fin (b.q.getD i 0)) then some (i, true)
    else if (Dbl.fin (b.q.getD i 0)).Le (b.rb i).joint.qMin then some (i, false)
    else none

/-- Column `j` of `ddq_impulse_hat` (`simulation.cc:44-51`): the accelerations caused by a unit torque
at the `j`-th joint of the list, from the matrix `A` that `InertiaInverse` has factorised. -/
noncomputable def impulseHat (n : ℕ) (A : ℕ → ℕ → ℝ) (L : List (ℕ × Bool)) (i j : ℕ) : ℝ :=
  E.solve n A (fun k => if k = (L.getD j (0, false)).1 then 1 else 0) i

/-- `coeff` (`simulation.cc:61`). -/
def limitSign (L : List (ℕ × Bool)) (i : ℕ) : ℝ := if (L.getD i (0, false)).2 then 1 else -1

/-- `JointLimitImpulse` (`simulation.cc:29-76`). -/
noncomputable def limitImpulse (b : Body) (ddq : ℕ → ℝ) : (ℕ → ℝ) × Body :=
  let L := b.limited
  let m := L.length
  if m = 0 then (fun _ => 0, b)
  else
    let s := b.inertiaInverse
    let hat := impulseHat E b.dof s.1 L
    let A : ℕ → ℕ → ℝ := fun i j => limitSign L i * hat (L.getD i (0, false)).1 j
    let x := Q.run m (colMajor m A)
      ((List.range m).map fun i => -limitSign L i * ddq (L.getD i (0, false)).1)
    (fun i => ∑ j ∈ Finset.range m, hat i j * x.getD j 0, s.2)

/-- The acceleration of one stage with `JOINT_LIMITS` (`simulation.cc:131,143` and the like). -/
noncomputable def accelL (b : Body) (tau : ℕ → ℝ) (fext : FExt) (o : IntOpts) : (ℕ → ℝ) × Body :=
  let s := b.accel E tau fext o
  if o.jointLimits then
    let r := s.2.limitImpulse E Q s.1
    (fun i => s.1 i + r.1 i, r.2)
  else s

/-- `Integrate` (`simulation.cc:116-194`) with `JOINT_LIMITS`.  `kEuler` with joint limits reads
`*p_dq_err` (line 136), a null pointer (line 126). -/
noncomputable def integrateL (b : Body) (tau : ℕ → ℝ) (dt : ℝ) (fext : FExt) (o : IntOpts) :
    Out Body :=
  if o.method = .euler ∧ o.jointLimits = true then .ub
  else b.integrateWith (fun b => b.accelL E Q tau fext o) dt o.jointLimits o.method

end Body
end SpatialDyn
