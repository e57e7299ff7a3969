import Verif.Spec.Fresh
import Mathlib.LinearAlgebra.Matrix.NonsingularInverse

/-!
# Vocabulary for the operational-space properties
-/

namespace SpatialDyn
open Matrix

/-- The model matrix `A` is the matrix `M`. -/
structure DMat.Is {m n : ℕ} (A : DMat) (M : Matrix (Fin m) (Fin n) ℝ) : Prop where
  rows : A.rows = m
  cols : A.cols = n
  e : ∀ (i : Fin m) (j : Fin n), A.e i j = M i j

/-- A matrix as a model matrix. -/
def DMat.ofM {m n : ℕ} (M : Matrix (Fin m) (Fin n) ℝ) : DMat :=
  ⟨m, n, fun i j => if h : i < m ∧ j < n then M ⟨i, h.1⟩ ⟨j, h.2⟩ else 0⟩

/-- The six entries of a motion. -/
def Motion.six (m : Motion) : Fin 6 → ℝ := fun k => m.entry k

/-- Columns of motions as a matrix. -/
def jacM (n : ℕ) (J : ℕ → Motion) : Matrix (Fin 6) (Fin n) ℝ := Matrix.of fun i j => (J j).entry i

/-- The first entries of an array as a vector. -/
def vec (n : ℕ) (x : ℕ → ℝ) : Fin n → ℝ := fun i => x i

namespace Body

/-- The answer of `Inertia` as a matrix. -/
noncomputable def massM (b : Body) : Matrix (Fin b.dof) (Fin b.dof) ℝ := toMat b.dof b.inertia.1

/-- `J A⁻¹ Jᵀ`. -/
noncomputable def taskInv (b : Body) {m : ℕ} (J : Matrix (Fin m) (Fin b.dof) ℝ) :
    Matrix (Fin m) (Fin m) ℝ := J * b.massM⁻¹ * Jᵀ

/-- `PseudoInverse` with tolerance `eps` inverts the matrix `X`. -/
def Exact (E : Ext) {m : ℕ} (X : Matrix (Fin m) (Fin m) ℝ) (eps : ℝ) : Prop :=
  (E.pinv (DMat.ofM X) eps).1.Is X⁻¹

end Body

/-- Every tolerance (`svd_epsilon`) that a call hands to the operational-space functions which depend
on the dynamically consistent inverse lies in `T`. -/
def Op.Tol (T : Set ℝ) : Op → Prop
  | .query (.opsJbar _ e) => e ∈ T
  | .query (.opsCoriolis _ _ e) => e ∈ T
  | .query (.opsGravity _ e) => e ∈ T
  | .query (.opsExternal _ _ e) => e ∈ T
  | .query (.opsFriction _ _ e _) => e ∈ T
  | .query (.opsInverseDynamics _ _ _ _ _ o) => o.svdEps ∈ T ∧ (o.cc = true → (0 : ℝ) ∈ T)
  | _ => True

/-- Bodies reachable by allowed calls whose tolerances lie in `T`. -/
inductive Careful (E : Ext) (T : Set ℝ) : Body → Bool → Prop
  | init (c : Cache) : Careful E T (Body.init c) false
  | step {b b' : Body} {d : Bool} (op : Op) : Careful E T b d → op.Safe b d → op.Tol T →
      op.exec E b = some b' → Careful E T b' (op.dirty b b' d)

theorem Careful.reach {E : Ext} {T : Set ℝ} {b : Body} {d : Bool} (h : Careful E T b d) :
    Reach E b d := by
  induction h with
  | init c => exact .init c
  | step op _ hs _ he ih => exact .step op ih hs he

theorem Careful.mono {E : Ext} {T T' : Set ℝ} (hT : T ⊆ T') {b : Body} {d : Bool}
    (h : Careful E T b d) : Careful E T' b d := by
  induction h with
  | init c => exact .init c
  | step op _ hs ht he ih =>
    refine .step op ih hs ?_ he
    cases op with
    | query x =>
      cases x <;> first | trivial | exact hT ht | exact ⟨hT ht.1, fun hc => hT (ht.2 hc)⟩
    | _ => trivial

theorem Reach.careful {E : Ext} {b : Body} {d : Bool} (h : Reach E b d) :
    Careful E Set.univ b d := by
  induction h with
  | init c => exact .init c
  | step op _ hs he ih =>
    refine .step op ih hs ?_ he
    cases op with
    | query x => cases x <;> first | trivial | exact ⟨trivial, fun _ => trivial⟩
    | _ => trivial

/-- A model matrix read as a matrix of given dimensions. -/
def DMat.mat (A : DMat) (m n : ℕ) : Matrix (Fin m) (Fin n) ℝ := Matrix.of fun i j => A.e i j

/-- Change of the joint accelerations computed by `ForwardDynamics` when `tau` is added to the joint
torques `tau0`. -/
noncomputable def Body.effect (E : Ext) (b : Body) (tau0 : ℕ → ℝ) (fext : FExt) (o : FDOpts)
    (tau : ℕ → ℝ) : Fin b.dof → ℝ :=
  vec b.dof (b.fd E (fun i => tau0 i + tau i) fext o).1 - vec b.dof (b.fd E tau0 fext o).1

/-- One call of `opspace::InverseDynamics` in a stack of tasks. -/
structure Task where
  J : DMat
  ddx : ℕ → ℝ
  fext : FExt
  ext : Bool
  o : OpsOpts

/-- A task that asks for an acceleration only. -/
structure Task.Plain (t : Task) : Prop where
  ext : t.ext = false
  gravity : t.o.gravity = false
  cc : t.o.cc = false
  friction : t.o.friction = false
  clip : t.o.fAccMax ≤ 0

/-- The call of a task with nullspace matrix `N`. -/
def Task.query (t : Task) (N : DMat) : Query :=
  .opsInverseDynamics t.J t.ddx (some N) t.fext t.ext t.o

/-- The task has as many columns as the body has joints, its operational-space inertia exists, and
`PseudoInverse` finds it with every tolerance in use. -/
def Body.Regular (E : Ext) (T : Set ℝ) (b : Body) (K : DMat) : Prop :=
  K.cols = b.dof ∧ (b.taskInv (K.mat K.rows b.dof)).det ≠ 0 ∧
    ∀ e ∈ T, Body.Exact E (b.taskInv (K.mat K.rows b.dof)) e

/-- Tasks solved one after the other, the nullspace matrix being handed from call to call; every
torque is listed with its task.  Each Jacobian is regular after projection. -/
inductive Prioritised (E : Ext) (T : Set ℝ) : Body → DMat → List (Task × (ℕ → ℝ)) → Prop
  | nil (b : Body) (N : DMat) : Prioritised E T b N []
  | cons {b b' : Body} {N N' : DMat} {t : Task} {tau : ℕ → ℝ} {l : List (Task × (ℕ → ℝ))}
      (cols : t.J.cols = b.dof) (tol : (Op.query (t.query N)).Tol T)
      (regular : b.Regular E T (if 0 < N.size then t.J.mul N else t.J))
      (call : b.opsInverseDynamics E t.J t.ddx (some N) t.fext t.ext t.o = .ok (tau, some N', b'))
      (rest : Prioritised E T b' N' l) : Prioritised E T b N ((t, tau) :: l)

end SpatialDyn
