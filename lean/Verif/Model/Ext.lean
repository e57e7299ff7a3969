import Verif.Model.Body

/-!
# External library functions

`ctrl_utils` is not part of the repository.  Its functions enter the model as the fields of `Ext`;
nothing is assumed about them except where a theorem says so.
-/

namespace SpatialDyn

/-- Functions of external libraries.

* `pinv`: `ctrl_utils::PseudoInverse`, the inverse and the `is_singular` flag;
* `pinv6`: the same on `6×6` matrices;
* `badSolve`: what `Eigen::LDLT::solve` returns for a matrix that is not positive definite;
* `log`, `dlogT`: `ctrl_utils::Log`, and the transpose of `ctrl_utils::LogMapDerivative` applied to a
  force. -/
structure Ext where
  pinv : DMat → ℝ → DMat × Bool
  pinv6 : Matrix (Fin 6) (Fin 6) ℝ → ℝ → Matrix (Fin 6) (Fin 6) ℝ
  badSolve : (n : ℕ) → Matrix (Fin n) (Fin n) ℝ → (Fin n → ℝ) → ℕ → ℝ
  log : Iso → Motion
  dlogT : Iso → Force → Force

open Classical in
/-- The entries of a matrix inside its dimensions (zero outside): two matrices are the same Eigen
object iff their truncations are equal. -/
noncomputable def DMat.trunc (A : DMat) : DMat :=
  ⟨A.rows, A.cols, fun i j => if i < A.rows ∧ j < A.cols then A.e i j else 0⟩

/-- `PseudoInverse` of a matrix; it sees only the entries inside the dimensions. -/
noncomputable def Ext.pinvOf (E : Ext) (A : DMat) (eps : ℝ) : DMat × Bool := E.pinv A.trunc eps

/-- `LDLT::solve` as a total function. -/
noncomputable def Ext.solve (E : Ext) (n : ℕ) (A : ℕ → ℕ → ℝ) (b : ℕ → ℝ) : ℕ → ℝ :=
  (ldltSolve n A b).getD (E.badSolve n (toMat n A) fun i => b i)

/-- `ForwardDynamics` (`forward_dynamics.cc:21-30`) with the solver total. -/
noncomputable def Body.fd (E : Ext) (b : Body) (tau : ℕ → ℝ) (fext : FExt) (o : FDOpts) :
    (ℕ → ℝ) × Body :=
  let r := b.inverseDynamics (fun _ => 0) fext ⟨o.gravity, o.cc, false, 0.01⟩
  let s := r.2.inertiaInverse
  (E.solve b.dof s.1 (b.view.fdRhs tau r.1 o), s.2)

end SpatialDyn
