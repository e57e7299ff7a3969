import Verif.Spec.Control

/-!
# Vocabulary for the posture task of the controller
-/

namespace SpatialDyn
open Matrix

/-- `PseudoInverse` with tolerance `eps` answers, for square matrices, a matrix that solves least
squares problems (two of the four Penrose conditions). -/
def Ext.LeastSquares (E : Ext) (eps : ℝ) : Prop :=
  ∀ (n : ℕ) (X : Matrix (Fin n) (Fin n) ℝ), ∃ Y : Matrix (Fin n) (Fin n) ℝ,
    (E.pinv (DMat.ofM X) eps).1.Is Y ∧ X * Y * X = X ∧ (X * Y)ᵀ = X * Y

/-- Twice the kinetic energy of joint velocities `v`, from the answer of `Inertia`. -/
noncomputable def Body.effort (b : Body) (v : Fin b.dof → ℝ) : ℝ := v ⬝ᵥ (b.massM *ᵥ v)

/-- Joint accelerations `a` which realise the task accelerations `ddx` of the Jacobian `K` and,
besides, come as near to the accelerations `ddq` as the task allows: `a` is the sum of the least
costly accelerations realising the task and of the ones nearest to `ddq` among those the task does not
notice. -/
def Body.Shares (b : Body) {m : ℕ} (K : Matrix (Fin m) (Fin b.dof) ℝ) (ddx : Fin m → ℝ)
    (ddq a : Fin b.dof → ℝ) : Prop :=
  ∃ a1 a2, a = a1 + a2 ∧
    (K *ᵥ a1 = ddx ∧ ∀ z, K *ᵥ z = ddx → z ≠ a1 → b.effort a1 < b.effort z) ∧
    (K *ᵥ a2 = 0 ∧ ∀ z, K *ᵥ z = 0 → z ≠ a2 →
      (a2 - ddq) ⬝ᵥ (a2 - ddq) < (z - ddq) ⬝ᵥ (z - ddq))

end SpatialDyn
