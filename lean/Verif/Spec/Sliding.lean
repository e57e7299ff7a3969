import Verif.Spec.Control

/-!
# Vocabulary for robots whose joints all slide
-/

namespace SpatialDyn

/-- Every joint of the body is prismatic. -/
def Body.Sliding (b : Body) : Prop := ∀ i < b.dof, (b.rb i).joint.type.isPrismatic = true

/-- `PseudoInverse` with tolerance `eps` reports every singular square matrix as singular. -/
def Ext.Flags (E : Ext) (eps : ℝ) : Prop :=
  ∀ (n : ℕ) (X : Matrix (Fin n) (Fin n) ℝ), X.det = 0 → (E.pinv (DMat.ofM X) eps).2 = true

/-- No coordinate of the vector is larger than `r`. -/
def Vec3.Within (v : Vec3) (r : ℝ) : Prop := |v.x| ≤ r ∧ |v.y| ≤ r ∧ |v.z| ≤ r

end SpatialDyn
