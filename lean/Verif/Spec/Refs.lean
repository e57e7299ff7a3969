import Verif.Model.Refs

/-!
# When two calls ask for the same stored result
-/

namespace SpatialDyn

/-- The point whose Jacobian a call asks for: link and offset (`AngularJacobian` has no offset). -/
def Query.point (b : Body) : Query → Option (ℤ × Option Vec3)
  | .jacobian i x | .linearJacobian i x | .hessian i x => some (b.resolve i, some x)
  | .angularJacobian i => some (b.resolve i, none)
  | _ => none

/-- The task Jacobian of a call, and the tolerances it uses. -/
noncomputable def Query.task : Query → Option (DMat × List ℝ)
  | .opsInertiaInverse J => some (J, [])
  | .opsInertia J e | .opsIsSingular J e | .opsJbar J e | .opsGravity J e | .opsExternal J _ e
  | .opsFriction J _ e _ => some (J, [e])
  | .opsCoriolis J _ e => some (J, [e, 0])
  | .opsInverseDynamics J _ N _ _ o => some (Body.opsJx J N, [o.svdEps, 0])
  | _ => none

/-- The point of an articulated-body task, and its tolerance. -/
def Query.taskAba (b : Body) : Query → Option (ℤ × Vec3 × List ℝ)
  | .opsInertiaInverseAba i x => some (b.resolve i, x, [])
  | .opsInertiaAba i x e | .opsCoriolisAba i x e | .opsGravityAba i x _ e => some (b.resolve i, x, [e])
  | _ => none

/-- `y` asks for no Jacobian other than the one of `x`, for no task other than that of `x`. -/
structure Query.Agrees (b : Body) (x y : Query) : Prop where
  point : ∀ i o j p, x.point b = some (i, o) → y.point b = some (j, p) → j = i ∧ (p = none ∨ p = o)
  task : ∀ J es K fs, x.task = some (J, es) → y.task = some (K, fs) →
    K.Eqv J ∧ ∀ e ∈ es, ∀ f ∈ fs, f = e
  taskAba : ∀ i o es j p fs, x.taskAba b = some (i, o, es) → y.taskAba b = some (j, p, fs) →
    j = i ∧ p = o ∧ ∀ e ∈ es, ∀ f ∈ fs, f = e

/-- The functions that return a reference to one entry per link (a link, its path, its subtree, its
transforms, its composite inertia) or to some of the rows of the Jacobian. -/
def Query.PerLink : Query → Prop
  | .rigidBody _ | .ancestors _ | .subtree _ | .tToParent _ | .tToWorld _ | .compositeInertia _
  | .linearJacobian _ _ | .angularJacobian _ => True
  | _ => False

end SpatialDyn
