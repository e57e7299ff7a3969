import Verif.Spec.Fresh

/-!
# Two ways of giving a robot its weight

A caller who wants a heavier link can build it with the larger inertia or attach a load to it.
`SameTotals b b'`: the two robots have the same tree, joints, state, gravity and base pose, and every
link weighs the same together with its load.
-/

namespace SpatialDyn
namespace Body

/-- Inertia of link `k` together with its load, both in the frame of the link. -/
noncomputable def totalInertia (b : Body) (k : ℕ) : Inertia :=
  match b.load k with
  | none => (b.rb k).inertia
  | some L => (b.rb k).inertia.add L

/-- Equal up to the split of the weight between links and loads. -/
structure SameTotals (b b' : Body) : Prop where
  dof : b'.dof = b.dof
  parent : ∀ k, (b'.rb k).idParent = (b.rb k).idParent
  pose : ∀ k, (b'.rb k).T = (b.rb k).T
  joint : ∀ k, (b'.rb k).joint = (b.rb k).joint
  total : ∀ k, b'.totalInertia k = b.totalInertia k
  q : b'.q = b.q
  dq : b'.dq = b.dq
  g : b'.g = b.g
  T0 : b'.T0 = b.T0

end Body

/-- The queries about forces, torques and inertias in joint space, and the inertias in operational
space, of `J` with `n` columns. -/
inductive Query.Weighs (n : ℕ) : Query → Prop
  | inverseDynamics (ddq fext o) : Weighs n (.inverseDynamics ddq fext o)
  | centrifugalCoriolis : Weighs n .centrifugalCoriolis
  | gravity : Weighs n .gravity
  | externalTorques (fext) : Weighs n (.externalTorques fext)
  | friction (tau c eps) : Weighs n (.friction tau c eps)
  | inertia : Weighs n .inertia
  | compositeInertia (i) : Weighs n (.compositeInertia i)
  | inertiaInverse : Weighs n .inertiaInverse
  | forwardDynamics (tau fext o) : Weighs n (.forwardDynamics tau fext o)
  | forwardDynamicsAba (tau fext o) : Weighs n (.forwardDynamicsAba tau fext o)
  | velocityDerivative (ddq fext o) : Weighs n (.velocityDerivative ddq fext o)
  | positionDerivative (ddq fext o) : Weighs n (.positionDerivative ddq fext o)
  | opsInertiaInverse (J : DMat) : J.cols = n → 0 < n → Weighs n (.opsInertiaInverse J)
  | opsInertia (J : DMat) (eps) : J.cols = n → 0 < n → Weighs n (.opsInertia J eps)
  | opsIsSingular (J : DMat) (eps) : J.cols = n → 0 < n → Weighs n (.opsIsSingular J eps)

end SpatialDyn
