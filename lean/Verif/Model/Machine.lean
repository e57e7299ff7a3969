import Verif.Model.Opspace
import Verif.Model.Discrete
import Verif.Model.Derivatives

/-!
# The public interface as one state machine

`Query` lists the calls that return a value, `Op` all calls; `Query.run` gives the answer together
with the body after the call (caches are `mutable`), and `Op.step` the body only.  Vectors and
matrices in answers are lists of exactly the entries the caller sees.
-/

namespace SpatialDyn

/-- The value returned by a query. -/
inductive Ans where
  | iso (T : Iso)
  | vec3 (v : Vec3)
  | mat3 (R : Mat3)
  | rb (r : RB)
  | ids (l : List ℕ)
  | inertia (I : Inertia)
  | cols (l : List Motion)
  | cols3 (l : List Vec3)
  | hess (l : List (List Motion))
  | real (x : ℝ)
  | vec (l : List ℝ)
  | mat (l : List (List ℝ))
  | dmat (A : DMat)
  | bool (x : Bool)
  | vec6 (f : Fin 6 → ℝ)
  | mat6 (A : Matrix (Fin 6) (Fin 6) ℝ)
  | task (tau : List ℝ) (N : Option DMat)

/-- First `n` entries of an array. -/
def take {α : Type*} (n : ℕ) (f : ℕ → α) : List α := (List.range n).map f

/-- Leading `m × n` block of a two-dimensional array. -/
def take2 {α : Type*} (m n : ℕ) (f : ℕ → ℕ → α) : List (List α) := take m fun i => take n (f i)

/-- Calls that return a value. -/
inductive Query where
  | rigidBody (i : ℤ)
  | q (i : ℤ)
  | dq (i : ℤ)
  | ancestors (i : ℤ)
  | subtree (i : ℤ)
  | tToParent (i : ℤ)
  | tToWorld (i : ℤ)
  | tFromParent (i : ℤ)
  | tFromWorld (i : ℤ)
  | position (i : ℤ) (offset : Vec3)
  | positionQ (q : ℕ → ℝ) (i : ℤ) (offset : Vec3)
  | orientation (i : ℤ)
  | orientationQ (q : ℕ → ℝ) (i : ℤ)
  | cartesianPose (i : ℤ) (offset : Vec3)
  | jacobian (i : ℤ) (offset : Vec3)
  | jacobianQ (q : ℕ → ℝ) (i : ℤ) (offset : Vec3)
  | linearJacobian (i : ℤ) (offset : Vec3)
  | angularJacobian (i : ℤ)
  | hessian (i : ℤ) (offset : Vec3)
  | inverseDynamics (ddq : ℕ → ℝ) (fext : FExt) (o : IDOpts)
  | centrifugalCoriolis
  | gravity
  | externalTorques (fext : FExt)
  | friction (tau : ℕ → ℝ) (compensate : Bool) (eps : ℝ)
  | inertia
  | compositeInertia (i : ℤ)
  | inertiaInverse
  | forwardDynamics (tau : ℕ → ℝ) (fext : FExt) (o : FDOpts)
  | forwardDynamicsAba (tau : ℕ → ℝ) (fext : FExt) (o : FDOpts)
  | inertiaInverseAba
  | opsInertia (J : DMat) (eps : ℝ)
  | opsInertiaInverse (J : DMat)
  | opsIsSingular (J : DMat) (eps : ℝ)
  | opsJbar (J : DMat) (eps : ℝ)
  | opsCoriolis (J : DMat) (link : ℤ) (eps : ℝ)
  | opsGravity (J : DMat) (eps : ℝ)
  | opsExternal (J : DMat) (fext : FExt) (eps : ℝ)
  | opsFriction (J : DMat) (tau : ℕ → ℝ) (eps stictionEps : ℝ)
  | opsInverseDynamics (J : DMat) (ddx : ℕ → ℝ) (N : Option DMat) (fext : FExt) (someExt : Bool)
      (o : OpsOpts)
  | opsInertiaInverseAba (link : ℤ) (offset : Vec3)
  | opsInertiaAba (link : ℤ) (offset : Vec3) (eps : ℝ)
  | opsCoriolisAba (link : ℤ) (offset : Vec3) (eps : ℝ)
  | opsGravityAba (link : ℤ) (offset : Vec3) (fext : FExt) (eps : ℝ)
  | velocityDerivative (ddq : ℕ → ℝ) (fext : FExt) (o : IDOpts)
  | positionDerivative (ddq : ℕ → ℝ) (fext : FExt) (o : IDOpts)
  | discreteInverseDynamics (qNext : ℕ → ℝ) (dt : ℝ) (fext : FExt) (gravity : Bool)

/-- Attach a constructor to an outcome. -/
def Out.map {α β : Type*} (f : α → β) (x : Out α) : Out β := x.bind fun a => .ok (f a)

/-- Answer and next state of a query. -/
noncomputable def Query.run (E : Ext) (b : Body) : Query → Out (Ans × Body)
  | .rigidBody i => (b.rigidBody i).map fun r => (.rb r, b)
  | .q i => (b.qAt i).map fun r => (.real r, b)
  | .dq i => (b.dqAt i).map fun r => (.real r, b)
  | .ancestors i => (b.ancestors i).map fun r => (.ids r, b)
  | .subtree i => (b.subtree i).map fun r => (.ids r, b)
  | .tToParent i => (b.tToParent i).map fun r => (.iso r.1, r.2)
  | .tToWorld i => (b.tToWorld i).map fun r => (.iso r.1, r.2)
  | .tFromParent i => (b.tFromParent i).map fun r => (.iso r.1, r.2)
  | .tFromWorld i => (b.tFromWorld i).map fun r => (.iso r.1, r.2)
  | .position i x => (b.position i x).map fun r => (.vec3 r.1, r.2)
  | .positionQ u i x => (b.positionQ u i x).map fun r => (.vec3 r, b)
  | .orientation i => (b.orientation i).map fun r => (.mat3 r.1, r.2)
  | .orientationQ u i => (b.orientationQ u i).map fun r => (.mat3 r, b)
  | .cartesianPose i x => (b.cartesianPose i x).map fun r => (.iso r.1, r.2)
  | .jacobian i x => (b.jacobian i x).map fun r => (.cols (take b.dof r.1), r.2)
  | .jacobianQ u i x => (b.jacobianQ u i x).map fun r => (.cols (take b.dof r), b)
  | .linearJacobian i x => (b.linearJacobian i x).map fun r => (.cols3 (take b.dof r.1), r.2)
  | .angularJacobian i => (b.angularJacobian i).map fun r => (.cols3 (take b.dof r.1), r.2)
  | .hessian i x => (b.hessian i x).map fun r => (.hess (take2 b.dof b.dof r.1), r.2)
  | .inverseDynamics a f o => let r := b.inverseDynamics a f o; .ok (.vec (take b.dof r.1), r.2)
  | .centrifugalCoriolis => let r := b.centrifugalCoriolis; .ok (.vec (take b.dof r.1), r.2)
  | .gravity => let r := b.gravity; .ok (.vec (take b.dof r.1), r.2)
  | .externalTorques f => let r := b.externalTorques f; .ok (.vec (take b.dof r.1), r.2)
  | .friction t c e => .ok (.vec (take b.dof (b.friction t c e)), b)
  | .inertia => let r := b.inertia; .ok (.mat (take2 b.dof b.dof r.1), r.2)
  | .compositeInertia i => (b.compositeInertia i).map fun r => (.inertia r.1, r.2)
  | .inertiaInverse => let r := b.inertiaInverse; .ok (.mat (take2 b.dof b.dof r.1), r.2)
  | .forwardDynamics t f o => let r := b.fd E t f o; .ok (.vec (take b.dof r.1), r.2)
  | .forwardDynamicsAba t f o =>
    let r := b.forwardDynamicsAba t f o; .ok (.vec (take b.dof r.1), r.2)
  | .inertiaInverseAba => let r := b.inertiaInverseAba; .ok (.mat (take2 b.dof b.dof r.1), r.2)
  | .opsInertia J e => (b.opsInertia E J e).map fun r => (.dmat r.1.trunc, r.2)
  | .opsInertiaInverse J => (b.opsInertiaInverse E J).map fun r => (.dmat r.1.trunc, r.2)
  | .opsIsSingular J e => (b.opsIsSingular E J e).map fun r => (.bool r.1, r.2)
  | .opsJbar J e => (b.opsJbar E J e).map fun r => (.dmat r.1.trunc, r.2)
  | .opsCoriolis J l e => (b.opsCoriolis E J l e).map fun r => (.vec (take J.rows r.1), r.2)
  | .opsGravity J e => (b.opsGravity E J e).map fun r => (.vec (take J.rows r.1), r.2)
  | .opsExternal J f e => (b.opsExternal E J f e).map fun r => (.vec (take J.rows r.1), r.2)
  | .opsFriction J t e s => (b.opsFriction E J t e s).map fun r => (.vec (take J.rows r.1), r.2)
  | .opsInverseDynamics J x N f sf o => (b.opsInverseDynamics E J x N f sf o).map fun r =>
    (.task (take b.dof r.1) (r.2.1.map DMat.trunc), r.2.2)
  | .opsInertiaInverseAba l x => (b.opsInertiaInverseAba l x).map fun r => (.mat6 r.1, r.2)
  | .opsInertiaAba l x e => (b.opsInertiaAba E l x e).map fun r => (.mat6 r.1, r.2)
  | .opsCoriolisAba l x e => (b.opsCoriolisAba E l x e).map fun r => (.vec6 r.1, r.2)
  | .opsGravityAba l x f e => (b.opsGravityAba E l x f e).map fun r => (.vec6 r.1, r.2)
  | .velocityDerivative a f o =>
    let r := b.velocityDerivative a f o; .ok (.mat (take2 b.dof b.dof r.1), r.2)
  | .positionDerivative a f o =>
    (b.positionDerivative a f o).map fun r => (.mat (take2 b.dof b.dof r.1), r.2)
  | .discreteInverseDynamics u dt f g =>
    let r := b.discreteID E u dt f g; .ok (.vec (take b.dof r.1), r.2)

/-- All calls on one body. -/
inductive Op where
  | addRigidBody (rb : RB) (idParent : ℤ)
  | setQ (q : List ℝ)
  | setDq (dq : List ℝ)
  | setG (g : Vec3)
  | addLoad (I : Inertia) (i : ℤ)
  | replaceLoad (I : Inertia) (i : ℤ)
  | clearLoad (i : ℤ)
  | setBase (T : Iso)
  | setInertiaBase (I : Inertia)
  | query (x : Query)
  | integrate (tau : ℕ → ℝ) (dt : ℝ) (fext : FExt) (o : IntOpts)
  | discreteIntegrate (tau : ℕ → ℝ) (dt : ℝ) (fext : FExt) (o : DIntOpts)

/-- Outcome of a call on the body. -/
noncomputable def Op.step (E : Ext) (b : Body) : Op → Out Body
  | .addRigidBody rb p => (b.addRigidBody rb p).map Prod.snd
  | .setQ q => b.setQ q
  | .setDq dq => b.setDq dq
  | .setG g => .ok (b.setG g)
  | .addLoad I i => .ok (b.addLoad I i)
  | .replaceLoad I i => .ok (b.replaceLoad I i)
  | .clearLoad i => .ok (b.clearLoad i)
  | .setBase T => .ok (b.setBase T)
  | .setInertiaBase I => b.setInertiaBase I
  | .query x => (x.run E b).map Prod.snd
  | .integrate t dt f o => b.integrate E t dt f o
  | .discreteIntegrate t dt f o => b.discreteIntegrate E t dt f o

/-- State after a call whose exceptions are caught; `none` after undefined behaviour.  The calls that
throw do so before they write (`set_q`, `set_dq`, `set_inertia_base`, `AddRigidBody`,
`opspace::CentrifugalCoriolis`), except `opspace::InverseDynamics` when
`opspace::CentrifugalCoriolis` throws inside it: caches filled before stay filled. -/
noncomputable def Op.exec (E : Ext) (b : Body) (op : Op) : Option Body :=
  match op.step E b with
  | .ok b' => some b'
  | .throws => some b
  | .ub => none

/-- Run a history of calls. -/
noncomputable def execAll (E : Ext) : Body → List Op → Option Body
  | b, [] => some b
  | b, op :: h => (op.exec E b).bind fun b' => execAll E b' h

end SpatialDyn
