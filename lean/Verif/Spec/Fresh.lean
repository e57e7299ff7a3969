import Verif.Model.Machine
import Verif.Spec.World

/-!
# The state-only view of a body

`fresh` is what the algorithms should read from a body: it is computed from the bodies, the state,
gravity, loads and the base transform only, never from the cache.
-/

namespace SpatialDyn
namespace Body

/-- Pose of body `i` in its parent at the current position. -/
noncomputable def freshTp (b : Body) (i : ℕ) : Iso := b.TpAt i (b.q.getD i 0)

/-- Pose of body `i` in the world: base pose times the poses along the path from the root. -/
noncomputable def freshTw (b : Body) : ℕ → Iso :=
  worldLoop b.dof b.par b.T0 b.freshTp (fun _ => 1)

/-- The system determined by the observable state. -/
noncomputable def fresh (b : Body) : Sys := b.sysWith b.freshTp b.freshTw

/-- All transforms given by the user are rigid (what `Eigen::Isometry3d` promises). -/
structure Rigid (b : Body) : Prop where
  base : b.T0.Valid
  link : ∀ i < b.dof, (b.rb i).T.Valid

/-- Only the cache differs. -/
def Same (b b' : Body) : Prop := b' = { b with c := b'.c }

/-- Everything a caller can observe directly is equal (bodies, state, gravity, loads, base pose). -/
structure ObsEq (b b' : Body) : Prop where
  rbs : b.rbs = b'.rbs
  q : b.q = b'.q
  dq : b.dq = b'.dq
  g : b.g = b'.g
  load : b.load = b'.load
  T0 : b.T0 = b'.T0
  anc : b.anc = b'.anc
  sub : b.sub = b'.sub

/-- The same except for the joint positions, which put every link at the same place in its parent. -/
structure PoseEq (b b' : Body) : Prop where
  rbs : b.rbs = b'.rbs
  tp : b'.freshTp = b.freshTp
  dq : b.dq = b'.dq
  g : b.g = b'.g
  load : b.load = b'.load
  T0 : b.T0 = b'.T0
  anc : b.anc = b'.anc
  sub : b.sub = b'.sub

end Body

/-- A call allowed by the interface contract: transforms are rigid, the base is not moved after a
query made in the same configuration (`dirty`), and the operational-space articulated-body functions,
which ignore loads, are called without loads. -/
def Op.Safe (b : Body) (dirty : Bool) : Op → Prop
  | .addRigidBody rb _ => rb.T.Valid
  | .setBase T => T.Valid ∧ dirty = false
  | .query (.opsInertiaInverseAba ..) => ∀ k, b.load k = none
  | .query (.opsInertiaAba ..) => ∀ k, b.load k = none
  | .query (.opsCoriolisAba ..) => ∀ k, b.load k = none
  | .query (.opsGravityAba ..) => ∀ k, b.load k = none
  | _ => True

open Classical in
/-- Has a query been made since the configuration `q` last changed? -/
noncomputable def Op.dirty (b b' : Body) (d : Bool) : Op → Bool
  | .query _ => true
  | .integrate .. => true
  | .discreteIntegrate .. => true
  | _ => if b'.q = b.q then d else false

/-- Bodies reachable from a new body by any finite sequence of allowed calls (rejected calls
included). -/
inductive Reach (E : Ext) : Body → Bool → Prop
  | init (c : Cache) : Reach E (Body.init c) false
  | step {b b' : Body} {d : Bool} (op : Op) : Reach E b d → op.Safe b d → op.exec E b = some b' →
      Reach E b' (op.dirty b b' d)

/-- Bodies obtained from a new body by any finite history of calls whatever (rejected ones
included), as long as no call had undefined behaviour. -/
def Built (E : Ext) (b : Body) : Prop := ∃ c h, execAll E (Body.init c) h = some b

end SpatialDyn
