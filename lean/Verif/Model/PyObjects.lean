import Verif.Model.Machine

/-!
# Objects handed out by the Python module (`src/python/spatial_dyn.cc`)

`def_property` and `def_readwrite` return references into the body (pybind11 uses
`return_value_policy::reference_internal` for the getter of a property, and its casters for
`std::vector` and `std::map` apply it to the elements; `const` is dropped for registered classes).
So `ab.rigid_bodies[i]`, its `inertia` and `joint`, the entries of `ab.inertia_load` and
`ab.inertia_base` are the objects inside the body, and assigning to their attributes changes the body
without a call of `ArticulatedBody`: no cache flag is touched.  `ab.q` and `ab.dq` are read-only numpy
arrays on the memory of the body.  Functions (`m.def`) that return a `const` reference copy.

Simplifications: `name` and `graphics` are left out.  `T_to_parent` is changed by assignment only (its
class `Isometry3d` belongs to another package).
-/

namespace SpatialDyn

/-- A statement that changes an inertia object in place (`spatial_dyn.cc:508-512`): `def_readwrite`
attributes, and `+=` (`spatial_inertia.h`).  Nothing is checked. -/
inductive InertiaEdit where
  | mass (m : ℝ)
  | com (c : Vec3)
  | iCom (A : Mat3)
  | iadd (I : Inertia)

/-- The inertia after the statement. -/
noncomputable def InertiaEdit.app (I : Inertia) : InertiaEdit → Inertia
  | .mass m => { I with mass := m }
  | .com c => { I with com := c }
  | .iCom A => { I with Icom := A }
  | .iadd J => I.add J

/-- A statement that changes a link object. -/
inductive LinkEdit where
  /-- `rb.T_to_parent = T` (`spatial_dyn.cc:245-247`) -/
  | pose (T : Iso)
  /-- `rb.inertia = I` (`spatial_dyn.cc:248-250`) -/
  | inertia (I : Inertia)
  /-- `rb.inertia.mass = m` and the like (`spatial_dyn.cc:509-513`) -/
  | inertiaField (e : InertiaEdit)
  /-- `rb.joint = j` (`spatial_dyn.cc:251`) -/
  | joint (j : Joint)
  /-- `rb.joint.q_min = x` and the like (`spatial_dyn.cc:262-279`) -/
  | jointField (o : Joint.Op)

/-- A Python statement that changes an object inside a body. -/
inductive Edit where
  /-- on `ab.rigid_bodies[i]` -/
  | link (i : ℤ) (e : LinkEdit)
  /-- on `ab.inertia_load[k]` (`spatial_dyn.cc:176`) -/
  | load (k : ℤ) (e : InertiaEdit)
  /-- on `ab.inertia_base` (`spatial_dyn.cc:180-182`) -/
  | base (e : InertiaEdit)

open Classical in
/-- The link after the statement.  `RigidBody::set_inertia` (`rigid_body.cc:26-31`) refuses a negative
mass; a joint setter that throws changes nothing. -/
noncomputable def LinkEdit.app (r : RB) : LinkEdit → Out RB
  | .pose T => .ok { r with T := T }
  | .inertia I => if I.mass < 0 then .throws else .ok { r with inertia := I }
  | .inertiaField e => .ok { r with inertia := e.app r.inertia }
  | .joint j => .ok { r with joint := j }
  | .jointField o =>
    if (r.joint.step o).threw then .throws else .ok { r with joint := (r.joint.step o).joint }

namespace Body

/-- Index of a Python list: negative indices count from the end, outside it is an `IndexError`. -/
def pyIndex (b : Body) (i : ℤ) : Out ℕ :=
  if -(b.dof : ℤ) ≤ i ∧ i < b.dof then .ok (b.resolve i).toNat else .throws

/-- A statement on link `k`. -/
noncomputable def editLink (b : Body) (k : ℕ) (e : LinkEdit) : Out Body :=
  (e.app (b.rb k)).bind fun r => .ok { b with rbs := b.rbs.set k r }

/-- A statement on the load stored under key `k`; a missing key is a `KeyError`. -/
noncomputable def editLoad (b : Body) (k : ℤ) (e : InertiaEdit) : Out Body :=
  match b.load k with
  | none => .throws
  | some I => .ok { b with load := Function.update b.load k (some (e.app I)) }

end Body

/-- The body after a statement that changes one of its objects. -/
noncomputable def Edit.step (b : Body) : Edit → Out Body
  | .link i e => (b.pyIndex i).bind fun k => b.editLink k e
  | .load k e => b.editLoad k e
  | .base e => .ok { b with inertiaBase := e.app b.inertiaBase }

/-- A statement of a Python program about one body. -/
inductive PyOp where
  | call (o : Op)
  | edit (e : Edit)

/-- The body after a statement whose exceptions are caught; `none` after undefined behaviour. -/
noncomputable def PyOp.exec (E : Ext) (b : Body) : PyOp → Option Body
  | .call o => o.exec E b
  | .edit e => match e.step b with
    | .ok b' => some b'
    | .throws => some b
    | .ub => none

/-- Run a program. -/
noncomputable def pyExecAll (E : Ext) : Body → List PyOp → Option Body
  | b, [] => some b
  | b, o :: l => (o.exec E b).bind fun b' => pyExecAll E b' l

/-! ## Variables -/

/-- What a Python variable holds. -/
inductive PyVal where
  /-- an array that owns its memory: every result of a function of the module -/
  | own (a : Ans)
  /-- `ab.q` when the memory of `q_` was the block number `n` -/
  | qView (n : ℕ)
  /-- `ab.dq` -/
  | dqView (n : ℕ)
  /-- `ab.rigid_bodies[k]`, in block number `n` of the vector of links -/
  | link (k n : ℕ)
  /-- `ab.inertia_load[k]`, in the map node number `n` for this key -/
  | load (k : ℤ) (n : ℕ)

/-- A Python program with one body: the body, its variables, and the memory blocks in use.
`q_` and `dq_` are given a new block by every `conservativeResize` (`articulated_body.cc:281-282`, a
`realloc`: the old pointer must not be used again);
the vector of links is moved by `push_back` when it is full, which `moves` decides; the node of a load
dies when it is erased. -/
structure PyState where
  b : Body
  var : ℕ → Option PyVal
  links : ℕ
  node : ℤ → ℕ

/-- Statements. -/
inductive PyStmt where
  /-- a call whose result is not kept -/
  | call (o : Op)
  /-- `x = f(ab, …)` -/
  | ask (x : ℕ) (y : Query)
  /-- `x = ab.q` -/
  | getQ (x : ℕ)
  /-- `x = ab.dq` -/
  | getDq (x : ℕ)
  /-- `x = ab.rigid_bodies[i]` -/
  | getLink (x : ℕ) (i : ℤ)
  /-- `x = ab.inertia_load[k]` -/
  | getLoad (x : ℕ) (k : ℤ)
  /-- an assignment to an attribute of the link in variable `x` -/
  | editLink (x : ℕ) (e : LinkEdit)
  /-- an assignment to an attribute of the load in variable `x` -/
  | editLoad (x : ℕ) (e : InertiaEdit)

namespace PyState

/-- New block numbers after a call that succeeded. -/
def blocks (moves : ℕ → Bool) (s : PyState) (b' : Body) : Op → PyState
  | .addRigidBody .. =>
    { s with b := b', links := if moves s.b.dof then s.links + 1 else s.links }
  | .clearLoad i => { s with
      b := b', node := Function.update s.node (s.b.resolve i) (s.node (s.b.resolve i) + 1) }
  | _ => { s with b := b' }

/-- Give a variable a value. -/
def bindVar (s : PyState) (x : ℕ) (v : PyVal) : PyState :=
  { s with var := Function.update s.var x (some v) }

/-- A change of the link in a variable.  An object whose memory is gone must not be used; other values
have no such attribute. -/
noncomputable def editLink (s : PyState) (e : LinkEdit) : Option PyVal → Out PyState
  | some (.link k n) =>
    if n = s.links then (s.b.editLink k e).bind fun b' => .ok { s with b := b' } else .ub
  | _ => .throws

/-- A change of the load in a variable. -/
noncomputable def editLoad (s : PyState) (e : InertiaEdit) : Option PyVal → Out PyState
  | some (.load k n) =>
    if n = s.node k then (s.b.editLoad k e).bind fun b' => .ok { s with b := b' } else .ub
  | _ => .throws

/-- One statement. -/
noncomputable def step (E : Ext) (moves : ℕ → Bool) (s : PyState) : PyStmt → Out PyState
  | .call o => (o.step E s.b).bind fun b' => .ok (s.blocks moves b' o)
  | .ask x y => (y.run E s.b).bind fun r => .ok (({ s with b := r.2 } : PyState).bindVar x (.own r.1))
  | .getQ x => .ok (s.bindVar x (.qView s.b.dof))
  | .getDq x => .ok (s.bindVar x (.dqView s.b.dof))
  | .getLink x i => (s.b.pyIndex i).bind fun k => .ok (s.bindVar x (.link k s.links))
  | .getLoad x k => match s.b.load k with
    | none => .throws
    | some _ => .ok (s.bindVar x (.load k (s.node k)))
  | .editLink x e => s.editLink e (s.var x)
  | .editLoad x e => s.editLoad e (s.var x)

/-- The state after a statement whose exceptions are caught; `none` after undefined behaviour. -/
noncomputable def exec (E : Ext) (moves : ℕ → Bool) (s : PyState) (t : PyStmt) : Option PyState :=
  match s.step E moves t with
  | .ok s' => some s'
  | .throws => some s
  | .ub => none

/-- Run a program. -/
noncomputable def run (E : Ext) (moves : ℕ → Bool) : PyState → List PyStmt → Option PyState
  | s, [] => some s
  | s, t :: l => (s.exec E moves t).bind fun s' => run E moves s' l

/-- What the elements of variable `x` read as: the memory of the body for a view, undefined when that
memory has been given back. -/
def read (s : PyState) (x : ℕ) : Out Ans :=
  match s.var x with
  | none => .throws
  | some (.own a) => .ok a
  | some (.qView n) => if n = s.b.dof then .ok (.vec s.b.q) else .ub
  | some (.dqView n) => if n = s.b.dof then .ok (.vec s.b.dq) else .ub
  | some (.link k n) => if n = s.links then .ok (.rb (s.b.rb k)) else .ub
  | some (.load k n) => if n = s.node k then
      (match s.b.load k with | none => .ub | some I => .ok (.inertia I)) else .ub

/-- A program starts with a new body. -/
def start (c : Cache) : PyState := ⟨Body.init c, fun _ => none, 0, fun _ => 0⟩

end PyState
end SpatialDyn
