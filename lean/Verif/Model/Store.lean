import Verif.Model.Machine

/-!
# Several bodies in memory: copies, moves, assignment, destruction

`ArticulatedBody` owns its cache through a `std::unique_ptr` (`articulated_body.h:427`).  Here objects
live in a memory with a heap of caches, and a body holds the address of its cache, so that sharing a
cache by mistake, a dangling pointer or a null pointer would be visible.

Simplifications: `name` and `graphics` are left out.  A moved-from `std::vector` or `Eigen::VectorXd`
is empty; a moved-from `std::map` is taken to be empty too (the standard only says "valid").  After
`AddRigidBody` on a moved-from body `q_` and `dq_` are longer than the number of rigid bodies; the
extra entries are uninitialised and left out, and reading them is undefined behaviour.
-/

namespace SpatialDyn

/-- An `ArticulatedBody` object (`articulated_body.h:425-450`): its members, with the cache pointer. -/
structure Obj where
  ptr : Option ℕ
  dof : ℕ
  rbs : List RB
  q : List ℝ
  dq : List ℝ
  g : Vec3
  load : ℤ → Option Inertia
  T0 : Iso
  inertiaBase : Inertia
  anc : List (List ℕ)
  sub : List (List ℕ)

/-- Member initialiser of `inertia_base_` (`articulated_body.h:445`). -/
def defaultInertiaBase : Inertia := ⟨1, 0, 0⟩

namespace Obj

/-- The body formed by an object and the contents of its cache. -/
def body (o : Obj) (c : Cache) : Body :=
  { rbs := o.rbs, q := o.q, dq := o.dq, g := o.g, load := o.load, T0 := o.T0
    inertiaBase := o.inertiaBase, anc := o.anc, sub := o.sub, c := c }

/-- The object part of a body whose cache is at address `a`. -/
def ofBody (a : Option ℕ) (b : Body) : Obj :=
  { ptr := a, dof := b.rbs.length, rbs := b.rbs, q := b.q, dq := b.dq, g := b.g, load := b.load
    T0 := b.T0, inertiaBase := b.inertiaBase, anc := b.anc, sub := b.sub }

/-- What the move constructor leaves in its argument (`articulated_body.cc:35-47`): `dof_`, `g_`,
`T_base_to_world_` and `inertia_base_` keep their values. -/
def husk (o : Obj) : Obj :=
  { o with ptr := none, rbs := [], q := [], dq := [], load := fun _ => none, anc := [], sub := [] }

/-- `if (i < 0) i += dof();` -/
def resolve (o : Obj) (i : ℤ) : ℤ := if i < 0 then i + o.dof else i

/-- Access to an array of the given length. -/
def access {α : Type*} (o : Obj) (l : List α) (i : ℤ) : Out ℕ :=
  if 0 ≤ o.resolve i ∧ o.resolve i < l.length then .ok (o.resolve i).toNat else .ub

/-- Queries on an object without cache.  All algorithms and the transforms dereference the null
pointer; the rest index the member vectors with the stored `dof_`.  `c` stands for the missing cache:
it is not read. -/
noncomputable def askNull (o : Obj) (c : Cache) : Query → Out Ans
  | .rigidBody i => (o.access o.rbs i).bind fun k => .ok (.rb (o.rbs.getD k {}))
  | .q i => (o.access o.rbs i).bind fun k => .ok (.real (o.q.getD k 0))
  | .dq i => (o.access o.rbs i).bind fun k => .ok (.real (o.dq.getD k 0))
  | .ancestors i => (o.access o.anc i).bind fun k => .ok (.ids (o.anc.getD k []))
  | .subtree i => (o.access o.sub i).bind fun k => .ok (.ids (o.sub.getD k []))
  | .positionQ u i x =>
    if o.resolve i = -1 then .ok (.vec3 (o.T0.app x))
    else (o.access o.rbs i).bind fun k => ((o.body c).positionQ u k x).map .vec3
  | .orientationQ u i =>
    if o.resolve i = -1 then .ok (.mat3 (o.T0.R * 1))
    else (o.access o.rbs i).bind fun k => ((o.body c).orientationQ u k).map .mat3
  | .jacobianQ u i x =>
    (o.access o.rbs i).bind fun k => ((o.body c).jacobianQ u k x).map fun J => .cols (take o.dof J)
  | .friction t cp e =>
    if o.dof ≤ o.rbs.length then .ok (.vec (take o.dof ((o.body c).friction t cp e))) else .ub
  | _ => .ub

open Classical in
/-- Other calls on an object without cache (`articulated_body.cc:92-176,241-280`). -/
noncomputable def stepNull (o : Obj) (c : Cache) : Op → Out Obj
  | .addRigidBody rb p =>
    ((o.body c).addRigidBody rb p).map fun r => { ofBody none r.2 with dof := o.dof + 1 }
  | .setQ q =>
    if q.length ≠ o.dof then .throws
    else if o.rbs.length < o.dof then .ub
    else .ok { o with q := q }
  | .setDq dq =>
    if dq.length ≠ o.dof then .throws
    else if o.rbs.length < o.dof then .ub
    else .ok { o with dq := dq }
  | .setG g => .ok { o with g := g }
  | .addLoad _ _ => .ub
  | .replaceLoad _ _ => .ub
  | .clearLoad _ => .ub
  | .setBase T => .ok { o with T0 := T }
  | .setInertiaBase I =>
    if I.mass < 0 then .throws
    else .ok { o with inertiaBase := Inertia.ofFlat I.mass I.com I.flat }
  | .query x => (o.askNull c x).map fun _ => o
  | .integrate .. => .ub
  | .discreteIntegrate .. => .ub

end Obj

/-- Memory: caches on the heap, body objects by handle, and the next fresh address. -/
structure Mem where
  heap : ℕ → Option Cache
  objs : ℕ → Option Obj
  next : ℕ

/-- Statements of a program that uses several bodies. -/
inductive Cmd where
  /-- `ArticulatedBody h;` with the given uninitialised cache contents -/
  | create (h : ℕ) (c : Cache)
  /-- `ArticulatedBody h(s);` -/
  | copy (h s : ℕ)
  /-- `ArticulatedBody h(std::move(s));` -/
  | move (h s : ℕ)
  /-- `h = s;` (also for an rvalue `s`: move assignment is not declared) -/
  | assign (h s : ℕ)
  /-- end of the lifetime of `h` -/
  | destroy (h : ℕ)
  /-- a call on `h` -/
  | call (h : ℕ) (op : Op)

namespace Mem

/-- Memory before the program starts. -/
def empty : Mem := ⟨fun _ => none, fun _ => none, 0⟩

/-- `new Cache(c)`. -/
def alloc (m : Mem) (c : Cache) : Mem :=
  { m with heap := Function.update m.heap m.next (some c), next := m.next + 1 }

/-- `delete p` (`p` may be null). -/
def free (m : Mem) : Option ℕ → Mem
  | none => m
  | some a => { m with heap := Function.update m.heap a none }

/-- Write an object. -/
def put (m : Mem) (h : ℕ) (o : Option Obj) : Mem := { m with objs := Function.update m.objs h o }

/-- Dereference the cache pointer of an object: undefined when it is null or dangling. -/
def deref (m : Mem) (o : Obj) : Out (ℕ × Cache) :=
  match o.ptr with
  | none => .ub
  | some a => match m.heap a with
    | none => .ub
    | some c => .ok (a, c)

/-- Look up an object. -/
def get (m : Mem) (h : ℕ) : Out Obj :=
  match m.objs h with
  | none => .ub
  | some o => .ok o

/-- A call on an object whose cache pointer is not null.  The body model takes `dof_` to be the number
of rigid bodies; an object for which this fails is outside the model (and never arises, see
`Mem.OK`). -/
noncomputable def callLive (E : Ext) (m : Mem) (h : ℕ) (o : Obj) (op : Op) : Out Mem :=
  (m.deref o).bind fun ac =>
    if o.dof ≠ o.rbs.length then .ub
    else (op.step E (o.body ac.2)).bind fun b =>
      .ok ({ m with heap := Function.update m.heap ac.1 (some b.c) }.put h
        (some (Obj.ofBody (some ac.1) b)))

/-- One statement.  `junk` is the cache content handed to the queries of an object without cache. -/
noncomputable def step (E : Ext) (junk : Cache) (m : Mem) : Cmd → Out Mem
  | .create h c =>
    match m.objs h with
    | some _ => .ub
    | none =>
      let b := Body.init c
      .ok ((m.alloc b.c).put h (some (Obj.ofBody (some m.next) b)))
  | .copy h s =>
    match m.objs h with
    | some _ => .ub
    | none => (m.get s).bind fun o => (m.deref o).bind fun ac =>
      .ok ((m.alloc ac.2).put h
        (some { o with ptr := some m.next, inertiaBase := defaultInertiaBase }))
  | .move h s =>
    match m.objs h with
    | some _ => .ub
    | none => (m.get s).bind fun o =>
      .ok ((m.put h (some { o with inertiaBase := defaultInertiaBase })).put s (some o.husk))
  | .assign h s =>
    (m.get h).bind fun t => (m.get s).bind fun o => (m.deref o).bind fun ac =>
      .ok (((m.alloc ac.2).free t.ptr).put h
        (some { o with ptr := some m.next, inertiaBase := t.inertiaBase }))
  | .destroy h => (m.get h).bind fun o => .ok ((m.free o.ptr).put h none)
  | .call h op => (m.get h).bind fun o =>
    match o.ptr with
    | none => (o.stepNull junk op).bind fun o' => .ok (m.put h (some o'))
    | some _ => m.callLive E h o op

/-- State after a statement whose exceptions are caught; `none` after undefined behaviour. -/
noncomputable def exec (E : Ext) (junk : Cache) (m : Mem) (x : Cmd) : Option Mem :=
  match m.step E junk x with
  | .ok m' => some m'
  | .throws => some m
  | .ub => none

/-- Run a program. -/
noncomputable def run (E : Ext) (junk : Cache) : Mem → List Cmd → Option Mem
  | m, [] => some m
  | m, x :: l => (m.exec E junk x).bind fun m' => run E junk m' l

/-- The answer to a query on `h`. -/
noncomputable def ask (E : Ext) (junk : Cache) (m : Mem) (h : ℕ) (x : Query) : Out Ans :=
  (m.get h).bind fun o =>
    match o.ptr with
    | none => o.askNull junk x
    | some _ => (m.deref o).bind fun ac =>
      if o.dof ≠ o.rbs.length then .ub else (x.run E (o.body ac.2)).map Prod.fst

/-- `inertia_base()` (`articulated_body.h:250`). -/
def inertiaBase (m : Mem) (h : ℕ) : Out Inertia := (m.get h).bind fun o => .ok o.inertiaBase

end Mem
end SpatialDyn
