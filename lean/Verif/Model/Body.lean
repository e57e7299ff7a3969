import Verif.Model.Joint
import Verif.Model.ForwardDynamics

/-!
# `ArticulatedBody`: tree, state and cache

State machine for `include/spatial_dyn/structs/articulated_body.h`,
`src/structs/articulated_body.cc` and the cache of
`include/spatial_dyn/structs/articulated_body_cache.h`.  Every cached quantity is kept together with
its validity flag, as in the C++.  Scratch arrays are functions of the index; entries that have not
been written hold arbitrary values.

Simplifications: `name` and `graphics` are left out (never read by an algorithm); `VectorXd` state is
a list of reals (no NaN); vector arguments of algorithms are functions of the index, so a vector of
the wrong size is outside the model.
-/

namespace SpatialDyn

/-- Outcome of a call: a value, a C++ exception, or undefined behaviour. -/
inductive Out (α : Type*) where
  | ok (a : α)
  | throws
  | ub

namespace Out
/-- Sequencing of outcomes. -/
def bind {α β : Type*} (x : Out α) (f : α → Out β) : Out β :=
  match x with
  | ok a => f a
  | throws => throws
  | ub => ub
end Out

/-- A dense matrix with its dimensions (`Eigen::MatrixXd`); entries outside the dimensions are never
read. -/
structure DMat where
  rows : ℕ
  cols : ℕ
  e : ℕ → ℕ → ℝ

/-- `RigidBody` (`rigid_body.h:34-160`): pose in the parent at rest, inertia, joint, ids. -/
structure RB where
  id : ℤ := -1
  idParent : ℤ := -1
  T : Iso := 1
  inertia : Inertia := ⟨1, 0, 0⟩
  joint : Joint := {}

/-- `OpspaceData` (`articulated_body_cache.h:92-107`). -/
structure OpsCache where
  J : DMat
  eps : ℝ
  lambdaDone : Bool
  Lambda : DMat
  lambdaInvDone : Bool
  LambdaInv : DMat
  AinvJT : DMat
  singular : Bool
  jbarDone : Bool
  Jbar : DMat

/-- `OpspaceAbaData` (`articulated_body_cache.h:109-124`).  The scratch arrays `p`, `u` are rewritten
before every use and are left out. -/
structure OpsAbaCache where
  idx : ℕ
  offset : Vec3
  eps : ℝ
  lambdaDone : Bool
  Lambda : Matrix (Fin 6) (Fin 6) ℝ
  lambdaInvDone : Bool
  LambdaInv : Matrix (Fin 6) (Fin 6) ℝ

/-- `DrneaData` (`articulated_body_cache.h:126-139`). -/
structure DrneaCache where
  qPrev : ℕ → ℝ
  dt : ℝ
  qPrevValid : Bool
  TToPrev : ℕ → Iso
  pPrev : ℕ → Force
  prevDone : Bool
  TFromNext : ℕ → Iso
  p : ℕ → Force
  dp : ℕ → Force

/-- `ArticulatedBody::Cache` (`articulated_body_cache.h:20-141`). -/
structure Cache where
  /-- `T_data_.is_T_to_parent_computed` -/
  tpDone : Bool
  Tp : ℕ → Iso
  /-- `T_data_.is_T_to_world_computed` -/
  twDone : Bool
  Tw : ℕ → Iso
  /-- `vel_data_.is_computed` -/
  velDone : Bool
  v : ℕ → Motion
  /-- `jac_data_.is_computed` -/
  jacDone : Bool
  jacLink : ℕ
  jacOffset : Vec3
  J : ℕ → Motion
  /-- `cc_data_.is_computed` -/
  ccDone : Bool
  cC : ℕ → Motion
  fC : ℕ → Force
  C : ℕ → ℝ
  /-- `grav_data_.is_computed` -/
  gravDone : Bool
  fG : ℕ → Force
  G : ℕ → ℝ
  /-- `rnea_data_` -/
  a : ℕ → Motion
  f : ℕ → Force
  /-- `crba_data_.is_computed` -/
  crbaDone : Bool
  Ic : ℕ → Inertia
  A : ℕ → ℕ → ℝ
  /-- `crba_data_.is_inv_computed` -/
  invDone : Bool
  /-- the matrix whose LDLT factorisation is stored in `crba_data_.A_inv` -/
  Afact : ℕ → ℕ → ℝ
  /-- `aba_data_.is_computed` -/
  abaDone : Bool
  aba : AbaCache
  /-- `aba_data_.is_A_inv_computed`; the scratch arrays `P`, `A` are zeroed before every use and are
  left out -/
  abaInvDone : Bool
  abaInv : ℕ → ℕ → ℝ
  ops : OpsCache
  opsAba : OpsAbaCache
  drnea : DrneaCache

/-- `ArticulatedBody` with a live cache.  `dof_` is the number of rigid bodies (both grow together in
`AddRigidBody`); bodies whose cache has been moved away are in `Verif.Model.Store`. -/
structure Body where
  rbs : List RB
  q : List ℝ
  dq : List ℝ
  g : Vec3
  /-- `inertia_load_`; the key is the `int` link index before its conversion to `size_t`, which is
  injective -/
  load : ℤ → Option Inertia
  T0 : Iso
  inertiaBase : Inertia
  anc : List (List ℕ)
  sub : List (List ℕ)
  c : Cache

namespace Cache

/-- `ClearDynamicsCache` (`articulated_body.cc:73-86`). -/
def clearDynamics (c : Cache) : Cache :=
  { c with
    ccDone := false, gravDone := false, crbaDone := false, invDone := false, abaDone := false
    abaInvDone := false
    ops := { c.ops with lambdaDone := false, lambdaInvDone := false, jbarDone := false }
    opsAba := { c.opsAba with lambdaDone := false, lambdaInvDone := false }
    drnea := { c.drnea with prevDone := false } }

/-- The cache part of `set_q` (`articulated_body.cc:101-107`). -/
def clearQ (c : Cache) : Cache :=
  { c with tpDone := false, twDone := false, velDone := false, jacDone := false
           drnea := { c.drnea with qPrevValid := false } }.clearDynamics

/-- The cache part of `set_dq` (`articulated_body.cc:123-127`). -/
def clearDq (c : Cache) : Cache :=
  { c with velDone := false, ccDone := false, abaDone := false
           drnea := { c.drnea with qPrevValid := false } }

/-- The cache part of `set_g` (`articulated_body.cc:132-134`). -/
def clearG (c : Cache) : Cache := { c with gravDone := false, abaDone := false }

/-- The cache part of `ExpandDof` (`articulated_body.cc:279-343`): every flag is reset; the arrays
grow (new entries are uninitialised, except `T_to_prev`, `T_from_next`, which are the identity). -/
def expand (c : Cache) (id : ℕ) : Cache :=
  { c with
    tpDone := false, twDone := false, velDone := false, jacDone := false
    ccDone := false, gravDone := false, crbaDone := false, invDone := false, abaDone := false
    abaInvDone := false
    ops := { c.ops with lambdaDone := false, lambdaInvDone := false, jbarDone := false }
    opsAba := { c.opsAba with lambdaDone := false, lambdaInvDone := false }
    drnea := { c.drnea with
      qPrevValid := false, prevDone := false
      TToPrev := Function.update c.drnea.TToPrev id 1
      TFromNext := Function.update c.drnea.TFromNext id 1 } }

end Cache

namespace Body

/-- `dof()`. -/
def dof (b : Body) : ℕ := b.rbs.length

/-- `if (i < 0) i += dof();` (e.g. `articulated_body.cc:69`). -/
def resolve (b : Body) (i : ℤ) : ℤ := if i < 0 then i + b.dof else i

/-- An index used to access one of the `dof()`-sized arrays: out of range is undefined behaviour. -/
def index (b : Body) (i : ℤ) : Out ℕ :=
  let k := b.resolve i
  if 0 ≤ k ∧ k < b.dof then .ok k.toNat else .ub

/-- `rigid_bodies_[i]` for an index in range. -/
def rb (b : Body) (i : ℕ) : RB := b.rbs.getD i {}

/-- `id_parent()`; any negative id means no parent (`id_parent < 0` in every algorithm). -/
def par (b : Body) (i : ℕ) : Option ℕ :=
  let p := (b.rb i).idParent
  if p < 0 then none else some p.toNat

/-- `rigid_bodies(i)` (`articulated_body.cc:68-71`). -/
def rigidBody (b : Body) (i : ℤ) : Out RB := (b.index i).bind fun k => .ok (b.rb k)

/-- `q(i)` (`articulated_body.cc:88-91`). -/
def qAt (b : Body) (i : ℤ) : Out ℝ := (b.index i).bind fun k => .ok (b.q.getD k 0)

/-- `dq(i)` (`articulated_body.cc:110-113`). -/
def dqAt (b : Body) (i : ℤ) : Out ℝ := (b.index i).bind fun k => .ok (b.dq.getD k 0)

/-- `ancestors(i)` (`articulated_body.cc:224-227`). -/
def ancestors (b : Body) (i : ℤ) : Out (List ℕ) := (b.index i).bind fun k => .ok (b.anc.getD k [])

/-- `subtree(i)` (`articulated_body.cc:228-231`). -/
def subtree (b : Body) (i : ℤ) : Out (List ℕ) := (b.index i).bind fun k => .ok (b.sub.getD k [])

open Classical in
/-- `set_q` (`articulated_body.cc:92-108`). -/
noncomputable def setQ (b : Body) (q : List ℝ) : Out Body :=
  if q.length ≠ b.dof then .throws
  else if b.q = q then .ok b
  else .ok { b with q := q, c := b.c.clearQ }

open Classical in
/-- `set_dq` (`articulated_body.cc:114-128`). -/
noncomputable def setDq (b : Body) (dq : List ℝ) : Out Body :=
  if dq.length ≠ b.dof then .throws
  else if b.dq = dq then .ok b
  else .ok { b with dq := dq, c := b.c.clearDq }

/-- `set_g` (`articulated_body.cc:130-135`). -/
def setG (b : Body) (g : Vec3) : Body := { b with g := g, c := b.c.clearG }

/-- `AddLoad` (`articulated_body.cc:137-145`). -/
noncomputable def addLoad (b : Body) (I : Inertia) (i : ℤ) : Body :=
  let k := b.resolve i
  { b with
    load := Function.update b.load k (some (match b.load k with | none => I | some L => L.add I))
    c := b.c.clearDynamics }

/-- `ReplaceLoad` (`articulated_body.cc:147-151`). -/
def replaceLoad (b : Body) (I : Inertia) (i : ℤ) : Body :=
  { b with load := Function.update b.load (b.resolve i) (some I), c := b.c.clearDynamics }

/-- `ClearLoad` (`articulated_body.cc:153-157`). -/
def clearLoad (b : Body) (i : ℤ) : Body :=
  { b with load := Function.update b.load (b.resolve i) none, c := b.c.clearDynamics }

/-- `set_T_base_to_world` (`articulated_body.cc:159-161`): no cache flag is touched. -/
def setBase (b : Body) (T : Iso) : Body := { b with T0 := T }

open Classical in
/-- `set_inertia_base` (`articulated_body.cc:171-176`). -/
noncomputable def setInertiaBase (b : Body) (I : Inertia) : Out Body :=
  if I.mass < 0 then .throws
  else .ok { b with inertiaBase := Inertia.ofFlat I.mass I.com I.flat }

/-- Push `id` on the subtree list of every listed ancestor (`articulated_body.cc:270-272`). -/
def pushSub (sub : List (List ℕ)) (ancs : List ℕ) (id : ℕ) : List (List ℕ) :=
  ancs.foldl (fun s a => s.set a (s.getD a [] ++ [id])) sub

/-- `AddRigidBody` with `ExpandDof` (`articulated_body.cc:241-344`): the new body and its id. -/
def addRigidBody (b : Body) (rb : RB) (idParent : ℤ) : Out (ℕ × Body) :=
  let id := b.rbs.length
  if idParent ≥ id ∨ idParent < -1 then .throws
  else
    let rb' := { rb with id := id, idParent := idParent }
    let ancP := if idParent < 0 then [] else b.anc.getD idParent.toNat []
    .ok (id,
      { b with
        rbs := b.rbs ++ [rb']
        q := b.q ++ [0]
        dq := b.dq ++ [0]
        anc := b.anc ++ [ancP ++ [id]]
        sub := pushSub b.sub ancP id ++ [[id]]
        c := b.c.expand id })

/-- A new body (`articulated_body.cc:18`, member initialisers `articulated_body.h:435-448`): nothing
in it, and no flag set.  `c` holds the uninitialised cache contents. -/
def init (c : Cache) : Body :=
  { rbs := [], q := [], dq := [], g := ⟨0, 0, -9.81⟩, load := fun _ => none, T0 := 1
    inertiaBase := ⟨1, 0, 0⟩, anc := [], sub := []
    c := { c.expand 0 with tpDone := false } }

/-! ## Transforms -/

/-- Transform of body `i` to its parent at joint position `x`: `T_to_parent(i, q)`
(`articulated_body.cc:190-194`). -/
noncomputable def TpAt (b : Body) (i : ℕ) (x : ℝ) : Iso :=
  (b.rb i).T * (b.rb i).joint.type.Tjoint x

/-- The values returned by `T_to_parent(i)` in the current state (`articulated_body.cc:178-189`). -/
noncomputable def viewTp (b : Body) : ℕ → Iso :=
  if b.c.tpDone then b.c.Tp
  else fwdLoop b.dof (fun _ j _ => b.TpAt j (b.q.getD j 0)) b.c.Tp

/-- The loop of `T_to_world` (`articulated_body.cc:201-208`). -/
def worldLoop (n : ℕ) (par : ℕ → Option ℕ) (T0 : Iso) (Tp Tw0 : ℕ → Iso) : ℕ → Iso :=
  fwdLoop n (fun Tw j _ => match par j with
    | none => T0 * Tp j
    | some p => Tw p * Tp j) Tw0

/-- The values returned by `T_to_world(i)` in the current state (`articulated_body.cc:196-212`). -/
noncomputable def viewTw (b : Body) : ℕ → Iso :=
  if b.c.twDone then b.c.Tw
  else worldLoop b.dof b.par b.T0 b.viewTp b.c.Tw

/-- State after a call of `T_to_parent(i)`. -/
noncomputable def touchTp (b : Body) : Body := { b with c := { b.c with tpDone := true, Tp := b.viewTp } }

/-- State after a call of `T_to_world(i)`. -/
noncomputable def touchTw (b : Body) : Body :=
  if b.c.twDone then b
  else { b with c := { b.c with tpDone := true, Tp := b.viewTp, twDone := true, Tw := b.viewTw } }

/-- State after an algorithm that called `T_to_world` if `tw` and `T_to_parent` if `tp`. -/
noncomputable def touch (b : Body) (tp tw : Bool) : Body :=
  let b := if tw then b.touchTw else b
  if tp then b.touchTp else b

/-- `T_to_parent(i)` (`articulated_body.cc:178-189`). -/
noncomputable def tToParent (b : Body) (i : ℤ) : Out (Iso × Body) :=
  (b.index i).bind fun k => .ok (b.viewTp k, b.touchTp)

/-- `T_to_world(i)` (`articulated_body.cc:196-212`). -/
noncomputable def tToWorld (b : Body) (i : ℤ) : Out (Iso × Body) :=
  (b.index i).bind fun k => .ok (b.viewTw k, b.touchTw)

/-- Friction coefficients as reals. -/
def fric (j : Joint) : Fric := ⟨j.fCoulomb.val, j.fViscous.val, j.fStiction.val⟩

/-- What an algorithm reads from the body, given the transforms it sees.  Entries outside the body
are filled with fixed values: they are never read. -/
noncomputable def sysWith (b : Body) (Tp Tw : ℕ → Iso) : Sys where
  n := b.dof
  par := b.par
  S i := (b.rb i).joint.subspace
  I i := (b.rb i).inertia
  load i := b.load i
  Tp i := if i < b.dof then Tp i else 1
  Tw i := if i < b.dof then Tw i else 1
  dq i := b.dq.getD i 0
  g := ⟨b.g, 0⟩
  fr i := fric (b.rb i).joint

/-- The system as seen by an algorithm in the current state (cached transforms where the flags say
so). -/
noncomputable def view (b : Body) : Sys := b.sysWith b.viewTp b.viewTw

/-- Some body has a parent, so the algorithms call `T_to_parent` / `T_from_parent`. -/
def hasChild (b : Body) : Bool := (List.range b.dof).any fun i => (b.par i).isSome

/-- Some body is a root. -/
def hasRoot (b : Body) : Bool := (List.range b.dof).any fun i => (b.par i).isNone

/-- Some body has an external force. -/
def hasExt (b : Body) (fext : FExt) : Bool := (List.range b.dof).any fun i => (fext i).isSome

/-! ## Joint-space dynamics with caching -/

/-- Body arrays `vel.v`, `rnea.a`, `rnea.f`. -/
def vaf (b : Body) : ℕ → VAF := fun i => ⟨b.c.v i, b.c.a i, b.c.f i⟩

/-- `ExternalTorques` (`inverse_dynamics.cc:171-197`). -/
noncomputable def externalTorques (b : Body) (fext : FExt) : (ℕ → ℝ) × Body :=
  let r := b.view.extTorques fext b.c.fG
  let b := b.touch b.hasChild (b.hasExt fext)
  (r.1, { b with c := { b.c with fG := r.2 } })

/-- `InverseDynamics` (`inverse_dynamics.cc:21-97`), with its cached fast path. -/
noncomputable def inverseDynamics (b : Body) (ddq : ℕ → ℝ) (fext : FExt) (o : IDOpts) :
    (ℕ → ℝ) × Body :=
  if b.c.crbaDone && (!o.cc || b.c.ccDone) && (!o.gravity || b.c.gravDone) then
    let A := b.c.A
    let r := b.externalTorques fext
    let tau : ℕ → ℝ := fun i => (∑ j ∈ Finset.range b.dof, A i j * ddq j) + r.1 i
    let tau := if o.cc then fun i => tau i + b.c.C i else tau
    let tau := if o.gravity then fun i => tau i + b.c.G i else tau
    (b.view.addFriction o tau, r.2)
  else
    let r := b.view.rnea ddq fext o b.c.velDone b.vaf
    let b := b.touch b.hasChild ((o.gravity && b.hasRoot) || b.hasExt fext)
    (r.1, { b with c := { b.c with
      v := fun i => (r.2 i).v, a := fun i => (r.2 i).a, f := fun i => (r.2 i).f
      velDone := o.cc } })

/-- `CentrifugalCoriolis` (`inverse_dynamics.cc:99-142`). -/
noncomputable def centrifugalCoriolis (b : Body) : (ℕ → ℝ) × Body :=
  if b.c.ccDone then (b.c.C, b)
  else
    let r := b.view.coriolis b.c.velDone (fun i => ⟨b.c.v i, b.c.cC i, b.c.fC i⟩) b.c.C
    let b := b.touch b.hasChild false
    (r.1, { b with c := { b.c with
      v := fun i => (r.2 i).v, cC := fun i => (r.2 i).a, fC := fun i => (r.2 i).f
      velDone := true, C := r.1, ccDone := true } })

/-- `Gravity` (`inverse_dynamics.cc:144-169`). -/
noncomputable def gravity (b : Body) : (ℕ → ℝ) × Body :=
  if b.c.gravDone then (b.c.G, b)
  else
    let r := b.view.gravity b.c.fG b.c.G
    let b := b.touch b.hasChild (decide (0 < b.dof))
    (r.1, { b with c := { b.c with fG := r.2, G := r.1, gravDone := true } })

/-- `Friction` (`inverse_dynamics.cc:199-221`). -/
noncomputable def friction (b : Body) (tau : ℕ → ℝ) (compensate : Bool) (eps : ℝ) : ℕ → ℝ :=
  b.view.friction tau compensate eps

/-- `Inertia` (`inverse_dynamics.cc:223-257`). -/
noncomputable def inertia (b : Body) : (ℕ → ℕ → ℝ) × Body :=
  if b.c.crbaDone then (b.c.A, b)
  else
    let r := b.view.crba b.c.Ic
    let b := b.touch b.hasChild false
    (r.2, { b with c := { b.c with Ic := r.1, A := r.2, crbaDone := true } })

/-- `CompositeInertia` (`inverse_dynamics.cc:259-265`). -/
noncomputable def compositeInertia (b : Body) (link : ℤ) : Out (Inertia × Body) :=
  (b.index link).bind fun k => let b := b.inertia.2; .ok (b.c.Ic k, b)

/-- `InertiaInverse` (`forward_dynamics.cc:137-144`): the factorised matrix. -/
noncomputable def inertiaInverse (b : Body) : (ℕ → ℕ → ℝ) × Body :=
  if b.c.invDone then (b.c.Afact, b)
  else
    let r := b.inertia
    (r.1, { r.2 with c := { r.2.c with Afact := r.1, invDone := true } })

/-- `ForwardDynamics` (`forward_dynamics.cc:21-30`). -/
noncomputable def forwardDynamics (b : Body) (tau : ℕ → ℝ) (fext : FExt) (o : FDOpts) :
    Option (ℕ → ℝ) × Body :=
  let r := b.inverseDynamics (fun _ => 0) fext ⟨o.gravity, o.cc, false, 0.01⟩
  let s := r.2.inertiaInverse
  (b.view.fdSolve tau r.1 s.1 o, s.2)

/-- `ForwardDynamicsAba` (`forward_dynamics.cc:32-135`). -/
noncomputable def forwardDynamicsAba (b : Body) (tau : ℕ → ℝ) (fext : FExt) (o : FDOpts) :
    (ℕ → ℝ) × Body :=
  let r := b.view.aba tau fext o b.c.velDone b.c.abaDone b.vaf b.c.aba
  let b := b.touch (b.hasChild || (o.gravity && b.hasRoot)) (b.hasExt fext)
  (r.ddq, { b with c := { b.c with
    v := fun i => (r.arr i).v, a := fun i => (r.arr i).a, f := fun i => (r.arr i).f
    velDone := o.cc, aba := r.cache, abaDone := true } })

end Body
end SpatialDyn
