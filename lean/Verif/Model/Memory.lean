import Verif.Model.Machine

/-!
# Calls as sequences of memory accesses

A call on an `ArticulatedBody` reads and writes members of the object and of its cache
(`articulated_body.h:412-427`, `articulated_body_cache.h:20-141`).  There is no lock and no atomic in
`/repo/src`, so what two threads may do at the same time is decided by these accesses alone.  `Prog`
is a call as a sequence of accesses, `Cell` the members.

A `std::vector` or an Eigen matrix is one cell.  Its entries above `dof()` are kept, which the
programs do by reading the cell before they write it; the C++ does not read there.
-/

namespace SpatialDyn

/-- A computation that reads and writes memory cells one at a time. -/
inductive Prog (L : Type) (V : L → Type) (α : Type) where
  | ret (a : α)
  | read (l : L) (k : V l → Prog L V α)
  | write (l : L) (x : V l) (k : Prog L V α)

namespace Prog
variable {L : Type} {V : L → Type} {α β : Type}

/-- Sequencing. -/
def bind : Prog L V α → (α → Prog L V β) → Prog L V β
  | .ret a, f => f a
  | .read l k, f => .read l fun x => (k x).bind f
  | .write l x k, f => .write l x (k.bind f)

instance : Monad (Prog L V) where
  pure := .ret
  bind := bind

/-- Go on with the value of an outcome; an exception or undefined behaviour ends the call. -/
def andThen (x : Prog L V (Out α)) (f : α → Prog L V (Out β)) : Prog L V (Out β) :=
  x.bind fun
    | .ok a => f a
    | .throws => .ret .throws
    | .ub => .ret .ub

end Prog

/-- The flags of the cache (`articulated_body_cache.h`). -/
inductive Flag where
  | tp | tw | vel | jac | cc | grav | crba | inv | aba | abaInv
  | lambda | lambdaInv | jbar | abaLambda | abaLambdaInv | qPrev | prev
  deriving DecidableEq

/-- The tree of an `ArticulatedBody`: `rigid_bodies_`, `dof_`, `ancestors_`, `subtrees_`. -/
structure Shape where
  rbs : List RB
  anc : List (List ℕ)
  sub : List (List ℕ)

/-- Data of `OpspaceAbaData` besides the flags. -/
structure OpsAbaData where
  idx : ℕ
  offset : Vec3
  eps : ℝ
  Lambda : Matrix (Fin 6) (Fin 6) ℝ
  LambdaInv : Matrix (Fin 6) (Fin 6) ℝ

/-- Data of `DrneaData` besides the flags. -/
structure DrneaStore where
  qPrev : ℕ → ℝ
  dt : ℝ
  TToPrev : ℕ → Iso
  pPrev : ℕ → Force
  TFromNext : ℕ → Iso
  p : ℕ → Force
  dp : ℕ → Force

/-- The memory cells of one body: its members, and those of its cache. -/
inductive Cell where
  | flag (F : Flag)
  | tree | q | dq | g | load | base | inertiaBase
  | tp | tw | v | jacLink | jacOffset | J | cC | fC | C | fG | G | a | f | Ic | A | Afact
  | aba | abaInv
  | opsJ | opsEps | lambda | lambdaInv | ainvJT | singular | jbar
  | opsAba | drnea
  deriving DecidableEq

/-- What a cell holds. -/
@[reducible] def Cell.Val : Cell → Type
  | .flag _ => Bool
  | .tree => Shape
  | .q | .dq => List ℝ
  | .g => Vec3
  | .load => ℤ → Option Inertia
  | .base => Iso
  | .inertiaBase => Inertia
  | .tp | .tw => ℕ → Iso
  | .v | .J | .cC | .a => ℕ → Motion
  | .jacLink => ℕ
  | .jacOffset => Vec3
  | .fC | .fG | .f => ℕ → Force
  | .C | .G => ℕ → ℝ
  | .Ic => ℕ → Inertia
  | .A | .Afact | .abaInv => ℕ → ℕ → ℝ
  | .aba => AbaCache
  | .opsJ | .lambda | .lambdaInv | .ainvJT | .jbar => DMat
  | .opsEps => ℝ
  | .singular => Bool
  | .opsAba => OpsAbaData
  | .drnea => DrneaStore

namespace Body

/-- A flag of the cache. -/
def getFlag (b : Body) : Flag → Bool
  | .tp => b.c.tpDone
  | .tw => b.c.twDone
  | .vel => b.c.velDone
  | .jac => b.c.jacDone
  | .cc => b.c.ccDone
  | .grav => b.c.gravDone
  | .crba => b.c.crbaDone
  | .inv => b.c.invDone
  | .aba => b.c.abaDone
  | .abaInv => b.c.abaInvDone
  | .lambda => b.c.ops.lambdaDone
  | .lambdaInv => b.c.ops.lambdaInvDone
  | .jbar => b.c.ops.jbarDone
  | .abaLambda => b.c.opsAba.lambdaDone
  | .abaLambdaInv => b.c.opsAba.lambdaInvDone
  | .qPrev => b.c.drnea.qPrevValid
  | .prev => b.c.drnea.prevDone

/-- Write a flag. -/
def putFlag (b : Body) (x : Bool) : Flag → Body
  | .tp => { b with c := { b.c with tpDone := x } }
  | .tw => { b with c := { b.c with twDone := x } }
  | .vel => { b with c := { b.c with velDone := x } }
  | .jac => { b with c := { b.c with jacDone := x } }
  | .cc => { b with c := { b.c with ccDone := x } }
  | .grav => { b with c := { b.c with gravDone := x } }
  | .crba => { b with c := { b.c with crbaDone := x } }
  | .inv => { b with c := { b.c with invDone := x } }
  | .aba => { b with c := { b.c with abaDone := x } }
  | .abaInv => { b with c := { b.c with abaInvDone := x } }
  | .lambda => { b with c := { b.c with ops := { b.c.ops with lambdaDone := x } } }
  | .lambdaInv => { b with c := { b.c with ops := { b.c.ops with lambdaInvDone := x } } }
  | .jbar => { b with c := { b.c with ops := { b.c.ops with jbarDone := x } } }
  | .abaLambda => { b with c := { b.c with opsAba := { b.c.opsAba with lambdaDone := x } } }
  | .abaLambdaInv => { b with c := { b.c with opsAba := { b.c.opsAba with lambdaInvDone := x } } }
  | .qPrev => { b with c := { b.c with drnea := { b.c.drnea with qPrevValid := x } } }
  | .prev => { b with c := { b.c with drnea := { b.c.drnea with prevDone := x } } }

/-- The tree of a body. -/
def shape (b : Body) : Shape := ⟨b.rbs, b.anc, b.sub⟩

/-- Content of a cell. -/
def getCell (b : Body) : (l : Cell) → l.Val
  | .flag F => b.getFlag F
  | .tree => b.shape
  | .q => b.q
  | .dq => b.dq
  | .g => b.g
  | .load => b.load
  | .base => b.T0
  | .inertiaBase => b.inertiaBase
  | .tp => b.c.Tp
  | .tw => b.c.Tw
  | .v => b.c.v
  | .jacLink => b.c.jacLink
  | .jacOffset => b.c.jacOffset
  | .J => b.c.J
  | .cC => b.c.cC
  | .fC => b.c.fC
  | .C => b.c.C
  | .fG => b.c.fG
  | .G => b.c.G
  | .a => b.c.a
  | .f => b.c.f
  | .Ic => b.c.Ic
  | .A => b.c.A
  | .Afact => b.c.Afact
  | .aba => b.c.aba
  | .abaInv => b.c.abaInv
  | .opsJ => b.c.ops.J
  | .opsEps => b.c.ops.eps
  | .lambda => b.c.ops.Lambda
  | .lambdaInv => b.c.ops.LambdaInv
  | .ainvJT => b.c.ops.AinvJT
  | .singular => b.c.ops.singular
  | .jbar => b.c.ops.Jbar
  | .opsAba => ⟨b.c.opsAba.idx, b.c.opsAba.offset, b.c.opsAba.eps, b.c.opsAba.Lambda,
      b.c.opsAba.LambdaInv⟩
  | .drnea => ⟨b.c.drnea.qPrev, b.c.drnea.dt, b.c.drnea.TToPrev, b.c.drnea.pPrev,
      b.c.drnea.TFromNext, b.c.drnea.p, b.c.drnea.dp⟩

/-- The body after a cell has been written. -/
def putCell (b : Body) : (l : Cell) → l.Val → Body
  | .flag F, x => b.putFlag x F
  | .tree, x => let x : Shape := x; { b with rbs := x.rbs, anc := x.anc, sub := x.sub }
  | .q, x => { b with q := x }
  | .dq, x => { b with dq := x }
  | .g, x => { b with g := x }
  | .load, x => { b with load := x }
  | .base, x => { b with T0 := x }
  | .inertiaBase, x => { b with inertiaBase := x }
  | .tp, x => { b with c := { b.c with Tp := x } }
  | .tw, x => { b with c := { b.c with Tw := x } }
  | .v, x => { b with c := { b.c with v := x } }
  | .jacLink, x => { b with c := { b.c with jacLink := x } }
  | .jacOffset, x => { b with c := { b.c with jacOffset := x } }
  | .J, x => { b with c := { b.c with J := x } }
  | .cC, x => { b with c := { b.c with cC := x } }
  | .fC, x => { b with c := { b.c with fC := x } }
  | .C, x => { b with c := { b.c with C := x } }
  | .fG, x => { b with c := { b.c with fG := x } }
  | .G, x => { b with c := { b.c with G := x } }
  | .a, x => { b with c := { b.c with a := x } }
  | .f, x => { b with c := { b.c with f := x } }
  | .Ic, x => { b with c := { b.c with Ic := x } }
  | .A, x => { b with c := { b.c with A := x } }
  | .Afact, x => { b with c := { b.c with Afact := x } }
  | .aba, x => { b with c := { b.c with aba := x } }
  | .abaInv, x => { b with c := { b.c with abaInv := x } }
  | .opsJ, x => { b with c := { b.c with ops := { b.c.ops with J := x } } }
  | .opsEps, x => { b with c := { b.c with ops := { b.c.ops with eps := x } } }
  | .lambda, x => { b with c := { b.c with ops := { b.c.ops with Lambda := x } } }
  | .lambdaInv, x => { b with c := { b.c with ops := { b.c.ops with LambdaInv := x } } }
  | .ainvJT, x => { b with c := { b.c with ops := { b.c.ops with AinvJT := x } } }
  | .singular, x => { b with c := { b.c with ops := { b.c.ops with singular := x } } }
  | .jbar, x => { b with c := { b.c with ops := { b.c.ops with Jbar := x } } }
  | .opsAba, x => let x : OpsAbaData := x
    { b with c := { b.c with opsAba := { b.c.opsAba with
      idx := x.idx, offset := x.offset, eps := x.eps, Lambda := x.Lambda
      LambdaInv := x.LambdaInv } } }
  | .drnea, x => let x : DrneaStore := x
    { b with c := { b.c with drnea := { b.c.drnea with
      qPrev := x.qPrev, dt := x.dt, TToPrev := x.TToPrev, pPrev := x.pPrev
      TFromNext := x.TFromNext, p := x.p, dp := x.dp } } }

/-- The members of an object whose tree is `t`, the rest arbitrary: functions that read the tree
only can be called on it. -/
noncomputable def _root_.SpatialDyn.Shape.body (t : Shape) : Body :=
  { rbs := t.rbs, q := [], dq := [], g := 0, load := fun _ => none, T0 := 1, inertiaBase := ⟨0, 0, 0⟩
    anc := t.anc, sub := t.sub
    c := { tpDone := false, Tp := fun _ => 1, twDone := false, Tw := fun _ => 1, velDone := false
           v := fun _ => 0, jacDone := false, jacLink := 0, jacOffset := 0, J := fun _ => 0
           ccDone := false, cC := fun _ => 0, fC := fun _ => 0, C := fun _ => 0, gravDone := false
           fG := fun _ => 0, G := fun _ => 0, a := fun _ => 0, f := fun _ => 0, crbaDone := false
           Ic := fun _ => ⟨0, 0, 0⟩, A := fun _ _ => 0, invDone := false, Afact := fun _ _ => 0
           abaDone := false, aba := ⟨fun _ => 0, fun _ => 0, fun _ => 0⟩, abaInvDone := false
           abaInv := fun _ _ => 0
           ops := ⟨⟨0, 0, fun _ _ => 0⟩, 0, false, ⟨0, 0, fun _ _ => 0⟩, false,
             ⟨0, 0, fun _ _ => 0⟩, ⟨0, 0, fun _ _ => 0⟩, false, false, ⟨0, 0, fun _ _ => 0⟩⟩
           opsAba := ⟨0, 0, 0, false, 0, false, 0⟩
           drnea := ⟨fun _ => 0, 0, false, fun _ => 1, fun _ => 0, false, fun _ => 1, fun _ => 0,
             fun _ => 0⟩ } }

end Body

/-! ## The calls -/

/-- A computation on the members of one body. -/
abbrev BProg := Prog Cell Cell.Val

namespace BProg
open Prog

/-- Read one member. -/
def rd (l : Cell) : BProg l.Val := .read l .ret

/-- Write one member. -/
def wr (l : Cell) (x : l.Val) : BProg Unit := .write l x (.ret ())

/-! Reading one member, by name. -/
namespace Rd

/-- Read a flag. -/
def flag (F : Flag) : BProg Bool := rd (.flag F)
/-- Read member `tree`. -/
def tree : BProg (Shape) := rd .tree
/-- Read member `q`. -/
def q : BProg (List ℝ) := rd .q
/-- Read member `dq`. -/
def dq : BProg (List ℝ) := rd .dq
/-- Read member `g`. -/
def g : BProg (Vec3) := rd .g
/-- Read member `load`. -/
def load : BProg (ℤ → Option Inertia) := rd .load
/-- Read member `base`. -/
def base : BProg (Iso) := rd .base
/-- Read member `tp`. -/
def tp : BProg (ℕ → Iso) := rd .tp
/-- Read member `tw`. -/
def tw : BProg (ℕ → Iso) := rd .tw
/-- Read member `v`. -/
def v : BProg (ℕ → Motion) := rd .v
/-- Read member `jacLink`. -/
def jacLink : BProg (ℕ) := rd .jacLink
/-- Read member `jacOffset`. -/
def jacOffset : BProg (Vec3) := rd .jacOffset
/-- Read member `J`. -/
def J : BProg (ℕ → Motion) := rd .J
/-- Read member `cC`. -/
def cC : BProg (ℕ → Motion) := rd .cC
/-- Read member `fC`. -/
def fC : BProg (ℕ → Force) := rd .fC
/-- Read member `C`. -/
def C : BProg (ℕ → ℝ) := rd .C
/-- Read member `fG`. -/
def fG : BProg (ℕ → Force) := rd .fG
/-- Read member `G`. -/
def G : BProg (ℕ → ℝ) := rd .G
/-- Read member `a`. -/
def a : BProg (ℕ → Motion) := rd .a
/-- Read member `f`. -/
def f : BProg (ℕ → Force) := rd .f
/-- Read member `Ic`. -/
def Ic : BProg (ℕ → Inertia) := rd .Ic
/-- Read member `A`. -/
def A : BProg (ℕ → ℕ → ℝ) := rd .A
/-- Read member `Afact`. -/
def Afact : BProg (ℕ → ℕ → ℝ) := rd .Afact
/-- Read member `aba`. -/
def aba : BProg (AbaCache) := rd .aba
/-- Read member `abaInv`. -/
def abaInv : BProg (ℕ → ℕ → ℝ) := rd .abaInv
/-- Read member `opsJ`. -/
def opsJ : BProg (DMat) := rd .opsJ
/-- Read member `opsEps`. -/
def opsEps : BProg (ℝ) := rd .opsEps
/-- Read member `lambda`. -/
def lambda : BProg (DMat) := rd .lambda
/-- Read member `lambdaInv`. -/
def lambdaInv : BProg (DMat) := rd .lambdaInv
/-- Read member `ainvJT`. -/
def ainvJT : BProg (DMat) := rd .ainvJT
/-- Read member `singular`. -/
def singular : BProg (Bool) := rd .singular
/-- Read member `jbar`. -/
def jbar : BProg (DMat) := rd .jbar

end Rd

/-- `T_to_parent` (`articulated_body.cc:178-189`): the array an entry of which is returned. -/
noncomputable def tpArr : BProg (ℕ → Iso) := do
  let done ← Rd.flag .tp
  if done then Rd.tp
  else
    let t ← Rd.tree
    let q ← Rd.q
    let old ← Rd.tp
    wr .tp (fwdLoop t.body.dof (fun _ j _ => t.body.TpAt j (q.getD j 0)) old)
    wr (.flag .tp) true
    Rd.tp

/-- `T_to_world` (`articulated_body.cc:196-212`). -/
noncomputable def twArr : BProg (ℕ → Iso) := do
  let done ← Rd.flag .tw
  if done then Rd.tw
  else
    let Tp ← tpArr
    let t ← Rd.tree
    let T0 ← Rd.base
    let old ← Rd.tw
    wr .tw (Body.worldLoop t.body.dof t.body.par T0 Tp old)
    wr (.flag .tw) true
    Rd.tw

/-- `T_to_parent` if the algorithm calls it at all; otherwise a value that is not used. -/
noncomputable def tpIf (c : Bool) : BProg (ℕ → Iso) := if c then tpArr else pure fun _ => 1

/-- `T_to_world` if the algorithm calls it at all. -/
noncomputable def twIf (c : Bool) : BProg (ℕ → Iso) := if c then twArr else pure fun _ => 1

/-- Use of a link index against `dof()` (`if (i < 0) i += dof();` and an array access). -/
noncomputable def index (i : ℤ) : BProg (Out ℕ) := do
  let t ← Rd.tree
  pure (t.body.index i)

/-- The members an algorithm reads, with the transforms it has fetched. -/
noncomputable def sys (t : Shape) (load : ℤ → Option Inertia) (dq : List ℝ) (g : Vec3)
    (Tp Tw : ℕ → Iso) : Sys :=
  ({ t.body with load := load, dq := dq, g := g } : Body).sysWith Tp Tw

open Classical in
/-- `Jacobian(ab, link, offset)` for a resolved link (`forward_kinematics.cc:61-83`). -/
noncomputable def jacobian (k : ℕ) (offset : Vec3) : BProg (ℕ → Motion) := do
  let done ← Rd.flag .jac
  let hit ← if done then (do
      let l ← Rd.jacLink
      if l = k then (do
        let x ← Rd.jacOffset
        pure (decide (x = offset)))
      else pure false)
    else pure false
  if hit then Rd.J
  else
    let Tw ← twArr
    let t ← Rd.tree
    wr .J (t.body.jacLoop Tw (t.anc.getD k []) ((Tw k).app offset))
    wr (.flag .jac) true
    wr .jacLink k
    wr .jacOffset offset
    Rd.J

/-- `ExternalTorques` (`inverse_dynamics.cc:171-197`): works in `grav.f_g`. -/
noncomputable def externalTorques (fext : FExt) : BProg (ℕ → ℝ) := do
  let t ← Rd.tree
  let Tw ← twIf (t.body.hasExt fext)
  let Tp ← tpIf t.body.hasChild
  let old ← Rd.fG
  let r := (sys t (fun _ => none) [] 0 Tp Tw).extTorques fext old
  wr .fG r.2
  pure r.1

/-- `Friction` (`inverse_dynamics.cc:199-221`). -/
noncomputable def friction (tau : ℕ → ℝ) (compensate : Bool) (eps : ℝ) : BProg (ℕ → ℝ) := do
  let t ← Rd.tree
  let dq ← Rd.dq
  pure ((sys t (fun _ => none) dq 0 (fun _ => 1) (fun _ => 1)).friction tau compensate eps)

/-- The test of the cached path (`inverse_dynamics.cc:32-33`). -/
def idCached (o : IDOpts) : BProg Bool := do
  let a ← Rd.flag .crba
  if a then
    let c ← if o.cc then Rd.flag .cc else pure true
    if c then
      if o.gravity then Rd.flag .grav else pure true
    else pure false
  else pure false

/-- `InverseDynamics` (`inverse_dynamics.cc:21-97`). -/
noncomputable def inverseDynamics (ddq : ℕ → ℝ) (fext : FExt) (o : IDOpts) : BProg (ℕ → ℝ) := do
  let cached ← idCached o
  if cached then
    let A ← Rd.A
    let t ← Rd.tree
    let e ← externalTorques fext
    let tau : ℕ → ℝ := fun i => (∑ j ∈ Finset.range t.body.dof, A i j * ddq j) + e i
    let tau ← if o.cc then (do let C ← Rd.C; pure fun i => tau i + C i) else pure tau
    let tau ← if o.gravity then (do let G ← Rd.G; pure fun i => tau i + G i) else pure tau
    if o.friction then
      let F ← friction tau true o.eps
      pure fun i => tau i + F i
    else pure tau
  else
    let t ← Rd.tree
    let load ← Rd.load
    let dq ← Rd.dq
    let g ← Rd.g
    let vel ← Rd.flag .vel
    let Tw ← twIf ((o.gravity && t.body.hasRoot) || t.body.hasExt fext)
    let Tp ← tpIf t.body.hasChild
    let v ← Rd.v
    let a ← Rd.a
    let f ← Rd.f
    let r := (sys t load dq g Tp Tw).rnea ddq fext o vel fun i => ⟨v i, a i, f i⟩
    wr .v fun i => (r.2 i).v
    wr .a fun i => (r.2 i).a
    wr .f fun i => (r.2 i).f
    wr (.flag .vel) o.cc
    pure r.1

/-- `CentrifugalCoriolis` (`inverse_dynamics.cc:99-142`). -/
noncomputable def centrifugalCoriolis : BProg (ℕ → ℝ) := do
  let done ← Rd.flag .cc
  if done then Rd.C
  else
    let t ← Rd.tree
    let load ← Rd.load
    let dq ← Rd.dq
    let vel ← Rd.flag .vel
    let Tp ← tpIf t.body.hasChild
    let v ← Rd.v
    let c ← Rd.cC
    let f ← Rd.fC
    let C ← Rd.C
    let r := (sys t load dq 0 Tp fun _ => 1).coriolis vel (fun i => ⟨v i, c i, f i⟩) C
    wr .v fun i => (r.2 i).v
    wr .cC fun i => (r.2 i).a
    wr .fC fun i => (r.2 i).f
    wr (.flag .vel) true
    wr .C r.1
    wr (.flag .cc) true
    Rd.C

/-- `Gravity` (`inverse_dynamics.cc:144-169`). -/
noncomputable def gravity : BProg (ℕ → ℝ) := do
  let done ← Rd.flag .grav
  if done then Rd.G
  else
    let t ← Rd.tree
    let load ← Rd.load
    let g ← Rd.g
    let Tw ← twIf (decide (0 < t.body.dof))
    let Tp ← tpIf t.body.hasChild
    let f ← Rd.fG
    let G ← Rd.G
    let r := (sys t load [] g Tp Tw).gravity f G
    wr .fG r.2
    wr .G r.1
    wr (.flag .grav) true
    Rd.G

/-- `Inertia` (`inverse_dynamics.cc:223-257`). -/
noncomputable def inertia : BProg (ℕ → ℕ → ℝ) := do
  let done ← Rd.flag .crba
  if done then Rd.A
  else
    let t ← Rd.tree
    let load ← Rd.load
    let Tp ← tpIf t.body.hasChild
    let I ← Rd.Ic
    let r := (sys t load [] 0 Tp fun _ => 1).crba I
    wr .Ic r.1
    wr .A r.2
    wr (.flag .crba) true
    Rd.A

/-- `InertiaInverse` (`forward_dynamics.cc:137-144`). -/
noncomputable def inertiaInverse : BProg (ℕ → ℕ → ℝ) := do
  let done ← Rd.flag .inv
  if done then Rd.Afact
  else
    let A ← inertia
    wr .Afact A
    wr (.flag .inv) true
    Rd.Afact

/-- `ForwardDynamics` (`forward_dynamics.cc:21-30`). -/
noncomputable def forwardDynamics (E : Ext) (tau : ℕ → ℝ) (fext : FExt) (o : FDOpts) :
    BProg (ℕ → ℝ) := do
  let id ← inverseDynamics (fun _ => 0) fext ⟨o.gravity, o.cc, false, 0.01⟩
  let dtau : ℕ → ℝ := fun i => tau i - id i
  let dtau ← if o.friction then (do
      let F ← friction dtau false o.eps
      pure fun i => dtau i - F i)
    else pure dtau
  let A ← inertiaInverse
  let t ← Rd.tree
  pure (E.solve t.body.dof A dtau)

/-- `ForwardDynamicsAba` (`forward_dynamics.cc:32-135`). -/
noncomputable def forwardDynamicsAba (tau : ℕ → ℝ) (fext : FExt) (o : FDOpts) :
    BProg (ℕ → ℝ) := do
  let t ← Rd.tree
  let load ← Rd.load
  let dq ← Rd.dq
  let g ← Rd.g
  let vel ← Rd.flag .vel
  let done ← Rd.flag .aba
  let Tw ← twIf (t.body.hasExt fext)
  let Tp ← tpIf (t.body.hasChild || (o.gravity && t.body.hasRoot))
  let v ← Rd.v
  let a ← Rd.a
  let f ← Rd.f
  let c ← Rd.aba
  let r := (sys t load dq g Tp Tw).aba tau fext o vel done (fun i => ⟨v i, a i, f i⟩) c
  wr .v fun i => (r.arr i).v
  wr .a fun i => (r.arr i).a
  wr .f fun i => (r.arr i).f
  wr (.flag .vel) o.cc
  wr .aba r.cache
  wr (.flag .aba) true
  pure r.ddq

/-- `InertiaInverseAba` (`forward_dynamics.cc:146-200`). -/
noncomputable def inertiaInverseAba : BProg (ℕ → ℕ → ℝ) := do
  let done ← Rd.flag .abaInv
  if done then Rd.abaInv
  else
    let t ← Rd.tree
    let load ← Rd.load
    let aba ← Rd.flag .aba
    let Tp ← tpIf t.body.hasChild
    let c ← Rd.aba
    let A ← Rd.abaInv
    let r := (sys t load [] 0 Tp fun _ => 1).inertiaInverseAba (fun i => t.sub.getD i []) aba c A
    wr .abaInv r.1
    wr .aba r.2
    wr (.flag .aba) true
    wr (.flag .abaInv) true
    Rd.abaInv

open Classical in
/-- The comparison of `ops.J` with the argument (`opspace_dynamics.cc:86,99,114`; see
`Body.opsSame`). -/
noncomputable def opsSame (J : DMat) : BProg (Out Bool) := do
  let K ← Rd.opsJ
  pure (if K.size ≠ J.size then .ok false
    else if K.rows ≠ J.rows ∨ K.cols ≠ J.cols then .ub
    else .ok (decide (K.Eqv J)))

/-- `opspace::InertiaInverse` when it recomputes (`opspace_dynamics.cc:100-105`). -/
noncomputable def opsInvCompute (E : Ext) (J : DMat) : BProg (Out DMat) := do
  let t ← Rd.tree
  if J.cols ≠ t.body.dof then pure .ub
  else
    let A ← inertiaInverse
    let X : DMat := ⟨t.body.dof, J.rows, fun i k => E.solve t.body.dof A (fun j => J.e k j) i⟩
    wr .ainvJT X
    wr .lambdaInv (J.mul X)
    wr .opsJ J
    wr (.flag .lambdaInv) true
    wr (.flag .lambda) false
    wr (.flag .jbar) false
    let L ← Rd.lambdaInv
    pure (.ok L)

/-- `opspace::InertiaInverse` (`opspace_dynamics.cc:95-108`). -/
noncomputable def opsInertiaInverse (E : Ext) (J : DMat) : BProg (Out DMat) := do
  let done ← Rd.flag .lambdaInv
  if !done then opsInvCompute E J
  else (opsSame J).andThen fun same =>
    if same then (do let L ← Rd.lambdaInv; pure (.ok L)) else opsInvCompute E J

/-- `opspace::Inertia` when it recomputes (`opspace_dynamics.cc:87-89`). -/
noncomputable def opsLambdaCompute (E : Ext) (J : DMat) (eps : ℝ) : BProg (Out DMat) :=
  (opsInertiaInverse E J).andThen fun L => do
    let r := E.pinvOf L eps
    wr .lambda r.1
    wr .singular r.2
    wr .opsEps eps
    wr (.flag .lambda) true
    let L ← Rd.lambda
    pure (.ok L)

open Classical in
/-- `opspace::Inertia` (`opspace_dynamics.cc:81-93`). -/
noncomputable def opsInertia (E : Ext) (J : DMat) (eps : ℝ) : BProg (Out DMat) := do
  let done ← Rd.flag .lambda
  if !done then opsLambdaCompute E J eps
  else (opsSame J).andThen fun same =>
    if same then (do
      let e ← Rd.opsEps
      if e = eps then (do let L ← Rd.lambda; pure (.ok L)) else opsLambdaCompute E J eps)
    else opsLambdaCompute E J eps

/-- `opspace::IsSingular` (`opspace_dynamics.cc:22-28`). -/
noncomputable def opsIsSingular (E : Ext) (J : DMat) (eps : ℝ) : BProg (Out Bool) :=
  (opsInertia E J eps).andThen fun _ => do
    let s ← Rd.singular
    pure (.ok s)

/-- `opspace::JacobianDynamicInverse` when it recomputes (`opspace_dynamics.cc:117-119`). -/
noncomputable def opsJbarCompute (E : Ext) (J : DMat) (eps : ℝ) : BProg (Out DMat) :=
  (opsInertia E J eps).andThen fun _ => do
    let X ← Rd.ainvJT
    let L ← Rd.lambda
    wr .jbar (X.mul L)
    wr (.flag .jbar) true
    let Y ← Rd.jbar
    pure (.ok Y)

open Classical in
/-- `opspace::JacobianDynamicInverse` (`opspace_dynamics.cc:110-123`). -/
noncomputable def opsJbar (E : Ext) (J : DMat) (eps : ℝ) : BProg (Out DMat) := do
  let done ← Rd.flag .jbar
  if !done then opsJbarCompute E J eps
  else (opsSame J).andThen fun same =>
    if same then (do
      let e ← Rd.opsEps
      if e = eps then (do let X ← Rd.jbar; pure (.ok X)) else opsJbarCompute E J eps)
    else opsJbarCompute E J eps

/-- Read every member. -/
def gather : BProg Body := do
  let t ← rd .tree
  let q ← rd .q
  let dq ← rd .dq
  let g ← rd .g
  let load ← rd .load
  let T0 ← rd .base
  let inertiaBase ← rd .inertiaBase
  let tpDone ← rd (.flag .tp)
  let Tp ← rd .tp
  let twDone ← rd (.flag .tw)
  let Tw ← rd .tw
  let velDone ← rd (.flag .vel)
  let v ← rd .v
  let jacDone ← rd (.flag .jac)
  let jacLink ← rd .jacLink
  let jacOffset ← rd .jacOffset
  let J ← rd .J
  let ccDone ← rd (.flag .cc)
  let cC ← rd .cC
  let fC ← rd .fC
  let C ← rd .C
  let gravDone ← rd (.flag .grav)
  let fG ← rd .fG
  let G ← rd .G
  let a ← rd .a
  let f ← rd .f
  let crbaDone ← rd (.flag .crba)
  let Ic ← rd .Ic
  let A ← rd .A
  let invDone ← rd (.flag .inv)
  let Afact ← rd .Afact
  let abaDone ← rd (.flag .aba)
  let aba ← rd .aba
  let abaInvDone ← rd (.flag .abaInv)
  let abaInv ← rd .abaInv
  let oJ ← rd .opsJ
  let oE ← rd .opsEps
  let oLd ← rd (.flag .lambda)
  let oL ← rd .lambda
  let oId ← rd (.flag .lambdaInv)
  let oI ← rd .lambdaInv
  let oX ← rd .ainvJT
  let oS ← rd .singular
  let oBd ← rd (.flag .jbar)
  let oB ← rd .jbar
  let x ← rd .opsAba
  let xLd ← rd (.flag .abaLambda)
  let xId ← rd (.flag .abaLambdaInv)
  let y ← rd .drnea
  let yV ← rd (.flag .qPrev)
  let yP ← rd (.flag .prev)
  pure { rbs := t.rbs, q, dq, g, load, T0, inertiaBase, anc := t.anc, sub := t.sub
         c := { tpDone, Tp, twDone, Tw, velDone, v, jacDone, jacLink, jacOffset, J, ccDone, cC, fC, C
                gravDone, fG, G, a, f, crbaDone, Ic, A, invDone, Afact, abaDone, aba, abaInvDone
                abaInv
                ops := ⟨oJ, oE, oLd, oL, oId, oI, oX, oS, oBd, oB⟩
                opsAba := ⟨x.idx, x.offset, x.eps, xLd, x.Lambda, xId, x.LambdaInv⟩
                drnea := ⟨y.qPrev, y.dt, yV, y.TToPrev, y.pPrev, yP, y.TFromNext, y.p, y.dp⟩ } }

/-- All cells. -/
def cells : List Cell :=
  [.flag .tp, .flag .tw, .flag .vel, .flag .jac, .flag .cc, .flag .grav, .flag .crba, .flag .inv,
   .flag .aba, .flag .abaInv, .flag .lambda, .flag .lambdaInv, .flag .jbar, .flag .abaLambda,
   .flag .abaLambdaInv, .flag .qPrev, .flag .prev, .tree, .q, .dq, .g, .load, .base, .inertiaBase,
   .tp, .tw, .v, .jacLink, .jacOffset, .J, .cC, .fC, .C, .fG, .G, .a, .f, .Ic, .A, .Afact, .aba,
   .abaInv, .opsJ, .opsEps, .lambda, .lambdaInv, .ainvJT, .singular, .jbar, .opsAba, .drnea]

/-- Write cells as they are in a body. -/
def scatter (d : Body) : List Cell → BProg Unit
  | [] => pure ()
  | l :: ls => do
    wr l (d.getCell l)
    scatter d ls

/-- A call whose accesses are not spelled out: it is taken to read and write every member of its
body. -/
def whole {α : Type} (f : Body → Out (α × Body)) : BProg (Out α) := do
  let b ← gather
  match f b with
  | .ok r => do
    scatter r.2 cells
    pure (.ok r.1)
  | .throws => pure .throws
  | .ub => pure .ub

/-- Reset flags. -/
def clear : List Flag → BProg Unit
  | [] => pure ()
  | F :: Fs => do
    wr (.flag F) false
    clear Fs

/-- The flags reset by `ClearDynamicsCache` (`articulated_body.cc:73-86`). -/
def dynamicsFlags : List Flag :=
  [.cc, .grav, .crba, .inv, .aba, .abaInv, .lambda, .lambdaInv, .jbar, .abaLambda, .abaLambdaInv,
   .prev]

open Classical in
/-- `set_q` (`articulated_body.cc:92-108`). -/
noncomputable def setQ (x : List ℝ) : BProg (Out Unit) := do
  let t ← Rd.tree
  if x.length ≠ t.body.dof then pure .throws
  else
    let old ← Rd.q
    if old = x then pure (.ok ())
    else
      wr .q x
      clear [.tp, .tw, .vel, .jac, .qPrev]
      clear dynamicsFlags
      pure (.ok ())

open Classical in
/-- `set_dq` (`articulated_body.cc:114-128`). -/
noncomputable def setDq (x : List ℝ) : BProg (Out Unit) := do
  let t ← Rd.tree
  if x.length ≠ t.body.dof then pure .throws
  else
    let old ← Rd.dq
    if old = x then pure (.ok ())
    else
      wr .dq x
      clear [.vel, .cc, .aba, .qPrev]
      pure (.ok ())

/-- `set_g` (`articulated_body.cc:130-135`). -/
def setG (x : Vec3) : BProg (Out Unit) := do
  wr .g x
  clear [.grav, .aba]
  pure (.ok ())

/-- `AddLoad`, `ReplaceLoad`, `ClearLoad` (`articulated_body.cc:137-157`): `f` is the change of the
entry. -/
noncomputable def changeLoad (i : ℤ) (f : Option Inertia → Option Inertia) : BProg (Out Unit) := do
  let t ← Rd.tree
  let k := t.body.resolve i
  let load ← Rd.load
  wr .load (Function.update load k (f (load k)))
  clear dynamicsFlags
  pure (.ok ())

/-- `set_T_base_to_world` (`articulated_body.cc:159-161`). -/
def setBase (T : Iso) : BProg (Out Unit) := do
  wr .base T
  pure (.ok ())

/-- A query whose value is computed from a link index and the transforms. -/
noncomputable def atLink {α : Type} (i : ℤ) (f : ℕ → BProg α) : BProg (Out α) :=
  (index i).andThen fun k => do
    let x ← f k
    pure (.ok x)

/-- The first `dof()` entries of an array, as the caller sees them. -/
noncomputable def sized {α β : Type} (x : BProg α) (f : ℕ → α → β) : BProg (Out β) := do
  let a ← x
  let t ← Rd.tree
  pure (.ok (f t.body.dof a))

/-- The outcome of a program that may end early, with the value transformed. -/
def mapOk {α β : Type} (x : BProg (Out α)) (f : α → β) : BProg (Out β) :=
  x.andThen fun a => pure (.ok (f a))

/-- The accesses of a query.  The last group is not spelled out (`whole`). -/
noncomputable def ofQuery (E : Ext) : Query → BProg (Out Ans)
  | .rigidBody i => do let t ← Rd.tree; pure ((t.body.rigidBody i).map .rb)
  | .q i => atLink i fun k => do let q ← Rd.q; pure (.real (q.getD k 0))
  | .dq i => atLink i fun k => do let q ← Rd.dq; pure (.real (q.getD k 0))
  | .ancestors i => do let t ← Rd.tree; pure ((t.body.ancestors i).map .ids)
  | .subtree i => do let t ← Rd.tree; pure ((t.body.subtree i).map .ids)
  | .tToParent i => atLink i fun k => do let T ← tpArr; pure (.iso (T k))
  | .tToWorld i => atLink i fun k => do let T ← twArr; pure (.iso (T k))
  | .tFromParent i => atLink i fun k => do let T ← tpArr; pure (.iso (T k).inv)
  | .tFromWorld i => atLink i fun k => do let T ← twArr; pure (.iso (T k).inv)
  | .position i x => atLink i fun k => do let T ← twArr; pure (.vec3 ((T k).app x))
  | .positionQ u i x => do
    let t ← Rd.tree
    let T0 ← Rd.base
    pure ((({ t.body with T0 := T0 } : Body).positionQ u i x).map .vec3)
  | .orientation i => atLink i fun k => do let T ← twArr; pure (.mat3 (T k).R)
  | .orientationQ u i => do
    let t ← Rd.tree
    let T0 ← Rd.base
    pure ((({ t.body with T0 := T0 } : Body).orientationQ u i).map .mat3)
  | .cartesianPose i x => atLink i fun k => do let T ← twArr; pure (.iso (T k * ⟨1, x⟩))
  | .jacobian i x => (index i).andThen fun k => sized (jacobian k x) fun n J => .cols (take n J)
  | .jacobianQ u i x => do
    let t ← Rd.tree
    let T0 ← Rd.base
    pure ((({ t.body with T0 := T0 } : Body).jacobianQ u i x).map fun J => .cols (take t.body.dof J))
  | .linearJacobian i x => (index i).andThen fun k =>
    sized (jacobian k x) fun n J => .cols3 (take n fun j => (J j).lin)
  | .angularJacobian i => do
    let x ← Rd.jacOffset
    (index i).andThen fun k => sized (jacobian k x) fun n J => .cols3 (take n fun j => (J j).ang)
  | .hessian i x => (index i).andThen fun k => do
    let J ← jacobian k x
    let Tw ← twArr
    let t ← Rd.tree
    pure (.ok (.hess (take2 t.body.dof t.body.dof
      (t.body.hessLoop Tw J (t.anc.getD k []) fun _ _ => 0))))
  | .inverseDynamics a f o => sized (inverseDynamics a f o) fun n x => .vec (take n x)
  | .centrifugalCoriolis => sized centrifugalCoriolis fun n x => .vec (take n x)
  | .gravity => sized gravity fun n x => .vec (take n x)
  | .externalTorques f => sized (externalTorques f) fun n x => .vec (take n x)
  | .friction t c e => sized (friction t c e) fun n x => .vec (take n x)
  | .inertia => sized inertia fun n A => .mat (take2 n n A)
  | .compositeInertia i => atLink i fun k => do
    let _ ← inertia
    let I ← Rd.Ic
    pure (.inertia (I k))
  | .inertiaInverse => sized inertiaInverse fun n A => .mat (take2 n n A)
  | .forwardDynamics t f o => sized (forwardDynamics E t f o) fun n x => .vec (take n x)
  | .forwardDynamicsAba t f o => sized (forwardDynamicsAba t f o) fun n x => .vec (take n x)
  | .inertiaInverseAba => sized inertiaInverseAba fun n A => .mat (take2 n n A)
  | .opsInertia J e => mapOk (opsInertia E J e) fun L => .dmat L.trunc
  | .opsInertiaInverse J => mapOk (opsInertiaInverse E J) fun L => .dmat L.trunc
  | .opsIsSingular J e => mapOk (opsIsSingular E J e) .bool
  | .opsJbar J e => mapOk (opsJbar E J e) fun X => .dmat X.trunc
  | .opsGravity J e => (opsJbar E J e).andThen fun X => do
    let G ← gravity
    pure (.ok (.vec (take J.rows (X.tr.mulVec G))))
  | .opsExternal J f e => (opsJbar E J e).andThen fun X => do
    let G ← externalTorques f
    pure (.ok (.vec (take J.rows (X.tr.mulVec G))))
  | x => whole (x.run E)

/-- The accesses of a call; a setter returns nothing. -/
noncomputable def ofOp (E : Ext) : Op → BProg (Out (Option Ans))
  | .setQ q => mapOk (setQ q) fun _ => none
  | .setDq dq => mapOk (setDq dq) fun _ => none
  | .setG g => mapOk (setG g) fun _ => none
  | .addLoad I i => mapOk (changeLoad i fun
    | none => some I
    | some L => some (L.add I)) fun _ => none
  | .replaceLoad I i => mapOk (changeLoad i fun _ => some I) fun _ => none
  | .clearLoad i => mapOk (changeLoad i fun _ => none) fun _ => none
  | .setBase T => mapOk (setBase T) fun _ => none
  | .query x => mapOk (ofQuery E x) some
  | op => whole fun b => (op.step E b).map fun d => (none, d)

end BProg
end SpatialDyn
