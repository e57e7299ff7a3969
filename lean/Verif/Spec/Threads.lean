import Verif.Model.Memory
import Verif.Spec.Fresh
import Mathlib.Data.Set.Basic

/-!
# Threads without synchronisation

Several threads run at the same time on shared memory, one access at a time in any order.  Two
accesses of different threads to the same location, at least one of them a write, are a data race
when both can be the next access: the behaviour of the C++ program is then undefined
(`[intro.races]`).  A program none of whose interleavings has a data race behaves as if its accesses
were interleaved.
-/

namespace SpatialDyn

/-- Memory with states `S`: locations `L`, of which location `l` holds a value of type `V l`. -/
structure Memory (S L : Type) (V : L → Type) where
  get : S → (l : L) → V l
  put : S → (l : L) → V l → S

/-- Writing a location changes that location and no other. -/
structure Memory.Sound {S L : Type} {V : L → Type} (M : Memory S L V) : Prop where
  get_put : ∀ s l x, M.get (M.put s l x) l = x
  get_put_ne : ∀ s l x m, m ≠ l → M.get (M.put s l x) m = M.get s m
  ext : ∀ s t, (∀ l, M.get s l = M.get t l) → s = t

namespace Prog
variable {S L : Type} {V : L → Type} {α ι : Type}

/-- A computation running alone: its value and the memory after it. -/
def run (M : Memory S L V) : Prog L V α → S → α × S
  | .ret a, s => (a, s)
  | .read l k, s => (k (M.get s l)).run M s
  | .write l x k, s => k.run M (M.put s l x)

/-- The next access is a write of `l`. -/
def Writes (l : L) : Prog L V α → Prop
  | .write m _ _ => m = l
  | _ => False

/-- The next access is a read or a write of `l`. -/
def Accesses (l : L) : Prog L V α → Prop
  | .ret _ => False
  | .read m _ => m = l
  | .write m _ _ => m = l

/-- What the threads have still to do, and the memory. -/
abbrev Config (S L : Type) (V : L → Type) (α ι : Type) := S × (ι → Prog L V α)

/-- Thread `i` makes its next access. -/
inductive Move (M : Memory S L V) [DecidableEq ι] (i : ι) :
    Config S L V α ι → Config S L V α ι → Prop
  | read {s : S} {ps : ι → Prog L V α} {l : L} {k : V l → Prog L V α} (h : ps i = .read l k) :
    Move M i (s, ps) (s, Function.update ps i (k (M.get s l)))
  | write {s : S} {ps : ι → Prog L V α} {l : L} {x : V l} {k : Prog L V α}
    (h : ps i = .write l x k) : Move M i (s, ps) (M.put s l x, Function.update ps i k)

/-- The configurations an interleaving can come through. -/
inductive Interleaves (M : Memory S L V) [DecidableEq ι] (c : Config S L V α ι) :
    Config S L V α ι → Prop
  | start : Interleaves M c c
  | move {d e : Config S L V α ι} (i : ι) (h : Interleaves M c d) (hm : Move M i d e) :
    Interleaves M c e

/-- Two threads are about to access the same location, one of them to write it. -/
def Conflict (c : Config S L V α ι) : Prop :=
  ∃ i j, i ≠ j ∧ ∃ l, (c.2 i).Writes l ∧ (c.2 j).Accesses l

/-- Some interleaving has a data race. -/
def Races (M : Memory S L V) [DecidableEq ι] (s : S) (ps : ι → Prog L V α) : Prop :=
  ∃ d, Interleaves M (s, ps) d ∧ Conflict d

/-- The accesses of a computation running alone from `s` are reads of `R ∪ W` and writes of `W`. -/
def Within (M : Memory S L V) (R W : Set L) : Prog L V α → S → Prop
  | .ret _, _ => True
  | .read l k, s => (l ∈ R ∨ l ∈ W) ∧ (k (M.get s l)).Within M R W s
  | .write l x k, s => l ∈ W ∧ k.Within M R W (M.put s l x)

end Prog

/-- The members of one body as memory. -/
def Body.memory : Memory Body Cell Cell.Val := ⟨Body.getCell, Body.putCell⟩

/-- Many bodies; location `(k, l)` is member `l` of body number `k`. -/
def fleet : Memory (ℕ → Body) (ℕ × Cell) (fun p => p.2.Val) where
  get s p := (s p.1).getCell p.2
  put s p x := Function.update s p.1 ((s p.1).putCell p.2 x)

/-- A call on body number `k`. -/
def BProg.on {α : Type} (k : ℕ) : BProg α → Prog (ℕ × Cell) (fun p => p.2.Val) α
  | .ret a => .ret a
  | .read l f => .read (k, l) fun x => BProg.on k (f x)
  | .write l x p => .write (k, l) x (BProg.on k p)

/-- A thread: calls on numbered bodies, one after the other.  An exception is caught and the next
call made; undefined behaviour is the end of it.  The value is the list of the outcomes. -/
noncomputable def thread (E : Ext) :
    List (ℕ × Op) → Prog (ℕ × Cell) (fun p => p.2.Val) (List (Out (Option Ans)))
  | [] => .ret []
  | (k, op) :: cs => ((BProg.ofOp E op).on k).bind fun
    | .ub => .ret [.ub]
    | r => (thread E cs).bind fun rs => .ret (r :: rs)

/-- The outcome of a call and the body after it; an exception leaves the body alone. -/
noncomputable def Op.outcome (E : Ext) (b : Body) : Op → Out (Option Ans) × Body
  | .query x => match x.run E b with
    | .ok r => (.ok (some r.1), r.2)
    | .throws => (.throws, b)
    | .ub => (.ub, b)
  | op => match op.step E b with
    | .ok d => (.ok none, d)
    | .throws => (.throws, b)
    | .ub => (.ub, b)

/-- The same calls made by a single thread on the same bodies: outcomes and bodies after them. -/
noncomputable def calls (E : Ext) :
    List (ℕ × Op) → (ℕ → Body) → List (Out (Option Ans)) × (ℕ → Body)
  | [], s => ([], s)
  | (k, op) :: cs, s =>
    let r := op.outcome E (s k)
    let s' := Function.update s k r.2
    match r.1 with
    | .ub => ([.ub], s')
    | x => let w := calls E cs s'; (x :: w.1, w.2)

/-- Queries answered without looking at the cache. -/
def Query.Plain : Query → Prop
  | .rigidBody _ | .q _ | .dq _ | .ancestors _ | .subtree _ | .positionQ .. | .orientationQ ..
  | .jacobianQ .. | .friction .. => True
  | _ => False

/-- Queries several threads can share once they have been made: those answered from the cache, with
one link and offset for the Jacobians, and one task Jacobian and tolerance for the operational
space. -/
def Query.Sharable (link : ℤ) (offset : Vec3) (J : DMat) (eps : ℝ) : Query → Prop
  | .rigidBody _ | .q _ | .dq _ | .ancestors _ | .subtree _ | .positionQ .. | .orientationQ ..
  | .jacobianQ .. | .friction .. => True
  | .tToParent _ | .tToWorld _ | .tFromParent _ | .tFromWorld _ | .position .. | .orientation _
  | .cartesianPose .. => True
  | .jacobian i x | .linearJacobian i x | .hessian i x => i = link ∧ x = offset
  | .angularJacobian i => i = link
  | .centrifugalCoriolis | .gravity | .inertia | .compositeInertia _ | .inertiaInverse
  | .inertiaInverseAba => True
  | .opsInertia K e | .opsIsSingular K e | .opsJbar K e | .opsGravity K e => K = J ∧ e = eps
  | .opsInertiaInverse K => K = J
  | _ => False

/-- A query that several threads may make at the same time on `b`: it does not use the cache, or it
is one of a set of queries that one thread made on the body before, all of them sharable and nothing
else in between. -/
def Body.Ready (E : Ext) (b : Body) (y : Query) : Prop :=
  y.Plain ∨ ∃ (b₀ : Body) (d : Bool) (ws : List Query) (link : ℤ) (offset : Vec3) (J : DMat) (eps : ℝ),
    Reach E b₀ d ∧ (∀ w ∈ ws, w.Sharable link offset J eps) ∧
    execAll E b₀ (ws.map Op.query) = some b ∧ y ∈ ws

end SpatialDyn
