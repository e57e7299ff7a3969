import Verif.Model.Matlab
import Verif.Model.Urdf

/-!
# MATLAB sessions: loading, copying and deleting bodies

`src/matlab/load_model.cc`, `src/matlab/delete_articulated_body.cc`, `matlab/+spatialdyn/*.m` and the
first lines of every other MEX file.  A MATLAB variable holds an object of the class
`spatialdyn.ArticulatedBody`, a value class with one number, the address of a body on the heap of the
process.  Assignment copies the number.  A value class has no destructor: `delete` is an ordinary
method (`ArticulatedBody.m:13-22`).

The allocator is external: `new` may return any address that is not in use, at every time another one.
Simplifications: the wrappers only extend the search path and pass their arguments on; a variable is a
number; a call through an address that is not in use counts as undefined behaviour also where the function
returns before it uses the body, for want of arguments; the base inertia, which the move constructor at
`load_model.cc:28` leaves behind (`articulated_body.cc:36-48`) and no MATLAB function reads, is kept.
-/

namespace SpatialDyn
namespace Mex

/-- The MEX functions that take a body. -/
inductive Fn where
  | inertia | gravity | hessian | centrifugalCoriolis | inverseDynamics | positionDerivative
  | velocityDerivative | position | jacobian | jacobianDynamicInverse | discreteInverseDynamics
  | inverseKinematics

section
variable (E : Ext) (C : Ctl)

/-- The function on the body at its address, with the static variable of the library. -/
noncomputable def Fn.run (f : Fn) (b : Body) (s : Option ℕ) (args : List Val) :
    Out ((Option Arr × Body) × Option ℕ) :=
  let keep : Res → Out ((Option Arr × Body) × Option ℕ) := fun r => r.bind fun r => .ok (r, s)
  match f with
  | .inertia => keep (Mex.inertia b args)
  | .gravity => keep (Mex.gravity b args)
  | .hessian => keep (Mex.hessian b args)
  | .centrifugalCoriolis => keep (Mex.centrifugalCoriolis b args)
  | .inverseDynamics => keep (Mex.inverseDynamics b args)
  | .positionDerivative => keep (Mex.positionDerivative b args)
  | .velocityDerivative => keep (Mex.velocityDerivative b args)
  | .position => keep (Mex.position b args)
  | .jacobian => keep (Mex.jacobian b args)
  | .jacobianDynamicInverse => keep (Mex.jacobianDynamicInverse E b args)
  | .discreteInverseDynamics => keep (Mex.discreteInverseDynamics E b args)
  | .inverseKinematics => Mex.inverseKinematics E C b s args
end

/-- The bodies on the heap. -/
abbrev Heap := ℕ → Option Body

/-- `new`: at each time, an address that is not null and not in use (as long as there is one). -/
structure Alloc where
  addr : ℕ → Heap → ℕ
  notNull : ∀ t (h : Heap), addr t h ≠ 0
  unused : ∀ t (h : Heap), (∃ a ≠ 0, h a = none) → h (addr t h) = none

/-- Variables, heap, the static variable of `InverseKinematics`, and the number of commands so far. -/
structure Session where
  vars : ℕ → Option ℕ
  heap : Heap
  ik : Option ℕ
  time : ℕ

/-- A new MATLAB process. -/
def Session.init : Session := ⟨fun _ => none, fun _ => none, none, 0⟩

/-- Commands of a MATLAB program. -/
inductive Cmd where
  /-- `x = spatialdyn.urdf.loadModel(path)`; the file and the uninitialised cache of the new body. -/
  | load (x : ℕ) (doc : Option (List Xml)) (c : Cache)
  /-- `x = spatialdyn.ArticulatedBody(a)`. -/
  | handle (x a : ℕ)
  /-- `x = y`. -/
  | assign (x y : ℕ)
  /-- `clear x`. -/
  | clear (x : ℕ)
  /-- `delete(x)`. -/
  | delete (x : ℕ)
  /-- `spatialdyn.f(x, args{:})`. -/
  | call (x : ℕ) (f : Fn) (args : List Val)

variable (E : Ext) (C : Ctl) (X : UrdfExt) (A : Alloc)

open Function in
/-- One command: `load_model.cc:22-33`, `delete_articulated_body.cc:22-28`, and for the other functions
lines 22-28 of their files (a null pointer: return without output). -/
noncomputable def Session.step (s : Session) (c : Cmd) : Out (Option Arr × Session) :=
  let s := { s with time := s.time + 1 }
  match c with
  | .load x doc c => (loadModel X c doc).bind fun n =>
    let a := A.addr s.time s.heap
    .ok (none, { s with vars := update s.vars x (some a), heap := update s.heap a (some n.body) })
  | .handle x a => .ok (none, { s with vars := update s.vars x (some a) })
  | .assign x y => match s.vars y with
    | none => .throws
    | some a => .ok (none, { s with vars := update s.vars x (some a) })
  | .clear x => .ok (none, { s with vars := update s.vars x none })
  | .delete x => match s.vars x with
    | none => .throws
    | some 0 => .ok (none, s)
    | some a => match s.heap a with
      | none => .ub
      | some _ => .ok (none, { s with heap := update s.heap a none })
  | .call x f args => match s.vars x with
    | none => .throws
    | some 0 => .ok (none, s)
    | some a => match s.heap a with
      | none => .ub
      | some b => (f.run E C b s.ik args).bind fun r =>
        .ok (r.1.1, { s with heap := update s.heap a (some r.1.2), ik := r.2 })

/-- Commands one after the other, with their outputs. -/
noncomputable def Session.run : Session → List Cmd → Out (List (Option Arr) × Session)
  | s, [] => .ok ([], s)
  | s, c :: l => (s.step E C X A c).bind fun r =>
    (Session.run r.2 l).bind fun t => .ok (r.1 :: t.1, t.2)

end Mex
end SpatialDyn
