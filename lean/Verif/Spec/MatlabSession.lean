import Verif.Model.MatlabSession

/-!
# What a MATLAB program with robots means

Without addresses: every load makes a new robot, a variable refers to a robot or to none, and assignment
makes another reference to the same robot.  Using or deleting a robot that was deleted, and making up an
address, mean nothing (`ub`).
-/

namespace SpatialDyn
namespace Mex

/-- What a variable holds. -/
inductive Ref where
  | null
  | robot (k : ℕ)

/-- Variables and robots in the order in which they were loaded (`none`: deleted). -/
structure World where
  vars : ℕ → Option Ref
  robots : List (Option Body)
  ik : Option ℕ

/-- At the beginning there are no robots. -/
def World.init : World := ⟨fun _ => none, [], none⟩

/-- Robot `k`, if it has been loaded and not deleted. -/
def World.robot (w : World) (k : ℕ) : Option Body := (w.robots[k]?).join

variable (E : Ext) (C : Ctl) (X : UrdfExt)

open Function in
/-- The meaning of one command. -/
noncomputable def World.step (w : World) : Cmd → Out (Option Arr × World)
  | .load x doc c => (loadModel X c doc).bind fun n =>
    .ok (none, { w with
      vars := update w.vars x (some (.robot w.robots.length)), robots := w.robots ++ [some n.body] })
  | .handle x a => if a = 0 then .ok (none, { w with vars := update w.vars x (some .null) }) else .ub
  | .assign x y => match w.vars y with
    | none => .throws
    | some r => .ok (none, { w with vars := update w.vars x (some r) })
  | .clear x => .ok (none, { w with vars := update w.vars x none })
  | .delete x => match w.vars x with
    | none => .throws
    | some .null => .ok (none, w)
    | some (.robot k) => match w.robot k with
      | none => .ub
      | some _ => .ok (none, { w with robots := w.robots.set k none })
  | .call x f args => match w.vars x with
    | none => .throws
    | some .null => .ok (none, w)
    | some (.robot k) => match w.robot k with
      | none => .ub
      | some b => (f.run E C b w.ik args).bind fun r =>
        .ok (r.1.1, { w with robots := w.robots.set k (some r.1.2), ik := r.2 })

/-- The meaning of a program. -/
noncomputable def World.run : World → List Cmd → Out (List (Option Arr) × World)
  | w, [] => .ok ([], w)
  | w, c :: l => (w.step E C X c).bind fun r =>
    (World.run r.2 l).bind fun t => .ok (r.1 :: t.1, t.2)

/-- The program makes up no addresses. -/
def NoHandles (l : List Cmd) : Prop := ∀ x a, Cmd.handle x a ∈ l → a = 0

/-- The program deletes nothing. -/
def NoDeletes (l : List Cmd) : Prop := ∀ x, Cmd.delete x ∉ l

/-- Number of loads. -/
def loads (l : List Cmd) : ℕ := l.countP fun | .load .. => true | _ => false

end Mex
end SpatialDyn
