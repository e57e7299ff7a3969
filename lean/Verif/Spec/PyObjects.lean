import Verif.Model.PyObjects
import Verif.Spec.Fresh

/-!
# Python programs that change the links of a body
-/

namespace SpatialDyn

/-- A setter of limits or friction: no link moves and no mass changes. -/
def Joint.Op.Quiet : Joint.Op → Prop
  | .setType _ => False
  | _ => True

/-- A change that no cached result depends on: limits, friction, the inertia of the base. -/
def Edit.Quiet : Edit → Prop
  | .link _ (.jointField o) => o.Quiet
  | .base _ => True
  | _ => False

/-- Poses assigned are rigid. -/
def Edit.RigidArg : Edit → Prop
  | .link _ (.pose T) => T.Valid
  | _ => True

/-- Python programs of any length that change a pose, an inertia, a joint type or a load only while no
query has been answered since the last change of `q`; limits and friction may be changed at any time.
The calls in between are as in `Reach`. -/
inductive PyReach (E : Ext) : Body → Bool → Prop
  | init (c : Cache) : PyReach E (Body.init c) false
  | call {b b' : Body} {d : Bool} (op : Op) : PyReach E b d → op.Safe b d → op.exec E b = some b' →
      PyReach E b' (op.dirty b b' d)
  | edit {b b' : Body} {d : Bool} (e : Edit) : PyReach E b d → e.RigidArg → e.Quiet ∨ d = false →
      (PyOp.edit e).exec E b = some b' → PyReach E b' d

end SpatialDyn
