import Verif.Model.Machine

/-!
# Calls on loads, and the operational-space articulated-body functions (C111)
-/

namespace SpatialDyn

/-- The calls that change the loads of a body. -/
def Op.OnLoads : Op → Prop
  | .addLoad .. => True
  | .replaceLoad .. => True
  | .clearLoad .. => True
  | _ => False

/-- The four functions of `opspace_dynamics_aba.cc`. -/
def Query.OpsAba : Query → Prop
  | .opsInertiaInverseAba .. => True
  | .opsInertiaAba .. => True
  | .opsCoriolisAba .. => True
  | .opsGravityAba .. => True
  | _ => False

end SpatialDyn
