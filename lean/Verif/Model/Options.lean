import Verif.Model.Discrete
import Verif.Model.Opspace
import Verif.Model.Simulation

/-!
# Option records

Constructors with their default arguments (`include/spatial_dyn/structs/options.h`), conversions
(`src/structs/options.cc`) and the keyword functions of the Python module that build them
(`src/python/spatial_dyn.cc`).
-/

namespace SpatialDyn

/-- `InverseDynamicsOptions(bool, bool, bool, double)` (`options.h:40-43`). -/
noncomputable def IDOpts.make (gravity : Bool := true) (cc : Bool := false)
    (friction : Bool := false) (eps : ℝ := 0.01) : IDOpts := ⟨gravity, cc, friction, eps⟩

/-- `ForwardDynamicsOptions(bool, bool, bool, double)` (`options.h:77-80`). -/
noncomputable def FDOpts.make (gravity : Bool := true) (cc : Bool := true)
    (friction : Bool := false) (eps : ℝ := 0.01) : FDOpts := ⟨gravity, cc, friction, eps⟩

/-- `IntegrationOptions(..)` (`options.h:119-125`). -/
noncomputable def IntOpts.make (gravity : Bool := true) (cc : Bool := true)
    (friction : Bool := false) (jointLimits : Bool := false) (method : Method := .rk4)
    (aba : Bool := false) (eps : ℝ := 0.01) : IntOpts :=
  ⟨gravity, cc, friction, jointLimits, method, aba, eps⟩

/-- `opspace::InverseDynamicsOptions(..)` (`options.h:168-173`); `f_acc_max` has only its member
initialiser (204). -/
noncomputable def OpsOpts.make (gravity : Bool := false) (cc : Bool := false)
    (friction : Bool := false) (svdEps : ℝ := 0) (stictionEps : ℝ := 0.01) : OpsOpts :=
  ⟨gravity, cc, friction, svdEps, stictionEps, 0⟩

/-- `discrete::InverseDynamicsOptions` (`options.h:212-224`). -/
structure DIDOpts where
  gravity : Bool := true

/-- `discrete::IntegrationOptions(bool)` (`options.h:228-229`); the other members have only their
initialisers (239, 244). -/
noncomputable def DIntOpts.make (gravity : Bool := true) : DIntOpts := ⟨gravity, 1e-8, 100⟩

/-- `InverseDynamicsOptions(const ForwardDynamicsOptions&)` (`options.cc:14-16`). -/
def FDOpts.id (o : FDOpts) : IDOpts := ⟨o.gravity, o.cc, o.friction, o.eps⟩

/-- `InverseDynamicsOptions(const IntegrationOptions&)` (`options.cc:18-20`). -/
def IntOpts.id (o : IntOpts) : IDOpts := ⟨o.gravity, o.cc, o.friction, o.eps⟩

/-- `ForwardDynamicsOptions(const discrete::IntegrationOptions&)` (`options.cc:26-27`): the members
that are not listed keep their initialisers (`options.h:89-104`). -/
noncomputable def DIntOpts.fd (o : DIntOpts) : FDOpts := ⟨o.gravity, true, false, 0.01⟩

/-- `discrete::InverseDynamicsOptions(const discrete::IntegrationOptions&)` (`options.cc:31-32`). -/
def DIntOpts.id (o : DIntOpts) : DIDOpts := ⟨o.gravity⟩

namespace Body
variable (E : Ext)

/-- `kStringToMethod` of the Python function `integrate` (`spatial_dyn.cc:482-485`). -/
def methodTable : List (List Char × Method) :=
  [(['e', 'u', 'l', 'e', 'r'], .euler), (['h', 'e', 'u', 'n', 's'], .heuns), (['r', 'k', '4'], .rk4)]

/-- Lookup of the lower-cased method name (`spatial_dyn.cc:486-495`). -/
def methodParse (s : List Char) : Option Method := methodTable.lookup (s.map Char.toLower)

/-- Python `integrate` (`spatial_dyn.cc:476-501`) with its keyword arguments in order. -/
noncomputable def pyIntegrate (b : Body) (tau : ℕ → ℝ) (dt : ℝ) (fext : FExt := fun _ => none)
    (gravity : Bool := true) (centrifugal_coriolis : Bool := true) (friction : Bool := false)
    (joint_limits : Bool := false) (method : List Char := ['r', 'k', '4']) (aba : Bool := false)
    (stiction_epsilon : ℝ := 0.01) : Out Body :=
  match methodParse method with
  | none => .throws
  | some m => b.integrate E tau dt fext
      (IntOpts.make gravity centrifugal_coriolis friction joint_limits m aba stiction_epsilon)

/-- Python `inverse_dynamics` (`spatial_dyn.cc:442-453`). -/
noncomputable def pyInverseDynamics (b : Body) (ddq : ℕ → ℝ) (fext : FExt := fun _ => none)
    (gravity : Bool := true) (centrifugal_coriolis : Bool := false) (friction : Bool := false)
    (stiction_epsilon : ℝ := 0.01) : (ℕ → ℝ) × Body :=
  b.inverseDynamics ddq fext (IDOpts.make gravity centrifugal_coriolis friction stiction_epsilon)

/-- Python `forward_dynamics` (`spatial_dyn.cc:327-338`). -/
noncomputable def pyForwardDynamics (b : Body) (tau : ℕ → ℝ) (fext : FExt := fun _ => none)
    (gravity : Bool := true) (centrifugal_coriolis : Bool := true) (friction : Bool := false)
    (stiction_epsilon : ℝ := 0.01) : (ℕ → ℝ) × Body :=
  b.fd E tau fext (FDOpts.make gravity centrifugal_coriolis friction stiction_epsilon)

/-- Python `forward_dynamics_aba` (`spatial_dyn.cc:339-351`). -/
noncomputable def pyForwardDynamicsAba (b : Body) (tau : ℕ → ℝ) (fext : FExt := fun _ => none)
    (gravity : Bool := true) (centrifugal_coriolis : Bool := true) (friction : Bool := false)
    (stiction_epsilon : ℝ := 0.01) : (ℕ → ℝ) × Body :=
  b.forwardDynamicsAba tau fext (FDOpts.make gravity centrifugal_coriolis friction stiction_epsilon)

end Body
end SpatialDyn
