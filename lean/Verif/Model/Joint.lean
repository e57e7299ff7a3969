import Verif.Model.Spatial
import Mathlib.Analysis.SpecialFunctions.Trigonometric.Deriv

/-!
# Joints

Model of `include/spatial_dyn/structs/joint.h` and `src/structs/joint.cc`.
-/

namespace SpatialDyn

/-- A C++ `double` as far as ordering is concerned: NaN, the infinities and finite values. -/
inductive Dbl where
  | nan
  | ninf
  | fin (r : ℝ)
  | pinf

namespace Dbl

/-- IEEE `<`: every comparison with NaN is false. -/
def Lt : Dbl → Dbl → Prop
  | nan, _ => False
  | _, nan => False
  | ninf, ninf => False
  | ninf, _ => True
  | fin _, ninf => False
  | fin a, fin b => a < b
  | fin _, pinf => True
  | pinf, _ => False

/-- IEEE `<=`: every comparison with NaN is false. -/
def Le : Dbl → Dbl → Prop
  | nan, _ => False
  | _, nan => False
  | ninf, _ => True
  | fin _, ninf => False
  | fin a, fin b => a ≤ b
  | fin _, pinf => True
  | pinf, pinf => True
  | pinf, _ => False

/-- Finite part (meaningful only for `fin`). -/
def val : Dbl → ℝ
  | fin r => r
  | _ => 0

end Dbl

/-- `Joint::Type` (joint.h 38-46). -/
inductive JType where
  | undefined | rx | ry | rz | px | py | pz
  deriving DecidableEq, Repr

/-- Motion subspace assigned by `set_type` (joint.cc 29-53). -/
def JType.subspace : JType → Motion
  | .rx => ⟨0, ⟨1, 0, 0⟩⟩
  | .ry => ⟨0, ⟨0, 1, 0⟩⟩
  | .rz => ⟨0, ⟨0, 0, 1⟩⟩
  | .px => ⟨⟨1, 0, 0⟩, 0⟩
  | .py => ⟨⟨0, 1, 0⟩, 0⟩
  | .pz => ⟨⟨0, 0, 1⟩, 0⟩
  | .undefined => 0

/-- `Joint::is_prismatic` (joint.cc 55-57). -/
def JType.isPrismatic : JType → Bool
  | .px | .py | .pz => true
  | _ => false

/-- `Joint::is_revolute` (joint.cc 58-60). -/
def JType.isRevolute : JType → Bool
  | .rx | .ry | .rz => true
  | _ => false

/-- `Joint::T_joint` (joint.cc 127-144).  `Eigen::AngleAxisd` about a coordinate axis is the usual
rotation matrix. -/
noncomputable def JType.Tjoint : JType → ℝ → Iso
  | .rx, q => ⟨⟨1, 0, 0, 0, Real.cos q, -Real.sin q, 0, Real.sin q, Real.cos q⟩, 0⟩
  | .ry, q => ⟨⟨Real.cos q, 0, Real.sin q, 0, 1, 0, -Real.sin q, 0, Real.cos q⟩, 0⟩
  | .rz, q => ⟨⟨Real.cos q, -Real.sin q, 0, Real.sin q, Real.cos q, 0, 0, 0, 1⟩, 0⟩
  | .px, q => ⟨1, q • ⟨1, 0, 0⟩⟩
  | .py, q => ⟨1, q • ⟨0, 1, 0⟩⟩
  | .pz, q => ⟨1, q • ⟨0, 0, 1⟩⟩
  | .undefined, _ => 1

/-- `Joint` fields (joint.h 212-222). -/
structure Joint where
  type : JType := .undefined
  subspace : Motion := 0
  qMin : Dbl := .ninf
  qMax : Dbl := .pinf
  dqMax : Dbl := .pinf
  fqMax : Dbl := .pinf
  fCoulomb : Dbl := .fin 0
  fViscous : Dbl := .fin 0
  fStiction : Dbl := .fin 0

namespace Joint

/-- Outcome of a throwing setter: the object after the call and whether it threw. -/
structure Res where
  joint : Joint
  threw : Bool

/-- `Joint::set_type` (joint.cc 29-53). -/
def setType (j : Joint) (t : JType) : Res := ⟨{ j with type := t, subspace := t.subspace }, false⟩

open Classical in
/-- `Joint::set_q_min` (joint.cc 62-68). -/
noncomputable def setQMin (j : Joint) (x : Dbl) : Res :=
  if j.qMax.Lt x then ⟨j, true⟩ else ⟨{ j with qMin := x }, false⟩

open Classical in
/-- `Joint::set_q_max` (joint.cc 70-76). -/
noncomputable def setQMax (j : Joint) (x : Dbl) : Res :=
  if x.Lt j.qMin then ⟨j, true⟩ else ⟨{ j with qMax := x }, false⟩

open Classical in
/-- `Joint::set_q_limits` (joint.cc 78-85). -/
noncomputable def setQLimits (j : Joint) (lo hi : Dbl) : Res :=
  if hi.Lt lo then ⟨j, true⟩ else ⟨{ j with qMin := lo, qMax := hi }, false⟩

open Classical in
/-- `Joint::set_dq_max` (joint.cc 87-93). -/
noncomputable def setDqMax (j : Joint) (x : Dbl) : Res :=
  if x.Lt (.fin 0) then ⟨j, true⟩ else ⟨{ j with dqMax := x }, false⟩

open Classical in
/-- `Joint::set_fq_max` (joint.cc 95-101). -/
noncomputable def setFqMax (j : Joint) (x : Dbl) : Res :=
  if x.Lt (.fin 0) then ⟨j, true⟩ else ⟨{ j with fqMax := x }, false⟩

open Classical in
/-- `Joint::set_f_coulomb` (joint.cc 103-109). -/
noncomputable def setFCoulomb (j : Joint) (x : Dbl) : Res :=
  if x.Lt (.fin 0) then ⟨j, true⟩ else ⟨{ j with fCoulomb := x }, false⟩

open Classical in
/-- `Joint::set_f_viscous` (joint.cc 111-117). -/
noncomputable def setFViscous (j : Joint) (x : Dbl) : Res :=
  if x.Lt (.fin 0) then ⟨j, true⟩ else ⟨{ j with fViscous := x }, false⟩

open Classical in
/-- `Joint::set_f_stiction` (joint.cc 119-125). -/
noncomputable def setFStiction (j : Joint) (x : Dbl) : Res :=
  if x.Lt (.fin 0) then ⟨j, true⟩ else ⟨{ j with fStiction := x }, false⟩

/-- A call on a joint object. -/
inductive Op where
  | setType (t : JType)
  | setQMin (x : Dbl)
  | setQMax (x : Dbl)
  | setQLimits (lo hi : Dbl)
  | setDqMax (x : Dbl)
  | setFqMax (x : Dbl)
  | setFCoulomb (x : Dbl)
  | setFViscous (x : Dbl)
  | setFStiction (x : Dbl)

/-- One setter call. -/
noncomputable def step (j : Joint) : Op → Res
  | .setType t => j.setType t
  | .setQMin x => j.setQMin x
  | .setQMax x => j.setQMax x
  | .setQLimits lo hi => j.setQLimits lo hi
  | .setDqMax x => j.setDqMax x
  | .setFqMax x => j.setFqMax x
  | .setFCoulomb x => j.setFCoulomb x
  | .setFViscous x => j.setFViscous x
  | .setFStiction x => j.setFStiction x

/-- A history of setter calls; exceptions are caught by the caller. -/
noncomputable def run (j : Joint) (ops : List Op) : Joint := ops.foldl (fun j o => (j.step o).joint) j

end Joint

/-! ## Names -/

/-- `kJointTypeToString` (joint.cc 152-156) used by `operator<<` (158-161). -/
def JType.name : JType → List Char
  | .rx => ['r', 'x']
  | .ry => ['r', 'y']
  | .rz => ['r', 'z']
  | .px => ['p', 'x']
  | .py => ['p', 'y']
  | .pz => ['p', 'z']
  | .undefined => ['u', 'n', 'd', 'e', 'f', 'i', 'n', 'e', 'd']

/-- `kStringToJointType.at(str)` (joint.cc 146-150): `none` is the `std::out_of_range` exception. -/
def jtypeTable : List (List Char × JType) :=
  [(['r', 'x'], .rx), (['r', 'y'], .ry), (['r', 'z'], .rz),
   (['p', 'x'], .px), (['p', 'y'], .py), (['p', 'z'], .pz),
   (['u', 'n', 'd', 'e', 'f', 'i', 'n', 'e', 'd'], .undefined)]

/-- White space skipped by `is >> str`. -/
def isWs (c : Char) : Bool :=
  c == ' ' || c == '\t' || c == '\n' || c == '\r' || c == '\x0b' || c == '\x0c'

/-- `is >> str`: skip white space, read up to the next white space. -/
def token (s : List Char) : List Char := (s.dropWhile isWs).takeWhile (fun c => !isWs c)

/-- `operator>>(std::istream&, Joint::Type&)` (joint.cc 163-169): `none` is the exception thrown by
`std::map::at`.  Characters are in the C locale (only ASCII letters change case). -/
def JType.parse (s : List Char) : Option JType := jtypeTable.lookup ((token s).map Char.toLower)

end SpatialDyn
