import Verif.Model.Urdf
import Verif.Spec.Fresh
import Verif.Spec.Document

/-!
# What a URDF description means

A description (`Robot`) is a list of links and a list of joints; `Robot.xml` is the file.  Numbers are
texts together with the value that the libraries read from them.
-/

namespace SpatialDyn

/-! ## Trees of names -/

/-- `y` lies `n` joints below `x`, along links of the list. -/
inductive Under (par : Str → Str) (names : List Str) (x : Str) : ℕ → Str → Prop
  | here : Under par names x 0 x
  | down {n : ℕ} {y : Str} : y ∈ names → Under par names x n (par y) → Under par names x (n + 1) y

/-- Every link of the second list has its parent earlier in it or in the first list. -/
def TopoFrom (par : Str → Str) : List Str → List Str → Prop
  | _, [] => True
  | seen, x :: l => par x ∈ seen ∧ TopoFrom par (seen ++ [x]) l

/-! ## Descriptions -/

/-- An optional attribute that should be a number; its value is `none` when the library cannot read
it. -/
structure UNum (X : UrdfExt) where
  text : Str
  val : Option Dbl
  reads : X.dbl text = val

/-- A finite number in a file. -/
structure UReal (X : UrdfExt) where
  text : Str
  val : ℝ
  reads : X.dbl text = some (.fin val)

/-- Three numbers in a file. -/
structure UVec (X : UrdfExt) where
  text : Str
  val : Vec3
  reads : X.vec3 text = .ok val

/-- `<origin xyz="" rpy=""/>`. -/
structure UOrigin (X : UrdfExt) where
  xyz : Option (UVec X)
  rpy : Option (UVec X)

/-- Rotation by roll about x, then pitch about y, then yaw about z, about fixed axes. -/
noncomputable def rpyMatrix (r p y : ℝ) : Mat3 :=
  ⟨Real.cos y * Real.cos p, Real.cos y * Real.sin p * Real.sin r - Real.sin y * Real.cos r,
    Real.cos y * Real.sin p * Real.cos r + Real.sin y * Real.sin r,
   Real.sin y * Real.cos p, Real.sin y * Real.sin p * Real.sin r + Real.cos y * Real.cos r,
    Real.sin y * Real.sin p * Real.cos r - Real.cos y * Real.sin r,
   -Real.sin p, Real.cos p * Real.sin r, Real.cos p * Real.cos r⟩

/-- The pose described by an optional `<origin>`. -/
noncomputable def originPose {X : UrdfExt} (o : Option (UOrigin X)) : Iso :=
  ⟨((o.bind UOrigin.rpy).map fun v => rpyMatrix v.val.x v.val.y v.val.z).getD 1,
   ((o.bind UOrigin.xyz).map UVec.val).getD 0⟩

/-- `<inertial>`. -/
structure UInertial (X : UrdfExt) where
  origin : Option (UOrigin X)
  mass : UReal X
  ixx : UReal X
  iyy : UReal X
  izz : UReal X
  ixy : UReal X
  ixz : UReal X
  iyz : UReal X

/-- The tensor as it is written: about the axes of the inertial frame. -/
def UInertial.tensor {X : UrdfExt} (i : UInertial X) : Mat3 :=
  ⟨i.ixx.val, i.ixy.val, i.ixz.val, i.ixy.val, i.iyy.val, i.iyz.val, i.ixz.val, i.iyz.val, i.izz.val⟩

/-- The inertia that is described: the tensor turned from the inertial frame to the link frame. -/
noncomputable def UInertial.inertia {X : UrdfExt} (i : UInertial X) : Inertia :=
  ⟨i.mass.val, (originPose i.origin).t, (originPose i.origin).R * i.tensor * (originPose i.origin).R.T⟩

/-- A shape. -/
inductive UShape (X : UrdfExt) where
  | box (size : UVec X)
  | cylinder (radius length : UReal X)
  | sphere (radius : UReal X)
  | mesh (file : Str) (scale : Option (UVec X))

/-- `<material>`. -/
structure UMaterial (X : UrdfExt) where
  name : Str
  rgba : Option { s : Str × Vec4 // X.vec4 s.1 = .ok s.2 }
  texture : Option Str

/-- `<visual>`, with its material and one inside its `<geometry>`, where the format has none. -/
structure UVisual (X : UrdfExt) where
  name : Option Str
  origin : Option (UOrigin X)
  shape : UShape X
  material : Option (UMaterial X)
  inner : Option (UMaterial X) := none

/-- `<link>`. -/
structure URLink (X : UrdfExt) where
  name : Str
  inertial : Option (UInertial X)
  visuals : List (UVisual X)

/-- Types of joints that move about or along an axis, and the fixed joint. -/
inductive UKind where
  | revolute | continuous | prismatic | fixed
  deriving DecidableEq

/-- The attribute `type`. -/
def UKind.text : UKind → Str
  | .revolute => "revolute".toList
  | .continuous => "continuous".toList
  | .prismatic => "prismatic".toList
  | .fixed => "fixed".toList

/-- `<dynamics>`. -/
structure UDynamics (X : UrdfExt) where
  damping : Option (UNum X)
  friction : Option (UNum X)
  coulomb : Option (UNum X)

/-- `<limit>`. -/
structure ULimit (X : UrdfExt) where
  lower : Option (UNum X)
  upper : Option (UNum X)
  velocity : Option (UNum X)
  effort : Option (UNum X)

/-- `<joint>`. -/
structure URJoint (X : UrdfExt) where
  name : Str
  kind : UKind
  parent : Str
  child : Str
  origin : Option (UOrigin X)
  axis : Option (UVec X)
  dynamics : Option (UDynamics X)
  limit : Option (ULimit X)

/-- `<robot>`. -/
structure Robot (X : UrdfExt) where
  name : Str
  links : List (URLink X)
  joints : List (URJoint X)

/-! ## Files -/

section
variable {X : UrdfExt}

/-- An optional attribute. -/
def optAttr {α : Type} (k : XAttr) (text : α → Str) (o : Option α) : List (XAttr × Str) :=
  (o.map fun a => (k, text a)).toList

def UOrigin.xml (o : UOrigin X) : Xml :=
  .elem .origin (optAttr .xyz UVec.text o.xyz ++ optAttr .rpy UVec.text o.rpy) []

def UInertial.xml (i : UInertial X) : Xml :=
  .elem .inertial [] ((i.origin.map UOrigin.xml).toList ++
    [.elem .mass [(.value, i.mass.text)] [],
     .elem .inertia [(.ixx, i.ixx.text), (.ixy, i.ixy.text), (.ixz, i.ixz.text),
       (.iyy, i.iyy.text), (.iyz, i.iyz.text), (.izz, i.izz.text)] []])

def UShape.xml : UShape X → Xml
  | .box s => .elem .box [(.size, s.text)] []
  | .cylinder r l => .elem .cylinder [(.radius, r.text), (.length, l.text)] []
  | .sphere r => .elem .sphere [(.radius, r.text)] []
  | .mesh f s => .elem .mesh ([(.filename, f)] ++ optAttr .scale UVec.text s) []

def UMaterial.xml (m : UMaterial X) : Xml :=
  .elem .material [(.name, m.name)]
    ((m.rgba.map fun c => Xml.elem .color [(.rgba, c.1.1)] []).toList ++
     (m.texture.map fun t => Xml.elem .texture [(.filename, t)] []).toList)

def UVisual.xml (v : UVisual X) : Xml :=
  .elem .visual (optAttr .name id v.name) ((v.origin.map UOrigin.xml).toList ++
    [.elem .geometry [] (v.shape.xml :: (v.inner.map UMaterial.xml).toList)] ++ (v.material.map UMaterial.xml).toList)

def URLink.xml (l : URLink X) : Xml :=
  .elem .link [(.name, l.name)] ((l.inertial.map UInertial.xml).toList ++ l.visuals.map UVisual.xml)

def UDynamics.xml (d : UDynamics X) : Xml :=
  .elem .dynamics (optAttr .damping UNum.text d.damping ++ optAttr .friction UNum.text d.friction ++
    optAttr .coulomb UNum.text d.coulomb) []

def ULimit.xml (d : ULimit X) : Xml :=
  .elem .limit (optAttr .lower UNum.text d.lower ++ optAttr .upper UNum.text d.upper ++
    optAttr .velocity UNum.text d.velocity ++ optAttr .effort UNum.text d.effort) []

def URJoint.xml (j : URJoint X) : Xml :=
  .elem .joint [(.name, j.name), (.type, j.kind.text)]
    ((j.origin.map UOrigin.xml).toList ++ [.elem .parent [(.link, j.parent)] []] ++
     [.elem .child [(.link, j.child)] []] ++
     (j.axis.map fun a => Xml.elem .axis [(.xyz, a.text)] []).toList ++
     (j.dynamics.map UDynamics.xml).toList ++ (j.limit.map ULimit.xml).toList)

/-- The file. -/
def Robot.xml (rob : Robot X) : Xml :=
  .elem .robot [(.name, rob.name)] (rob.links.map URLink.xml ++ rob.joints.map URJoint.xml)

/-- The file with some more elements at the end. -/
def Robot.xmlWith (rob : Robot X) (more : List Xml) : Xml :=
  .elem .robot [(.name, rob.name)] (rob.links.map URLink.xml ++ rob.joints.map URJoint.xml ++ more)

/-! ## Meaning -/

/-- An optional number; one that cannot be read counts as missing. -/
def numOr (o : Option (UNum X)) (d : Dbl) : Dbl := (o.bind UNum.val).getD d

namespace URJoint

def lower (j : URJoint X) : Dbl := numOr (j.limit.bind ULimit.lower) .ninf
def upper (j : URJoint X) : Dbl := numOr (j.limit.bind ULimit.upper) .pinf
def velocity (j : URJoint X) : Dbl := numOr (j.limit.bind ULimit.velocity) .pinf
def effort (j : URJoint X) : Dbl := numOr (j.limit.bind ULimit.effort) .pinf
def damping (j : URJoint X) : Dbl := numOr (j.dynamics.bind UDynamics.damping) (.fin 0)
def friction (j : URJoint X) : Dbl := numOr (j.dynamics.bind UDynamics.friction) (.fin 0)
def coulomb (j : URJoint X) : Dbl := numOr (j.dynamics.bind UDynamics.coulomb) (.fin 0)

/-- The numbers of a moving joint make sense. -/
def Sound (j : URJoint X) : Prop :=
  j.kind ≠ .fixed → (j.kind ≠ .continuous → ¬ j.upper.Lt j.lower) ∧ ¬ j.velocity.Lt (.fin 0) ∧
  ¬ j.effort.Lt (.fin 0) ∧ ¬ j.damping.Lt (.fin 0) ∧ ¬ j.friction.Lt (.fin 0) ∧
  ¬ j.coulomb.Lt (.fin 0)

/-- Limits, damping and friction of a moving joint are those of the description; a continuous joint
has no position limits. -/
structure Numbers (j : URJoint X) (k : Joint) : Prop where
  lower : k.qMin = if j.kind = .continuous then .ninf else j.lower
  upper : k.qMax = if j.kind = .continuous then .pinf else j.upper
  velocity : k.dqMax = j.velocity
  effort : k.fqMax = j.effort
  damping : k.fViscous = j.damping
  friction : k.fStiction = j.friction
  coulomb : k.fCoulomb = j.coulomb

/-- The joint moves along (prismatic) or about (revolute, continuous) the direction `u`. -/
def MovesAlong (j : URJoint X) (k : Joint) (u : Vec3) : Prop :=
  k.subspace = (if j.kind = .prismatic then ⟨u, 0⟩ else ⟨0, u⟩) ∧ k.type.subspace = k.subspace

/-- The direction of the axis as written; `(1, 0, 0)` when there is none. -/
def axisDir (j : URJoint X) : Vec3 := (j.axis.map UVec.val).getD ⟨1, 0, 0⟩

end URJoint

namespace Robot

/-- Names of the links. -/
def names (rob : Robot X) : List Str := rob.links.map URLink.name

/-- The joint above a link. -/
def above (rob : Robot X) (x : Str) : Option (URJoint X) := rob.joints.find? fun j => j.child = x

/-- The parent of a link; empty when there is none. -/
def parent (rob : Robot X) (x : Str) : Str := ((rob.above x).map URJoint.parent).getD []

/-- A description without contradictions: names differ, joints connect links, no link has two joints
above it, masses are positive, limits make sense. -/
structure Consistent (rob : Robot X) : Prop where
  names : rob.names.Nodup
  ends : ∀ j ∈ rob.joints, j.parent ∈ rob.names ∧ j.child ∈ rob.names
  once : (rob.joints.map URJoint.child).Nodup
  joints : ∀ j ∈ rob.joints, j.Sound
  masses : ∀ l ∈ rob.links, ∀ i, l.inertial = some i → 0 < i.mass.val

/-- Moreover no name is empty. -/
structure Sound (rob : Robot X) : Prop extends rob.Consistent where
  nonempty : [] ∉ rob.names

/-- The inertia that the description gives for a link. -/
noncomputable def described (rob : Robot X) (x : Str) : Inertia :=
  (((rob.links.find? fun l => l.name = x).bind URLink.inertial).map UInertial.inertia).getD ⟨0, 0, 0⟩

/-- The first link without a joint above it. -/
def Root (rob : Robot X) (r : Str) : Prop := rob.names.find? (fun x => (rob.above x).isNone) = some r

/-- A link hangs below `r` (or is `r`). -/
def Below (rob : Robot X) (r x : Str) : Prop := ∃ n, Under rob.parent rob.names r n x

/-- `P x` is the pose of link `x` with all joints at zero; `car x` is the link that moves `x`: `x`
itself below a moving joint, the carrier of the parent below a fixed one. -/
structure Layout (rob : Robot X) (r : Str) (P : Str → Iso) (car : Str → Str) : Prop where
  rootPose : P r = 1
  pose : ∀ j ∈ rob.joints, rob.Below r j.child → P j.child = P j.parent * originPose j.origin
  rootCar : car r = r
  fixed : ∀ j ∈ rob.joints, rob.Below r j.child → j.kind = .fixed → car j.child = car j.parent
  moving : ∀ j ∈ rob.joints, rob.Below r j.child → j.kind ≠ .fixed → car j.child = j.child

/-- The shape described; files are looked up below `path`. -/
def _root_.SpatialDyn.UShape.geometry (path : Str) : UShape X → Geometry
  | .box s => { type := .box, scale := s.val }
  | .cylinder r l => { type := .cylinder, radius := r.val, length := l.val }
  | .sphere r => { type := .sphere, radius := r.val }
  | .mesh f none => { type := .mesh, mesh := X.join path f }
  | .mesh f (some s) => { type := .mesh, mesh := X.join path f, scale := s.val }

/-- The material described; white where nothing is said. -/
def _root_.SpatialDyn.UMaterial.stored (m : UMaterial X) : Material :=
  { name := m.name, rgba := (m.rgba.map fun c => c.1.2).getD ⟨1, 1, 1, 1⟩, texture := m.texture.getD [] }

/-- A visual as it is stored: the material is the one inside `<geometry>`, if there is one. -/
structure VisualAs (path : Str) (v : UVisual X) (g : Graphics) : Prop where
  name : g.name = v.name.getD []
  pose : g.T = originPose v.origin
  shape : g.geometry = v.shape.geometry path
  material : g.material = (v.inner.map UMaterial.stored).getD {}

/-- `I`, `J` and `G` are inertia, joint and graphics of the links, one by one. -/
structure ReadsAs (rob : Robot X) (path : Str) (I : Str → Inertia) (J : Str → Joint)
    (G : Str → List Graphics) : Prop where
  mass : ∀ l ∈ rob.links, ∀ i, l.inertial = some i → (I l.name).mass = i.mass.val
  com : ∀ l ∈ rob.links, ∀ i, l.inertial = some i → (I l.name).com = (originPose i.origin).t
  tensor : ∀ l ∈ rob.links, ∀ i, l.inertial = some i →
    (I l.name).Icom = (originPose i.origin).R.T * i.tensor * (originPose i.origin).R
  bare : ∀ l ∈ rob.links, l.inertial = none → I l.name = ⟨1, 0, 0⟩
  graphics : ∀ l ∈ rob.links, List.Forall₂ (VisualAs path) l.visuals (G l.name)
  fixed : ∀ j ∈ rob.joints, j.kind = .fixed → (J j.child).type = .undefined
  numbers : ∀ j ∈ rob.joints, j.kind ≠ .fixed → j.Numbers (J j.child)
  axis : ∀ j ∈ rob.joints, j.kind ≠ .fixed → ∀ c : ℝ, 0 < c →
    (j.axisDir = c • ⟨0, 1, 0⟩ → j.MovesAlong (J j.child) ⟨0, 1, 0⟩) ∧
    (j.axisDir = c • ⟨0, 0, 1⟩ → j.MovesAlong (J j.child) ⟨0, 0, 1⟩)
  snap : ∀ j ∈ rob.joints, j.kind ≠ .fixed → j.axisDir.y ≤ 0 → j.axisDir.z ≤ 0 →
    j.MovesAlong (J j.child) ⟨1, 0, 0⟩

open Classical in
/-- The links that a link carries. -/
noncomputable def carried (rob : Robot X) (r : Str) (car : Str → Str) (x : Str) : List Str :=
  rob.names.filter fun y => rob.Below r y ∧ car y = x

/-- Body `i` of the loaded model stands for link `x`.

`I`, `J` and `G` give inertia, joint and graphics of the single links. -/
structure BodyFor (rob : Robot X) (r : Str) (P : Str → Iso) (car : Str → Str) (I : Str → Inertia)
    (J : Str → Joint) (G : Str → List Graphics) (n : Named) (i : ℕ) (x : Str) : Prop where
  below : rob.Below r x ∧ x ≠ r ∧ car x = x
  parent : (car (rob.parent x) = r ∧ n.body.par i = none) ∨
    ∃ j < i, n.body.par i = some j ∧ ((n.tags.getD j {}).name = car (rob.parent x))
  pose : n.body.freshTw i = P x
  joint : (n.body.rb i).joint = J x
  mass : (n.body.rb i).inertia.mass = ((rob.carried r car x).map fun y => (I y).mass).sum
  inertia : ∀ v, (n.body.rb i).inertia.app v =
    ((rob.carried r car x).map fun y => (((P x).inv * P y).actI (I y)).app v).sum
  graphics : (n.tags.getD i {}).graphics.Perm ((rob.carried r car x).flatMap fun y =>
    (G y).map fun g => { g with T := (P x).inv * P y * g.T })

/-- The loaded model `n` is the tree below `r`: one body for every link that carries itself, and the
root is the base. -/
structure LoadedAs (rob : Robot X) (r : Str) (P : Str → Iso) (car : Str → Str) (I : Str → Inertia)
    (J : Str → Joint) (G : Str → List Graphics) (n : Named) : Prop where
  name : n.name = rob.name
  count : n.tags.length = n.body.dof
  distinct : (n.tags.map Tag.name).Nodup
  bodies : ∀ x, x ∈ n.tags.map Tag.name ↔ rob.Below r x ∧ x ≠ r ∧ car x = x
  body : ∀ i < n.body.dof, rob.BodyFor r P car I J G n i (n.tags.getD i {}).name
  base : n.body.T0 = P r
  baseMass : n.body.inertiaBase.mass = ((rob.carried r car r).map fun y => (I y).mass).sum
  baseInertia : ∀ v, n.body.inertiaBase.app v =
    ((rob.carried r car r).map fun y => (((P r).inv * P y).actI (I y)).app v).sum
  baseGraphics : n.graphics.Perm ((rob.carried r car r).flatMap fun y =>
    (G y).map fun g => { g with T := (P r).inv * P y * g.T })
  rest : n.body.AtRest

/-- World pose at `q = 0`, name and shape of every visual of the description, and the material inside
its `<geometry>`. -/
noncomputable def shown (rob : Robot X) (path : Str) (P : Str → Iso) :
    List (Iso × Str × Geometry × Material) :=
  rob.links.flatMap fun l => l.visuals.map fun v =>
    (P l.name * originPose v.origin, v.name.getD [], v.shape.geometry path,
      (v.inner.map UMaterial.stored).getD {})

end Robot
end

/-- World pose, name, shape and material of all graphics of a model in its current state. -/
noncomputable def Named.shown (n : Named) : List (Iso × Str × Geometry × Material) :=
  (n.graphics.map fun g => (n.body.T0 * g.T, g.name, g.geometry, g.material)) ++
  (List.range n.body.dof).flatMap fun i =>
    (n.tags.getD i {}).graphics.map fun g => (n.body.freshTw i * g.T, g.name, g.geometry, g.material)

end SpatialDyn
