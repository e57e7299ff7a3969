import Verif.Model.Document

/-!
# URDF files (`src/parsers/urdf.cc`)

tinyxml2 is external: a document is the tree of elements it hands over (`Xml`).  Number parsing
(`tinyxml2::XMLUtil::ToDouble`), `ctrl_utils::DecodeMatlab` and `std::filesystem` enter as a `UrdfExt`.

Simplifications: element and attribute names are the names used by the code, or any `other` string;
text between elements is left out; a number that is not finite where the model has reals (masses,
shapes) is outside the model (`ub`).  Orientations are rotation matrices: a product of
`Eigen::AngleAxisd` is a quaternion in the C++, which stands for the same rotation.
-/

namespace SpatialDyn

/-- Element names. -/
inductive XName where
  | robot | link | joint | inertial | mass | inertia | origin | visual | geometry
  | box | cylinder | sphere | mesh | material | color | texture
  | parent | child | axis | dynamics | limit
  | other (s : Str)
  deriving DecidableEq

/-- Attribute names. -/
inductive XAttr where
  | name | xyz | rpy | value | ixx | iyy | izz | ixy | ixz | iyz
  | size | radius | length | filename | scale | rgba
  | link | type | damping | friction | coulomb | lower | upper | velocity | effort
  | other (s : Str)
  deriving DecidableEq

/-- `tinyxml2::XMLElement`. -/
inductive Xml where
  | elem (name : XName) (attrs : List (XAttr × Str)) (kids : List Xml)

namespace Xml

/-- `Name()`. -/
def name : Xml → XName
  | elem n _ _ => n

/-- Child elements. -/
def kids : Xml → List Xml
  | elem _ _ k => k

/-- `Attribute(k)`. -/
def attr : Xml → XAttr → Option Str
  | elem _ a _, k => a.lookup k

/-- `FirstChildElement(n)` among siblings. -/
def firstIn (n : XName) (l : List Xml) : Option Xml := l.find? fun x => x.name = n

/-- `FirstChildElement(n)`. -/
def first (x : Xml) (n : XName) : Option Xml := firstIn n x.kids

/-- The elements visited by `FirstChildElement(n)` followed by `NextSiblingElement(n)`. -/
def all (x : Xml) (n : XName) : List Xml := x.kids.filter fun y => y.name = n

end Xml

/-- External functions of the URDF parser. -/
structure UrdfExt where
  dbl : Str → Option Dbl
  vec3 : Str → Out Vec3
  vec4 : Str → Out Vec4
  join : Str → Str → Str

/-- A pointer that the code tests and throws for when it is null. -/
def Out.ofOption {α : Type*} : Option α → Out α
  | some a => .ok a
  | none => .throws

/-- `if (p != nullptr) x = f(p);` where `x` starts as `d`. -/
def Out.ifSome {α β : Type*} (p : Option α) (d : β) (f : α → Out β) : Out β :=
  match p with
  | none => .ok d
  | some a => f a

/-- A finite `double`; others are outside the model. -/
def Dbl.real : Dbl → Out ℝ
  | .fin r => .ok r
  | _ => .ub

/-- `ParseElement` (urdf.cc 34-41). -/
def parseElement (x : Xml) (n : XName) : Out Xml := Out.ofOption (x.first n)

/-- `ParseAttribute` (urdf.cc 43-50). -/
def parseAttribute (x : Xml) (k : XAttr) : Out Str := Out.ofOption (x.attr k)

section
variable (X : UrdfExt)

/-- `ParseDoubleAttribute` (urdf.cc 52-62). -/
def parseDbl (x : Xml) (k : XAttr) : Out Dbl :=
  (Out.ofOption (x.attr k)).bind fun s => Out.ofOption (X.dbl s)

/-- `ParseDoubleAttribute` where the model has a real number. -/
def parseReal (x : Xml) (k : XAttr) : Out ℝ := (parseDbl X x k).bind Dbl.real

/-- `QueryDoubleAttribute(k, &value)`: the value stays when the attribute is missing or not a number. -/
def queryDbl (x : Xml) (k : XAttr) (v : Dbl) : Dbl := ((x.attr k).bind X.dbl).getD v

/-- `AngleAxisd(rpy(2), UnitZ()) * AngleAxisd(rpy(1), UnitY()) * AngleAxisd(rpy(0), UnitX())`
(urdf.cc 80-82). -/
noncomputable def ofRpy (v : Vec3) : Mat3 :=
  (JType.rz.Tjoint v.z).R * (JType.ry.Tjoint v.y).R * (JType.rx.Tjoint v.x).R

/-- `ParseOriginElement` (urdf.cc 64-86): position and orientation. -/
noncomputable def parseOrigin (x : Xml) : Out (Vec3 × Mat3) :=
  Out.ifSome (x.first .origin) (0, 1) fun o =>
    (Out.ifSome (o.attr .xyz) 0 X.vec3).bind fun pos =>
    (Out.ifSome (o.attr .rpy) 1 fun s => (X.vec3 s).map ofRpy).bind fun ori => .ok (pos, ori)

/-- The shape (urdf.cc 104-134). -/
noncomputable def parseGeometry (path : Str) (x : Xml) : Out Geometry :=
  match x.name with
  | .box => (parseAttribute x .size).bind fun s => (X.vec3 s).bind fun v =>
    .ok { type := .box, scale := v }
  | .cylinder => (parseReal X x .radius).bind fun r => (parseReal X x .length).bind fun l =>
    .ok { type := .cylinder, radius := r, length := l }
  | .sphere => (parseReal X x .radius).bind fun r => .ok { type := .sphere, radius := r }
  | .mesh => (parseAttribute x .filename).bind fun f =>
    (Out.ifSome (x.attr .scale) ⟨1, 1, 1⟩ X.vec3).bind fun v => .ok { type := .mesh, mesh := X.join path f, scale := v }
  | _ => .throws

/-- The material (urdf.cc 136-151), a child of `<geometry>`. -/
def parseMaterial (geo : Xml) : Out Material :=
  Out.ifSome (geo.first .material) {} fun m =>
    (parseAttribute m .name).bind fun n =>
    (Out.ifSome (m.first .color) ({ name := n } : Material) fun c =>
      (parseAttribute c .rgba).bind fun s => (X.vec4 s).bind fun v =>
        .ok { name := n, rgba := v }).bind fun r =>
    Out.ifSome (m.first .texture) r fun t =>
      (parseAttribute t .filename).bind fun f => .ok { r with texture := f }

/-- `ParseGraphics` (urdf.cc 88-154). -/
noncomputable def parseGraphics (path : Str) (x : Xml) : Out Graphics :=
  (parseOrigin X x).bind fun o =>
  (parseElement x .geometry).bind fun geo =>
  match geo.kids with
  | [] => .throws
  | y :: _ =>
    (parseGeometry X path y).bind fun g =>
    (parseMaterial X geo).bind fun m =>
    .ok { name := (x.attr .name).getD [], T := ⟨o.2, o.1⟩, geometry := g, material := m }

/-- Read every element. -/
def mapOut {α β : Type*} (f : α → Out β) : List α → Out (List β)
  | [] => .ok []
  | a :: l => (f a).bind fun b => (mapOut f l).bind fun bs => .ok (b :: bs)

open Classical in
/-- The `<inertial>` element (urdf.cc 161-184) with `RigidBody::set_inertia` (rigid_body.cc 16-23):
the tensor is replaced by `Rᵀ I R`. -/
noncomputable def parseInertial (x : Xml) : Out Inertia :=
  (parseOrigin X x).bind fun o =>
  (parseElement x .mass).bind fun xm =>
  (parseReal X xm .value).bind fun m =>
  (parseElement x .inertia).bind fun xi =>
  (parseReal X xi .ixx).bind fun xx => (parseReal X xi .iyy).bind fun yy =>
  (parseReal X xi .izz).bind fun zz => (parseReal X xi .ixy).bind fun xy =>
  (parseReal X xi .ixz).bind fun xz => (parseReal X xi .iyz).bind fun yz =>
  let I : Mat3 := o.2.T * ⟨xx, xy, xz, xy, yy, yz, xz, yz, zz⟩ * o.2
  if m < 0 then .throws
  else .ok (Inertia.ofFlat m o.1 (I.m00, I.m11, I.m22, I.m01, I.m02, I.m12))

/-- A link of the map `rigid_bodies` (urdf.cc 258): the rigid body and the name of its parent. -/
structure ULink where
  tag : Tag
  rb : RB
  parent : Str

/-- `ParseRigidBody` (urdf.cc 156-201), with an empty parent (line 268). -/
noncomputable def parseRigidBody (path : Str) (x : Xml) : Out ULink :=
  (parseAttribute x .name).bind fun n =>
  (Out.ifSome (x.first .inertial) ({} : RB).inertia (parseInertial X)).bind fun I =>
  (mapOut (parseGraphics X path) (x.all .visual)).bind fun g =>
  .ok ⟨⟨n, g⟩, { ({} : RB) with inertia := I }, []⟩

end

/-- `std::map<std::string, std::pair<RigidBody, std::string>>`. -/
abbrev UMap := Str → Option ULink

/-- `rigid_bodies.at(n)`. -/
def UMap.at (U : UMap) (n : Str) : Out ULink := Out.ofOption (U n)

/-- The loop over links (urdf.cc 257-271). -/
noncomputable def loadLinks (X : UrdfExt) (path : Str) :
    List Xml → UMap → List Str → Out (UMap × List Str)
  | [], U, l => .ok (U, l)
  | x :: xs, U, l =>
    (parseRigidBody X path x).bind fun r =>
    if (U r.tag.name).isSome then .throws
    else loadLinks X path xs (Function.update U r.tag.name (some r)) (l ++ [r.tag.name])

open Classical in
/-- `normalized()`: a zero vector is returned as it is. -/
noncomputable def Vec3.normalized (v : Vec3) : Vec3 :=
  if 0 < v.dot v then (1 / Real.sqrt (v.dot v)) • v else v

open Classical in
/-- The number of the joint axis (urdf.cc 294-306). -/
noncomputable def axisNum (X : UrdfExt) (x : Xml) : Out ℕ :=
  Out.ifSome (x.first .axis) 0 fun a => (parseAttribute a .xyz).bind fun s => (X.vec3 s).bind fun v =>
    .ok (if 0.8 < v.normalized.y then 1 else if 0.8 < v.normalized.z then 2 else 0)

/-- Joint type of a prismatic joint (urdf.cc 339-344). -/
def prismaticType : ℕ → JType
  | 0 => .px
  | 1 => .py
  | 2 => .pz
  | _ => .undefined

/-- Joint type of a revolute or continuous joint (urdf.cc 346-351). -/
def revoluteType : ℕ → JType
  | 0 => .rx
  | 1 => .ry
  | 2 => .rz
  | _ => .undefined

/-- Attributes of an optional element. -/
def optDbl (X : UrdfExt) (x : Option Xml) (k : XAttr) (v : Dbl) : Dbl :=
  match x with
  | none => v
  | some y => queryDbl X y k v

/-- Strings of the attribute `type` of a joint. -/
def sRevolute : Str := "revolute".toList
def sContinuous : Str := "continuous".toList
def sPrismatic : Str := "prismatic".toList
def sFixed : Str := "fixed".toList
def sFloating : Str := "floating".toList
def sPlanar : Str := "planar".toList

/-- The joint of a moving link (urdf.cc 308-364). -/
noncomputable def moveJoint (X : UrdfExt) (x : Xml) (type : Str) (axis : ℕ) : Out Joint :=
  let dyn := x.first .dynamics
  let lim := x.first .limit
  let t := if type = sPrismatic then prismaticType axis else revoluteType axis
  let j := (({} : Joint).setType t).joint
  (if type ≠ sContinuous then
    (j.setQLimits (optDbl X lim .lower .ninf) (optDbl X lim .upper .pinf)).out else .ok j).bind fun j =>
  ((j.setDqMax (optDbl X lim .velocity .pinf)).out).bind fun j =>
  ((j.setFqMax (optDbl X lim .effort .pinf)).out).bind fun j =>
  ((j.setFCoulomb (optDbl X dyn .coulomb (.fin 0))).out).bind fun j =>
  ((j.setFStiction (optDbl X dyn .friction (.fin 0))).out).bind fun j =>
  (j.setFViscous (optDbl X dyn .damping (.fin 0))).out

/-- One joint (urdf.cc 275-379).  A missing `<child>` is a null pointer (284-285). -/
noncomputable def loadJoint (X : UrdfExt) (x : Xml) (U : UMap) : Out UMap :=
  (parseElement x .parent).bind fun xp =>
  (parseAttribute xp .link).bind fun parent =>
  (U.at parent).bind fun _ =>
  match x.first .child with
  | none => .ub
  | some xc =>
    (parseAttribute xc .link).bind fun child =>
    (U.at child).bind fun r =>
    (parseOrigin X x).bind fun o =>
    (axisNum X x).bind fun axis =>
    (parseAttribute x .name).bind fun _ =>
    (parseAttribute x .type).bind fun type =>
    if type = sRevolute ∨ type = sContinuous ∨ type = sPrismatic then
      (moveJoint X x type axis).bind fun j =>
      .ok (Function.update U child
        (some { r with rb := { r.rb with joint := j, T := ⟨o.2, o.1⟩ }, parent := parent }))
    else if type = sFixed then
      .ok (Function.update U child
        (some { r with rb := { r.rb with joint := (({} : Joint).setType .undefined).joint
                                         T := ⟨o.2, o.1⟩ }
                       parent := parent }))
    else if type = sFloating then .throws
    else if type = sPlanar then .throws
    else .ok U

/-- The loop over joints (urdf.cc 273-380). -/
noncomputable def loadJoints (X : UrdfExt) : List Xml → UMap → Out UMap
  | [], U => .ok U
  | x :: xs, U => (loadJoint X x U).bind fun U => loadJoints X xs U

/-- Name of the parent of a link. -/
def UMap.parent (U : UMap) (n : Str) : Str := ((U n).map ULink.parent).getD []

/-- `AddChildrenDfs` (urdf.cc 231-240) appending to the output; the first argument bounds the depth of
the recursion, and when it is used up the recursion is taken to be without end. -/
def dfs (U : UMap) (unsorted : List Str) : ℕ → Str → List Str → Out (List Str)
  | 0, _, _ => .ub
  | f + 1, x, out =>
    (unsorted.filter fun y => U.parent y = x).foldl (fun acc y => acc.bind (dfs U unsorted f y))
      (.ok (out ++ [x]))

/-- Sorting (urdf.cc 382-389).  Without a root the end iterator is dereferenced. -/
def sortLinks (U : UMap) (unsorted : List Str) : Out (List Str) :=
  match unsorted.find? fun y => U.parent y = [] with
  | none => .ub
  | some r => dfs U unsorted unsorted.length r []

/-- A link `y` that is a child of the merged link `r` goes to its parent (urdf.cc 417-427). -/
def transferOne (r : ULink) (y : Str) (U : UMap) : UMap :=
  match U y with
  | none => U
  | some c => if c.parent ≠ r.tag.name then U else
    Function.update U y (some { c with rb := { c.rb with T := r.rb.T * c.rb.T }, parent := r.parent })

/-- The loop over the links `l` that come after the merged link (urdf.cc 415-428). -/
def transfer (r : ULink) : List Str → UMap → UMap
  | [], U => U
  | y :: l, U => transfer r l (transferOne r y U)

/-- The parent after a merge (urdf.cc 404-413). -/
noncomputable def merged (p r : ULink) : Out ULink :=
  (p.rb.setInertia (p.rb.inertia.add (r.rb.T.actI r.rb.inertia))).map fun rb =>
    { p with rb := rb
             tag := { p.tag with graphics := p.tag.graphics ++
               r.tag.graphics.map fun g => { g with T := r.rb.T * g.T } } }

/-- Merging of fixed joints (urdf.cc 391-435): links to visit, map, links kept so far. -/
noncomputable def simplifyLoop : List Str → UMap → List Str → Out (UMap × List Str)
  | [], U, kept => .ok (U, kept)
  | x :: rest, U, kept =>
    (U.at x).bind fun r =>
    if r.rb.joint.type ≠ .undefined then simplifyLoop rest U (kept ++ [x])
    else if r.parent = [] then .throws
    else
      (U.at r.parent).bind fun p =>
      (merged p r).bind fun p' =>
      simplifyLoop rest (transfer r rest (Function.update U r.parent (some p'))) kept

/-- The first link is skipped (urdf.cc 394). -/
noncomputable def simplify (U : UMap) : List Str → Out (UMap × List Str)
  | [] => .ok (U, [])
  | x :: rest => simplifyLoop rest U [x]

/-- `AddRigidBody` of the parser (urdf.cc 203-229) on one link; `ids` is `rb_ids`. -/
noncomputable def addLink (U : UMap) (x : Str) (ids : Str → Option ℤ) (n : Named) :
    Out ((Str → Option ℤ) × Named) :=
  (U.at x).bind fun r =>
  if r.parent = [] then
    ((n.body.setBase r.rb.T).setInertiaBase r.rb.inertia).bind fun b =>
    .ok (Function.update ids x (some (-1)), { n with body := b, graphics := r.tag.graphics })
  else
    (Out.ofOption (ids r.parent)).bind fun p =>
    (n.addRigidBody r.tag r.rb p).bind fun n' =>
    .ok (Function.update ids x (some n.body.rbs.length), n')

/-- The loop of urdf.cc 437-443. -/
noncomputable def addLinks (U : UMap) : List Str → (Str → Option ℤ) → Named → Out Named
  | [], _, n => .ok n
  | x :: l, ids, n => (addLink U x ids n).bind fun r => addLinks U l r.1 r.2

/-- `urdf::LoadModel` (urdf.cc 242-446).  `doc`: the top-level elements, or nothing when the file cannot
be read; `c`: the uninitialised cache of the new body. -/
noncomputable def loadModel (X : UrdfExt) (c : Cache) (doc : Option (List Xml)) (path : Str := [])
    (simple : Bool := true) : Out Named :=
  (Out.ofOption doc).bind fun top =>
  (Out.ofOption (Xml.firstIn .robot top)).bind fun robot =>
  (parseAttribute robot .name).bind fun name =>
  (parseElement robot .link).bind fun _ =>
  (loadLinks X path (robot.all .link) (fun _ => none) []).bind fun s =>
  (parseElement robot .joint).bind fun _ =>
  (loadJoints X (robot.all .joint) s.1).bind fun U =>
  (sortLinks U s.2).bind fun l =>
  (if simple then simplify U l else .ok (U, l)).bind fun r =>
  addLinks r.1 r.2 (fun _ => none) { Named.init c with name := name }

end SpatialDyn
