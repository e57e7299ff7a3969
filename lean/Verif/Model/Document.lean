import Verif.Model.Machine

/-!
# Graphics, named bodies and JSON/YAML documents

`include/spatial_dyn/structs/graphics.h`, `src/structs/graphics.cc`, `src/parsers/json.cc`,
`src/parsers/yaml.cc` and the pickling of `src/python/spatial_dyn.cc`.

nlohmann::json and yaml-cpp are external; a document is the tree of values they hand over (`Doc`).
The conversions of Eigen types live in ctrl_utils, also external: they enter as a `Codec`, about which
nothing is assumed except where a theorem says so.

Simplifications: strings are lists of characters; the keys of a map are the field names used by the
code, or any `other` string; a map is a list of entries and look-up takes the first (the order of keys
is never observed).  Booleans do not occur in the documents.
-/

namespace SpatialDyn

/-- `std::string`. -/
abbrev Str := List Char

/-! ## Graphics -/

/-- `Graphics::Geometry::Type` (graphics.h 47-54). -/
inductive GType where
  | undefined | box | capsule | cylinder | sphere | mesh
  deriving DecidableEq, Repr

/-- `kTypeToString` (graphics.cc 27-34) used by `operator<<` (36-39). -/
def GType.name : GType → Str
  | .box => "box".toList
  | .capsule => "capsule".toList
  | .cylinder => "cylinder".toList
  | .sphere => "sphere".toList
  | .mesh => "mesh".toList
  | .undefined => "undefined".toList

/-- `kStringToType` (graphics.cc 18-25). -/
def gtypeTable : List (Str × GType) :=
  [("box".toList, .box), ("capsule".toList, .capsule), ("cylinder".toList, .cylinder),
   ("sphere".toList, .sphere), ("mesh".toList, .mesh), ("undefined".toList, .undefined)]

/-- `operator>>(std::istream&, Graphics::Geometry::Type&)` (graphics.cc 41-47): `none` is the
exception of `std::map::at`. -/
def GType.parse (s : Str) : Option GType := gtypeTable.lookup ((token s).map Char.toLower)

/-- `Graphics::Geometry` (graphics.h 39-80). -/
structure Geometry where
  type : GType := .undefined
  scale : Vec3 := ⟨1, 1, 1⟩
  radius : ℝ := 0
  length : ℝ := 0
  mesh : Str := []

/-- `Eigen::Vector4d`. -/
structure Vec4 where
  x : ℝ
  y : ℝ
  z : ℝ
  w : ℝ

/-- `Graphics::Material` (graphics.h 82-87). -/
structure Material where
  name : Str := []
  rgba : Vec4 := ⟨1, 1, 1, 1⟩
  texture : Str := []

/-- `Graphics` (graphics.h 89-95). -/
structure Graphics where
  name : Str := []
  T : Iso := 1
  geometry : Geometry := {}
  material : Material := {}

/-- The fields `name` and `graphics` of a `RigidBody` (rigid_body.h 60-67). -/
structure Tag where
  name : Str := []
  graphics : List Graphics := []

/-- An `ArticulatedBody` with the fields `name` and `graphics` of itself (articulated_body.h) and of
its rigid bodies, which the algorithms never read. -/
structure Named where
  name : Str := []
  graphics : List Graphics := []
  body : Body
  tags : List Tag := []

/-- A body constructed by default. -/
def Named.init (c : Cache) : Named := { body := Body.init c }

/-- `ArticulatedBody::AddRigidBody` (articulated_body.cc 241-252) with the name and graphics of the
rigid body. -/
def Named.addRigidBody (n : Named) (t : Tag) (rb : RB) (p : ℤ) : Out Named :=
  (n.body.addRigidBody rb p).map fun r => { n with body := r.2, tags := n.tags ++ [t] }

/-! ## Documents -/

/-- Keys of the maps in a document: the names used by the parsers, or any other string. -/
inductive Key where
  | name | graphics | T_base_to_world | inertia_base | rigid_bodies
  | id | id_parent | T_to_parent | inertia | joint
  | type | q_min | q_max | dq_max | fq_max | f_coulomb | f_viscous | f_stiction
  | mass | com | I_com_flat
  | geometry | material | scale | radius | length | mesh | rgba | texture
  | other (s : Str)
  deriving DecidableEq

/-- A parsed document: `nlohmann::json` or `YAML::Node`. -/
inductive Doc where
  | null
  | num (x : Dbl)
  | int (i : ℤ)
  | str (s : Str)
  | arr (l : List Doc)
  | obj (l : List (Key × Doc))

namespace Doc

/-- `doc[k] = v` on a map. -/
def put (d : Doc) (k : Key) (v : Doc) : Doc :=
  match d with
  | obj l => obj ((k, v) :: l.filter fun e => e.1 ≠ k)
  | _ => obj [(k, v)]

/-- Look-up in a map. -/
def find (k : Key) : List (Key × Doc) → Option Doc
  | [] => none
  | e :: l => if e.1 = k then some e.2 else find k l

mutual
/-- `nlohmann::json::parse(json.dump())`: a number that is not finite is written as `null`. -/
def text : Doc → Doc
  | num (.fin r) => num (.fin r)
  | num _ => null
  | null => null
  | int i => int i
  | str s => str s
  | arr l => arr (textList l)
  | obj l => obj (textObj l)
/-- `text` on the elements of an array. -/
def textList : List Doc → List Doc
  | [] => []
  | d :: l => text d :: textList l
/-- `text` on the values of a map. -/
def textObj : List (Key × Doc) → List (Key × Doc)
  | [] => []
  | (k, d) :: l => (k, text d) :: textObj l
end

end Doc

/-- Conversions of Eigen types (ctrl_utils/json.h, ctrl_utils/yaml.h; external). -/
structure Codec where
  encVec3 : Vec3 → Doc
  decVec3 : Doc → Out Vec3
  encVec4 : Vec4 → Doc
  decVec4 : Doc → Out Vec4
  encVec6 : ℝ × ℝ × ℝ × ℝ × ℝ × ℝ → Doc
  decVec6 : Doc → Out (ℝ × ℝ × ℝ × ℝ × ℝ × ℝ)
  encIso : Iso → Doc
  decIso : Doc → Out Iso

/-- What the two document libraries do when a value is read.

* `get d k`: `json.count(k)` and `json.at(k)`, or `node[k]`;
* `items`: what a range-based `for` runs over. -/
structure Fmt where
  codec : Codec
  get : Doc → Key → Out (Option Doc)
  str : Doc → Out Str
  dbl : Doc → Out Dbl
  int : Doc → Out ℤ
  items : Doc → Out (List Doc)

/-- nlohmann::json: `count` is zero on anything but an object; a wrong type is an exception; a scalar
is a range of one element. -/
noncomputable def jsonFmt (C : Codec) : Fmt where
  codec := C
  get d k := match d with
    | .obj l => .ok (Doc.find k l)
    | _ => .ok none
  str d := match d with
    | .str s => .ok s
    | _ => .throws
  dbl d := match d with
    | .num x => .ok x
    | .int i => .ok (.fin i)
    | _ => .throws
  int d := match d with
    | .int i => .ok i
    | .num (.fin r) => .ok (truncInt r)
    | .num _ => .ub
    | _ => .throws
  items d := match d with
    | .arr l => .ok l
    | .obj l => .ok (l.map Prod.snd)
    | .null => .ok []
    | d => .ok [d]

/-- yaml-cpp: a subscript on a scalar is an exception, on a sequence or null it is undefined (false);
iterating over a map gives pairs, which are not nodes, and using them is an exception.  (A number and
its printed form are one thing here; `as<std::string>` of a number is not modelled and throws.) -/
noncomputable def yamlFmt (C : Codec) : Fmt where
  codec := C
  get d k := match d with
    | .obj l => .ok (Doc.find k l)
    | .arr _ => .ok none
    | .null => .ok none
    | _ => .throws
  str d := match d with
    | .str s => .ok s
    | _ => .throws
  dbl d := match d with
    | .num x => .ok x
    | .int i => .ok (.fin i)
    | _ => .throws
  int d := match d with
    | .int i => .ok i
    | _ => .throws
  items d := match d with
    | .arr l => .ok l
    | .obj [] => .ok []
    | .obj _ => .throws
    | _ => .ok []

namespace Fmt

/-- `if (json.count(k)) x = f(x, json.at(k).get<T>())`. -/
def opt {α β : Type*} (F : Fmt) (d : Doc) (k : Key) (dec : Doc → Out α) (f : β → α → Out β) (x : β) :
    Out β :=
  (F.get d k).bind fun
    | none => .ok x
    | some v => (dec v).bind fun a => f x a

/-- `if (!json.count(k)) throw ...; json.at(k).get<T>()`. -/
def req {α : Type*} (F : Fmt) (d : Doc) (k : Key) (dec : Doc → Out α) : Out α :=
  (F.get d k).bind fun
    | none => .throws
    | some v => dec v

/-- A `double` that is finite; other values are outside the model of inertias and graphics. -/
def real (F : Fmt) (d : Doc) : Out ℝ :=
  (F.dbl d).bind fun
    | .fin r => .ok r
    | _ => .ub

end Fmt

/-- Read every element. -/
def decodeList {α : Type*} (dec : Doc → Out α) : List Doc → Out (List α)
  | [] => .ok []
  | d :: l => (dec d).bind fun a => (decodeList dec l).bind fun as => .ok (a :: as)

/-- `get<std::vector<T>>()`: nlohmann::json and yaml-cpp accept sequences only. -/
def decodeVec {α : Type*} (dec : Doc → Out α) : Doc → Out (List α)
  | .arr l => decodeList dec l
  | _ => .throws

/-! ## Joints and inertias -/

/-- `to_json(json, Joint)` (json.cc 81-90), `encode(Joint)` (yaml.cc 81-92). -/
def encJoint (j : Joint) : Doc :=
  (((((((((Doc.obj []).put .type (.str j.type.name)).put .q_min (.num j.qMin)).put .q_max
    (.num j.qMax)).put .dq_max (.num j.dqMax)).put .fq_max (.num j.fqMax)).put .f_coulomb
    (.num j.fCoulomb)).put .f_viscous (.num j.fViscous)).put .f_stiction (.num j.fStiction))

/-- A setter of `Joint`: its exception is passed on. -/
def Joint.Res.out (r : Joint.Res) : Out Joint := if r.threw then .throws else .ok r.joint

/-- `from_json(json, Joint::Type)` (json.cc 125-127, yaml.cc 131-134). -/
def decJType (F : Fmt) (d : Doc) : Out JType :=
  (F.str d).bind fun s => match JType.parse s with
    | some t => .ok t
    | none => .throws

/-- `from_json(json, Joint)` (json.cc 92-119), `decode(Joint)` (yaml.cc 94-123). -/
noncomputable def decJoint (F : Fmt) (d : Doc) : Out Joint :=
  (F.req d .type (decJType F)).bind fun t =>
  (F.opt d .q_min F.dbl (fun j x => (j.setQMin x).out) ((({} : Joint).setType t).joint)).bind fun j =>
  (F.opt d .q_max F.dbl (fun j x => (j.setQMax x).out) j).bind fun j =>
  (F.opt d .dq_max F.dbl (fun j x => (j.setDqMax x).out) j).bind fun j =>
  (F.opt d .fq_max F.dbl (fun j x => (j.setFqMax x).out) j).bind fun j =>
  (F.opt d .f_coulomb F.dbl (fun j x => (j.setFCoulomb x).out) j).bind fun j =>
  (F.opt d .f_viscous F.dbl (fun j x => (j.setFViscous x).out) j).bind fun j =>
  F.opt d .f_stiction F.dbl (fun j x => (j.setFStiction x).out) j

/-- `to_json(json, SpatialInertiad)` (json.cc 129-133), yaml.cc 136-142. -/
def encInertia (C : Codec) (I : Inertia) : Doc :=
  ((((Doc.obj []).put .mass (.num (.fin I.mass))).put .com (C.encVec3 I.com)).put .I_com_flat
    (C.encVec6 I.flat))

/-- `from_json(json, SpatialInertiad)` (json.cc 135-152), yaml.cc 144-165. -/
def decInertia (F : Fmt) (d : Doc) : Out Inertia :=
  (F.req d .mass F.real).bind fun m =>
  (F.req d .com F.codec.decVec3).bind fun c =>
  (F.req d .I_com_flat F.codec.decVec6).bind fun v => .ok (Inertia.ofFlat m c v)

/-! ## Graphics -/

/-- `to_json(json, Graphics::Geometry)` (json.cc 176-197), yaml.cc 192-215. -/
def encGeometry (C : Codec) (g : Geometry) : Doc :=
  let d := (Doc.obj []).put .type (.str g.type.name)
  match g.type with
  | .box => d.put .scale (C.encVec3 g.scale)
  | .capsule | .cylinder =>
    (d.put .radius (.num (.fin g.radius))).put .length (.num (.fin g.length))
  | .sphere => d.put .radius (.num (.fin g.radius))
  | .mesh => (d.put .mesh (.str g.mesh)).put .scale (C.encVec3 g.scale)
  | .undefined => d

/-- `from_json(json, Graphics::Geometry::Type)` (json.cc 246-248), yaml.cc 273-276. -/
def decGType (F : Fmt) (d : Doc) : Out GType :=
  (F.str d).bind fun s => match GType.parse s with
    | some t => .ok t
    | none => .throws

/-- `from_json(json, Graphics::Geometry)` (json.cc 199-240), yaml.cc 217-265. -/
def decGeometry (F : Fmt) (d : Doc) : Out Geometry :=
  (F.req d .type (decGType F)).bind fun t =>
  let g : Geometry := { type := t }
  match t with
  | .box => (F.req d .scale F.codec.decVec3).bind fun s => .ok { g with scale := s }
  | .capsule | .cylinder =>
    (F.req d .radius F.real).bind fun r =>
    (F.req d .length F.real).bind fun l => .ok { g with radius := r, length := l }
  | .sphere => (F.req d .radius F.real).bind fun r => .ok { g with radius := r }
  | .mesh =>
    (F.opt d .scale F.codec.decVec3 (fun g s => .ok { g with scale := s }) g).bind fun g =>
    (F.req d .mesh F.str).bind fun m => .ok { g with mesh := m }
  | .undefined => .ok g

/-- `to_json(json, Graphics::Material)` (json.cc 250-254), yaml.cc 278-284. -/
def encMaterial (C : Codec) (m : Material) : Doc :=
  ((((Doc.obj []).put .name (.str m.name)).put .rgba (C.encVec4 m.rgba)).put .texture
    (.str m.texture))

/-- `from_json(json, Graphics::Material)` (json.cc 256-266), yaml.cc 286-297. -/
def decMaterial (F : Fmt) (d : Doc) : Out Material :=
  (F.opt d .name F.str (fun (m : Material) s => .ok { m with name := s }) {}).bind fun m =>
  (F.opt d .rgba F.codec.decVec4 (fun m v => .ok { m with rgba := v }) m).bind fun m =>
  F.opt d .texture F.str (fun m s => .ok { m with texture := s }) m

/-- `to_json(json, Graphics)` (json.cc 154-159), yaml.cc 167-174. -/
def encGraphics (C : Codec) (g : Graphics) : Doc :=
  (((((Doc.obj []).put .name (.str g.name)).put .T_to_parent (C.encIso g.T)).put .geometry
    (encGeometry C g.geometry)).put .material (encMaterial C g.material))

/-- `from_json(json, Graphics)` (json.cc 161-174), yaml.cc 176-190. -/
def decGraphics (F : Fmt) (d : Doc) : Out Graphics :=
  (F.opt d .name F.str (fun (g : Graphics) s => .ok { g with name := s }) {}).bind fun g =>
  (F.opt d .T_to_parent F.codec.decIso (fun g T => .ok { g with T := T }) g).bind fun g =>
  (F.opt d .geometry (decGeometry F) (fun g x => .ok { g with geometry := x }) g).bind fun g =>
  F.opt d .material (decMaterial F) (fun g x => .ok { g with material := x }) g

/-! ## Rigid bodies -/

/-- `to_json(json, RigidBody)` (json.cc 47-55), yaml.cc 50-60. -/
def encRigidBody (C : Codec) (t : Tag) (rb : RB) : Doc :=
  ((((((((Doc.obj []).put .name (.str t.name)).put .graphics
    (.arr (t.graphics.map (encGraphics C)))).put .id (.int rb.id)).put .id_parent
    (.int rb.idParent)).put .T_to_parent (C.encIso rb.T)).put .inertia
    (encInertia C rb.inertia)).put .joint (encJoint rb.joint))

open Classical in
/-- `RigidBody::set_inertia` (rigid_body.cc 24-29). -/
noncomputable def RB.setInertia (rb : RB) (I : Inertia) : Out RB :=
  if I.mass < 0 then .throws else .ok { rb with inertia := I }

/-- The part of `from_json(json, RigidBody)` (json.cc 57-79) before the ids and after them; YAML
(yaml.cc 62-79) has the same statements and no others. -/
noncomputable def decRigidBodyRest (F : Fmt) (d : Doc) (x : Tag × RB) : Out (Tag × RB) :=
  (F.opt d .T_to_parent F.codec.decIso (fun (x : Tag × RB) T => .ok (x.1, { x.2 with T := T })) x).bind
    fun x =>
  (F.opt d .inertia (decInertia F) (fun x I => (x.2.setInertia I).map fun r => (x.1, r)) x).bind fun x =>
  F.opt d .joint (decJoint F) (fun x j => .ok (x.1, { x.2 with joint := j })) x

/-- `name` and `graphics` (json.cc 58-63, yaml.cc 63-68). -/
noncomputable def decRigidBodyTag (F : Fmt) (d : Doc) : Out (Tag × RB) :=
  (F.opt d .name F.str (fun (x : Tag × RB) s => .ok ({ x.1 with name := s }, x.2)) ({}, {})).bind fun x =>
  F.opt d .graphics (decodeVec (decGraphics F))
    (fun x g => .ok ({ x.1 with graphics := g }, x.2)) x

/-- `from_json(json, RigidBody)` (json.cc 57-79). -/
noncomputable def jsonRigidBody (C : Codec) (d : Doc) : Out (Tag × RB) :=
  let F := jsonFmt C
  (decRigidBodyTag F d).bind fun x =>
  (F.opt d .id F.int (fun x i => .ok (x.1, { x.2 with id := i })) x).bind fun x =>
  (F.opt d .id_parent F.int (fun x i => .ok (x.1, { x.2 with idParent := i })) x).bind fun x =>
  decRigidBodyRest F d x

/-- `decode(RigidBody)` (yaml.cc 62-79): `id` and `id_parent` are not read. -/
noncomputable def yamlRigidBody (C : Codec) (d : Doc) : Out (Tag × RB) :=
  (decRigidBodyTag (yamlFmt C) d).bind fun x => decRigidBodyRest (yamlFmt C) d x

/-! ## Articulated bodies -/

/-- `to_json(json, ArticulatedBody)` (json.cc 18-24), yaml.cc 18-26. -/
def encBody (C : Codec) (n : Named) : Doc :=
  ((((((Doc.obj []).put .name (.str n.name)).put .graphics
    (.arr (n.graphics.map (encGraphics C)))).put .T_base_to_world (C.encIso n.body.T0)).put
    .inertia_base (encInertia C n.body.inertiaBase)).put .rigid_bodies
    (.arr (List.zipWith (encRigidBody C) n.tags n.body.rbs)))

/-- The loop over `rigid_bodies` (json.cc 40-43, yaml.cc 42-45). -/
noncomputable def decBodies (dec : Doc → Out (Tag × RB)) : List Doc → Named → Out Named
  | [], n => .ok n
  | d :: l, n => (dec d).bind fun x => (n.addRigidBody x.1 x.2 x.2.idParent).bind fun n =>
    decBodies dec l n

/-- `from_json(json, ArticulatedBody)` (json.cc 26-45), yaml.cc 28-48, on an existing body. -/
noncomputable def decBody (F : Fmt) (dec : Doc → Out (Tag × RB)) (d : Doc) (n : Named) : Out Named :=
  (F.opt d .name F.str (fun (n : Named) s => .ok { n with name := s }) n).bind fun n =>
  (F.opt d .graphics (decodeVec (decGraphics F)) (fun n g => .ok { n with graphics := g }) n).bind
    fun n =>
  (F.opt d .T_base_to_world F.codec.decIso
    (fun (n : Named) T => .ok { n with body := n.body.setBase T }) n).bind fun n =>
  (F.opt d .inertia_base (decInertia F)
    (fun n I => (n.body.setInertiaBase I).map fun b => { n with body := b }) n).bind fun n =>
  F.opt d .rigid_bodies F.items (fun n l => decBodies dec l n) n

/-- `from_json` for articulated bodies. -/
noncomputable def fromJson (C : Codec) (d : Doc) (n : Named) : Out Named :=
  decBody (jsonFmt C) (jsonRigidBody C) d n

/-- `YAML::convert<ArticulatedBody>::decode`. -/
noncomputable def fromYaml (C : Codec) (d : Doc) (n : Named) : Out Named :=
  decBody (yamlFmt C) (yamlRigidBody C) d n

/-- `pickle.loads(pickle.dumps(ab))` (src/python/spatial_dyn.cc 233-237); `c` is the uninitialised
cache of the new body. -/
noncomputable def pickle (C : Codec) (c : Cache) (n : Named) : Out Named :=
  fromJson C (encBody C n).text (Named.init c)

end SpatialDyn
