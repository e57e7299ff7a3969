import Verif.Model.Redisgl
import Verif.Spec.Document

/-! What the module of `Model/Redisgl` is for, stated without keys and dictionaries. -/

namespace SpatialDyn.Redisgl
open SpatialDyn

/-- The registry as its users think of it: robots and objects by namespace and name. -/
structure Registry where
  resources : Set Str
  spaces : Set Str
  objects : Str → Str → Option Obj
  robots : Str → Str → Option Rob

/-- An object that can be written down: every orientation has at least four numbers. -/
def Obj.Writable (o : Obj) : Prop := ∀ g ∈ o.graphics, 4 ≤ g.T.quat.length

open Classical in
/-- What a call means. -/
noncomputable def Registry.exec (v : Registry) : Call → Registry
  | .addResource p => { v with resources := v.resources ∪ {p} }
  | .removeResource p => { v with resources := v.resources \ {p} }
  | .addKeys ns => { v with spaces := v.spaces ∪ {ns} }
  | .removeKeys ns => { v with spaces := v.spaces \ {ns} }
  | .addObject ns o => { v with objects := fun n x =>
      if n = ns ∧ x = o.name ∧ o.Writable then some o else v.objects n x }
  | .removeObject ns name => { v with objects := fun n x =>
      if n = ns ∧ x = name then none else v.objects n x }
  | .addRobot ns r => { v with robots := fun n x =>
      if n = ns ∧ x = r.body.name then some r else v.robots n x }

/-- A namespace without the character of the separator. -/
def PlainName (ns : Str) : Prop := ':' ∉ ns

/-- The namespace of a call has no colon; names are arbitrary. -/
def Call.Plain : Call → Prop
  | .addResource _ | .removeResource _ => True
  | .addKeys ns | .removeKeys ns | .addObject ns _ | .removeObject ns _ | .addRobot ns _ => PlainName ns

/-- The database holds the registry, under the documented keys, in the namespaces without colon. -/
structure Db.Shows (C : Codec) (db : Db) (v : Registry) : Prop where
  resources : (v.resources = ∅ ∧ db "webapp::resources::simulator".toList = none) ∨
    ∃ l, l ≠ [] ∧ db "webapp::resources::simulator".toList = some (.set l) ∧ ∀ p, p ∈ l ↔ p ∈ v.resources
  spaces : ∀ ns, PlainName ns → (ns ∈ v.spaces → ∃ d,
      db ("webapp::simulator::args::".toList ++ ns) = some (.text d) ∧
      item d "key_objects_prefix".toList = .ok (.str (ns ++ "::model::object::".toList)) ∧
      item d "key_robots_prefix".toList = .ok (.str (ns ++ "::model::robot::".toList))) ∧
    (ns ∉ v.spaces → db ("webapp::simulator::args::".toList ++ ns) = none)
  objects : ∀ ns x, PlainName ns → match v.objects ns x with
    | some o => ∃ d, o.toDict = .ok d ∧ db (ns ++ "::model::object::".toList ++ x) = some (.text d)
    | none => db (ns ++ "::model::object::".toList ++ x) = none
  robots : ∀ ns x, PlainName ns →
    db (ns ++ "::model::robot::".toList ++ x) = (v.robots ns x).map fun r => .text (r.toDict C)

/-! ## Meaning of the documents -/

/-- The conversions of Eigen types read lists of three and four numbers as vectors, and a position with a
quaternion as a transform, where `rot` is the rotation of a quaternion (`x, y, z, w`). -/
structure ReadsLists (C : Codec) (rot : ℝ → ℝ → ℝ → ℝ → Mat3) : Prop where
  vec3 : ∀ x y z, C.decVec3 (numList [x, y, z]) = .ok ⟨x, y, z⟩
  vec4 : ∀ x y z w, C.decVec4 (numList [x, y, z, w]) = .ok ⟨x, y, z, w⟩
  iso : ∀ a b c x y z w, C.decIso (.obj [(.other "pos".toList, numList [a, b, c]),
    (.other "ori".toList, .obj [(.other "x".toList, .num (.fin x)), (.other "y".toList, .num (.fin y)),
      (.other "z".toList, .num (.fin z)), (.other "w".toList, .num (.fin w))])]) =
    .ok ⟨rot x y z w, ⟨a, b, c⟩⟩

/-- The same shape in Python and in C++. -/
inductive Shape.Is : Shape → Geometry → Prop
  | box (x y z : ℝ) (g : Geometry) : g.type = .box → g.scale = ⟨x, y, z⟩ → Is (.box [x, y, z]) g
  | capsule (r l : ℝ) (g : Geometry) : g.type = .capsule → g.radius = r → g.length = l →
    Is (.capsule r l) g
  | cylinder (r l : ℝ) (g : Geometry) : g.type = .cylinder → g.radius = r → g.length = l →
    Is (.cylinder r l) g
  | sphere (r : ℝ) (g : Geometry) : g.type = .sphere → g.radius = r → Is (.sphere r) g
  | mesh (p : Str) (x y z : ℝ) (g : Geometry) : g.type = .mesh → g.mesh = p → g.scale = ⟨x, y, z⟩ →
    Is (.mesh p [x, y, z]) g

/-- The same picture in Python and in C++. -/
structure Picture.Is (rot : ℝ → ℝ → ℝ → ℝ → Mat3) (p : Picture) (g : Graphics) : Prop where
  name : g.name = p.name
  geometry : p.geometry.Is g.geometry
  material : g.material.name = p.material.name ∧ g.material.texture = p.material.texture ∧
    p.material.rgba = [g.material.rgba.x, g.material.rgba.y, g.material.rgba.z, g.material.rgba.w]
  pose : ∃ x y z w, p.T.quat = [x, y, z, w] ∧ g.T.R = rot x y z w ∧ p.T.pos = [g.T.t.x, g.T.t.y, g.T.t.z]

/-- Three measures, three coordinates, four colours, four entries of a quaternion. -/
structure Picture.Sized (p : Picture) : Prop where
  scale : match p.geometry with
    | .box s => s.length = 3
    | .mesh _ s => s.length = 3
    | _ => True
  rgba : p.material.rgba.length = 4
  pos : p.T.pos.length = 3
  quat : p.T.quat.length = 4

/-- The statement changes no default object in place. -/
def Stmt.Respects : Stmt → Prop
  | .setEntry a _ _ => a ≠ 0 ∧ a ≠ 1
  | .setPos p _ => p ≠ 0
  | .setQuat p _ => p ≠ 0
  | .setMaterial m _ => m ≠ 0
  | _ => True

/-- The database `db'` is `db` after publishing the robot `n`, at the origin, in the namespace `dyn`, with the
resources `p`: four entries. -/
structure Db.Published (C : Codec) (vec : List ℝ → Doc) (db db' : Db) (p : Str) (n : Named) : Prop where
  resources : ∃ l, db' "webapp::resources::simulator".toList = some (.set l) ∧
    ∀ x, x ∈ l ↔ x = p ∨ ∃ l', db "webapp::resources::simulator".toList = some (.set l') ∧ x ∈ l'
  space : ∃ d, db' "webapp::simulator::args::dyn".toList = some (.text d) ∧
    item d "key_robots_prefix".toList = .ok (.str "dyn::model::robot::".toList) ∧
    item d "key_objects_prefix".toList = .ok (.str "dyn::model::object::".toList) ∧
    item d "key_trajectories_prefix".toList = .ok (.str "dyn::model::trajectory::".toList) ∧
    item d "key_cameras_prefix".toList = .ok (.str "dyn::model::camera::".toList)
  q : db' (n.name ++ "::sensor::q".toList) = some (.text (vec (List.replicate n.body.dof 0)))
  robot : ∃ d, db' ("dyn::model::robot::".toList ++ n.name) = some (.text d) ∧
    item d "articulated_body".toList = .ok (encBody C n).text ∧
    item d "key_q".toList = .ok (.str (n.name ++ "::sensor::q".toList)) ∧
    item d "key_pos".toList = .ok (.str []) ∧ item d "key_ori".toList = .ok (.str [])
  others : ∀ k, k ≠ "webapp::resources::simulator".toList → k ≠ "webapp::simulator::args::dyn".toList →
    k ≠ n.name ++ "::sensor::q".toList → k ≠ "dyn::model::robot::".toList ++ n.name → db' k = db k

end SpatialDyn.Redisgl
