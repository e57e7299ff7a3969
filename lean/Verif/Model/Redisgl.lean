import Verif.Model.Document

/-!
# The Python module `apps/redisgl/redisgl.py`

Descriptions of pictures, objects and robots for a web page, published as JSON in a Redis database.

Redis and the `json` module are external: the database is a map from keys to texts or sets, and the text
of a dictionary is the document it holds (`Doc`).  Numbers are real, so that `json.dumps` loses nothing
(it refuses numpy integers, and writes infinite numbers as words that JSON does not have).
A Python exception is `Out.throws`.  A `ModelKeys` object is its namespace: the prefixes are made from it
by the constructor (`redisgl.py:172-177`) and nobody assigns to them later.
-/

namespace SpatialDyn.Redisgl
open SpatialDyn

/-- A list of numbers (`tolist`, `list`, a tuple). -/
def numList (l : List ℝ) : Doc := .arr (l.map fun r => .num (.fin r))

/-- `Pose` (`redisgl.py:15-25`): two arrays. -/
structure Pose where
  pos : List ℝ := [0, 0, 0]
  quat : List ℝ := [0, 0, 0, 1]

/-- `Pose.to_dict` (`redisgl.py:36-46`): an `IndexError` if `quat` has fewer than four entries. -/
def Pose.toDict (p : Pose) : Out Doc :=
  match p.quat with
  | x :: y :: z :: w :: _ => .ok (.obj [(.other "pos".toList, numList p.pos), (.other "ori".toList, .obj
      [(.other "x".toList, .num (.fin x)), (.other "y".toList, .num (.fin y)),
       (.other "z".toList, .num (.fin z)), (.other "w".toList, .num (.fin w))])])
  | _ => .throws

/-- `d[k]` of a dictionary: a `KeyError` if it is missing. -/
def item (d : Doc) (k : Str) : Out Doc :=
  match d with
  | .obj l => match Doc.find (.other k) l with
    | some v => .ok v
    | none => .throws
  | _ => .throws

/-- A number. -/
def number : Doc → Out ℝ
  | .num (.fin r) => .ok r
  | _ => .throws

/-- A list of numbers as an array. -/
def array : Doc → Out (List ℝ)
  | .arr l => decodeList number l
  | _ => .throws

/-- `Pose.from_dict` (`redisgl.py:27-34`): the position is looked up under `"pose"`. -/
def Pose.fromDict (d : Doc) : Out Pose :=
  (item d "pose".toList).bind fun p => (array p).bind fun p =>
  (item d "ori".toList).bind fun o =>
  (item o "x".toList).bind fun x => (number x).bind fun x =>
  (item o "y".toList).bind fun y => (number y).bind fun y =>
  (item o "z".toList).bind fun z => (number z).bind fun z =>
  (item o "w".toList).bind fun w => (number w).bind fun w =>
  .ok ⟨p, [x, y, z, w]⟩

/-- The subclasses of `Geometry` (`redisgl.py:49-123`). -/
inductive Shape where
  | box (scale : List ℝ)
  | capsule (radius length : ℝ)
  | cylinder (radius length : ℝ)
  | sphere (radius : ℝ)
  | mesh (path : Str) (scale : List ℝ)

/-- `to_dict` of the geometries (`redisgl.py:61-65, 75-80, 90-95, 104-108, 118-123`). -/
def Shape.toDict : Shape → Doc
  | .box s => .obj [(.type, .str "box".toList), (.scale, numList s)]
  | .capsule r l => .obj [(.type, .str "capsule".toList), (.radius, .num (.fin r)),
      (.length, .num (.fin l))]
  | .cylinder r l => .obj [(.type, .str "cylinder".toList), (.radius, .num (.fin r)),
      (.length, .num (.fin l))]
  | .sphere r => .obj [(.type, .str "sphere".toList), (.radius, .num (.fin r))]
  | .mesh p s => .obj [(.type, .str "mesh".toList), (.mesh, .str p), (.scale, numList s)]

/-- `Material` (`redisgl.py:126-130`). -/
structure Paint where
  name : Str := []
  rgba : List ℝ := [1, 1, 1, 1]
  texture : Str := []

/-- `Material.to_dict` (`redisgl.py:132-137`). -/
def Paint.toDict (m : Paint) : Doc :=
  .obj [(.name, .str m.name), (.rgba, numList m.rgba), (.texture, .str m.texture)]

/-- `Graphics` (`redisgl.py:140-145`). -/
structure Picture where
  name : Str
  geometry : Shape
  material : Paint := {}
  T : Pose := {}

/-- `Graphics.to_dict` (`redisgl.py:147-153`). -/
def Picture.toDict (g : Picture) : Out Doc :=
  g.T.toDict.bind fun t => .ok (.obj [(.name, .str g.name), (.T_to_parent, t),
    (.geometry, g.geometry.toDict), (.material, g.material.toDict)])

/-- `[g.to_dict() for g in graphics]`. -/
def picturesToDict : List Picture → Out (List Doc)
  | [] => .ok []
  | g :: l => g.toDict.bind fun d => (picturesToDict l).bind fun ds => .ok (d :: ds)

/-- `ObjectModel` (`redisgl.py:198-206`); one `Graphics` stands for the list of it. -/
structure Obj where
  name : Str
  graphics : List Picture
  keyPos : Str := []
  keyOri : Str := []
  keyScale : Str := []
  keyMatrix : Str := []
  axisSize : ℝ := 0.1

/-- `ObjectModel.to_dict` (`redisgl.py:208-219`). -/
def Obj.toDict (o : Obj) : Out Doc :=
  (picturesToDict o.graphics).bind fun gs => .ok (.obj [(.graphics, .arr gs),
    (.other "key_pos".toList, .str o.keyPos), (.other "key_ori".toList, .str o.keyOri),
    (.other "key_scale".toList, .str o.keyScale), (.other "key_matrix".toList, .str o.keyMatrix),
    (.other "axis_size".toList, .num (.fin o.axisSize))])

/-- `RobotModel` (`redisgl.py:248-253`). -/
structure Rob where
  body : Named
  keyQ : Str
  keyPos : Str := []
  keyOri : Str := []

/-- `RobotModel.to_dict` (`redisgl.py:255-261`): `str(ab)` is `nlohmann::json(ab).dump()`
(`src/python/spatial_dyn.cc:224-225`), which `json.loads` parses. -/
def Rob.toDict (C : Codec) (r : Rob) : Doc :=
  .obj [(.other "articulated_body".toList, (encBody C r.body).text), (.other "key_q".toList, .str r.keyQ),
    (.other "key_pos".toList, .str r.keyPos), (.other "key_ori".toList, .str r.keyOri)]

/-! ## The database -/

/-- A value in Redis. -/
inductive Entry where
  | text (d : Doc)
  | set (l : List Str)

/-- The database. -/
abbrev Db := Str → Option Entry

/-- `KEY_RESOURCES` (`redisgl.py:12`). -/
def keyResources : Str := "webapp::resources::simulator".toList

/-- The key of a namespace (`redisgl.py:11, 190, 195`). -/
def keyArgs (ns : Str) : Str := "webapp::simulator::args".toList ++ "::".toList ++ ns

/-- The key of a robot (`redisgl.py:174, 268`). -/
def keyRobot (ns name : Str) : Str := ns ++ "::model::robot::".toList ++ name

/-- The key of an object (`redisgl.py:175, 232, 245`). -/
def keyObject (ns name : Str) : Str := ns ++ "::model::object::".toList ++ name

/-- `ModelKeys.to_dict` (`redisgl.py:179-185`). -/
def keysDict (ns : Str) : Doc :=
  .obj [(.other "key_robots_prefix".toList, .str (ns ++ "::model::robot::".toList)),
    (.other "key_objects_prefix".toList, .str (ns ++ "::model::object::".toList)),
    (.other "key_trajectories_prefix".toList, .str (ns ++ "::model::trajectory::".toList)),
    (.other "key_cameras_prefix".toList, .str (ns ++ "::model::camera::".toList))]

open Classical in
/-- `SET`: replaces whatever is there. -/
noncomputable def Db.put (db : Db) (k : Str) (e : Entry) : Db := Function.update db k (some e)

open Classical in
/-- `DEL`. -/
noncomputable def Db.del (db : Db) (k : Str) : Db := Function.update db k none

open Classical in
/-- `SADD`: an error if the key holds a text. -/
noncomputable def Db.sadd (db : Db) (k p : Str) : Out Db :=
  match db k with
  | none => .ok (db.put k (.set [p]))
  | some (.set l) => .ok (db.put k (.set (if p ∈ l then l else p :: l)))
  | some (.text _) => .throws

open Classical in
/-- `SREM`: a set that becomes empty disappears. -/
noncomputable def Db.srem (db : Db) (k p : Str) : Out Db :=
  match db k with
  | none => .ok db
  | some (.set l) => .ok (if l.filter (· ≠ p) = [] then db.del k else db.put k (.set (l.filter (· ≠ p))))
  | some (.text _) => .throws

/-- The functions of the module. -/
inductive Call where
  | addResource (p : Str)
  | removeResource (p : Str)
  | addKeys (ns : Str)
  | removeKeys (ns : Str)
  | addObject (ns : Str) (o : Obj)
  | removeObject (ns name : Str)
  | addRobot (ns : Str) (r : Rob)

/-- One call (`redisgl.py:156-161, 188-195, 222-245, 264-270`). -/
noncomputable def Call.step (C : Codec) (db : Db) : Call → Out Db
  | .addResource p => db.sadd keyResources p
  | .removeResource p => db.srem keyResources p
  | .addKeys ns => .ok (db.put (keyArgs ns) (.text (keysDict ns)))
  | .removeKeys ns => .ok (db.del (keyArgs ns))
  | .addObject ns o => o.toDict.bind fun d => .ok (db.put (keyObject ns o.name) (.text d))
  | .removeObject ns name => .ok (db.del (keyObject ns name))
  | .addRobot ns r => .ok (db.put (keyRobot ns r.body.name) (.text (r.toDict C)))

/-- One call in a program that goes on after exceptions: the database is then as before. -/
noncomputable def Call.exec (C : Codec) (db : Db) (c : Call) : Db :=
  match c.step C db with
  | .ok db' => db'
  | _ => db

/-! ## Objects in memory

The defaults of a dataclass are evaluated once (`redisgl.py:24-25, 144-145`): every `Pose()` holds the same
two arrays and every `Graphics` without `T_to_parent` or `material` the same `Pose` and `Material`.  (Since
version 3.11 Python refuses such defaults when the module is imported; before, it accepts them.) -/

/-- A `Graphics` object: references to its material and pose. -/
structure PictureRef where
  name : Str
  geometry : Shape
  material : ℕ
  T : ℕ

/-- Memory of a program: arrays, poses (references to two arrays), materials and graphics, each numbered
in the order of creation. -/
structure Heap where
  arrays : List (List ℝ)
  poses : List (ℕ × ℕ)
  materials : List Paint
  graphics : List PictureRef

/-- After the import of the module: the default arrays, the default `Pose` and the default `Material`. -/
def Heap.start : Heap := ⟨[[0, 0, 0], [0, 0, 0, 1]], [(0, 1)], [{}], []⟩

/-- Statements of a program. -/
inductive Stmt where
  /-- `np.array(l)` -/
  | newArray (l : List ℝ)
  /-- `Pose(pos, quat)`, each possibly left out -/
  | newPose (pos quat : Option ℕ)
  /-- `Material(...)` -/
  | newMaterial (m : Paint)
  /-- `Graphics(name, geometry, material, T_to_parent)`, the last two possibly left out -/
  | newGraphics (name : Str) (s : Shape) (material T : Option ℕ)
  /-- `a[i] = x` for an array `a`, such as `g.T_to_parent.pos` -/
  | setEntry (a i : ℕ) (x : ℝ)
  /-- `p.pos = a` -/
  | setPos (p a : ℕ)
  /-- `p.quat = a` -/
  | setQuat (p a : ℕ)
  /-- assignments to the fields of a material -/
  | setMaterial (m : ℕ) (v : Paint)
  /-- `g.T_to_parent = p` -/
  | setT (g p : ℕ)

/-- One statement; statements about objects that do not exist do nothing. -/
def Stmt.exec (h : Heap) : Stmt → Heap
  | .newArray l => { h with arrays := h.arrays ++ [l] }
  | .newPose p q => { h with poses := h.poses ++ [(p.getD 0, q.getD 1)] }
  | .newMaterial m => { h with materials := h.materials ++ [m] }
  | .newGraphics n s m T => { h with graphics := h.graphics ++ [⟨n, s, m.getD 0, T.getD 0⟩] }
  | .setEntry a i x => { h with arrays := h.arrays.modify a fun l => l.set i x }
  | .setPos p a => { h with poses := h.poses.modify p fun x => (a, x.2) }
  | .setQuat p a => { h with poses := h.poses.modify p fun x => (x.1, a) }
  | .setMaterial m v => { h with materials := h.materials.modify m fun _ => v }
  | .setT g p => { h with graphics := h.graphics.modify g fun x => { x with T := p } }

/-- What a `Graphics` object looks like now. -/
def Heap.picture (h : Heap) (g : ℕ) : Option Picture :=
  h.graphics[g]? |>.map fun x => ⟨x.name, x.geometry, h.materials.getD x.material {},
    ⟨h.arrays.getD (h.poses.getD x.T (0, 1)).1 [], h.arrays.getD (h.poses.getD x.T (0, 1)).2 []⟩⟩

end SpatialDyn.Redisgl
