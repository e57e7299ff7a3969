import Verif.Model.RedisglApp
import Verif.Lemmas.Redisgl
import Verif.Props.Redisgl
import Verif.Props.UrdfModel

/-! C121: the program `apps/redisgl/main.py`. -/

namespace SpatialDyn.Redisgl
open SpatialDyn

variable {X : UrdfExt} {C : Codec} {vec : List ℝ → Doc} {rob : Robot X} {r dir : Str} {resource : Option Str}
  {db : Db} {v : Registry}

/-- The name of the joint positions of a robot is not a name of the module's for a resource list, a
namespace or the robot itself. -/
theorem sensor_ne_robot (x : Str) : x ++ "::sensor::q".toList ≠ "dyn::model::robot::".toList ++ x := by
  intro h
  have := congrArg List.length h
  simp at this

theorem sensor_ne_res (x : Str) : x ++ "::sensor::q".toList ≠ "webapp::resources::simulator".toList := by
  intro h
  have := congrArg (fun l => l.getLast?) h
  simp at this

theorem sensor_ne_args (x : Str) : x ++ "::sensor::q".toList ≠ "webapp::simulator::args::dyn".toList := by
  intro h
  have := congrArg (fun l => l.getLast?) h
  simp at this

theorem sadd_ok (h : ∀ d, db keyResources ≠ some (.text d)) (p : Str) :
    ∃ l, db.sadd keyResources p = .ok (db.put keyResources (.set l)) ∧
      ∀ x, x ∈ l ↔ x = p ∨ ∃ l', db keyResources = some (.set l') ∧ x ∈ l' := by
  cases e : db keyResources with
  | none => exact ⟨_, sadd_none p e, fun x => by simp⟩
  | some y =>
    cases y with
    | text d => exact absurd e (h d)
    | set l =>
      obtain ⟨l', h1, -, h3⟩ := sadd_set p e
      refine ⟨l', h1, fun x => ?_⟩
      rw [h3]
      simp [or_comm]

theorem mainPy_published {c : Cache} {doc : Option (List Xml)} {n : Named}
    (hn : loadModel X c doc "iiwa_description".toList = .ok n) (hq : n.body.q = List.replicate n.body.dof 0)
    (h : ∀ d, db "webapp::resources::simulator".toList ≠ some (.text d)) :
    ∃ db', mainPy X C vec c doc dir resource db = (db', .ok ()) ∧
      db.Published C vec db' (resource.getD dir) n := by
  obtain ⟨l, h1, h2⟩ := sadd_ok (db := db) h (resource.getD dir)
  have e : mainPy X C vec c doc dir resource db = ((((db.put keyResources (.set l)).put (keyArgs "dyn".toList)
      (.text (keysDict "dyn".toList))).put (n.name ++ "::sensor::q".toList) (.text (vec n.body.q))).put
      (keyRobot "dyn".toList n.name)
      (.text (Rob.toDict C { body := n, keyQ := n.name ++ "::sensor::q".toList })), .ok ()) := by
    unfold mainPy
    rw [hn]
    simp only [Call.step, h1]
    rfl
  have e1 : keyArgs "dyn".toList = "webapp::simulator::args::dyn".toList := by decide
  have e2 : keyRobot "dyn".toList n.name = "dyn::model::robot::".toList ++ n.name := by
    have : "dyn::model::robot::".toList = "dyn".toList ++ "::model::robot::".toList := by decide
    rw [this]
    rfl
  have hp : PlainName "dyn".toList := by show ':' ∉ _; decide
  have e3 : "webapp::resources::simulator".toList ≠ keyRobot "dyn".toList n.name := (robot_res hp).symm
  have e4 : "webapp::simulator::args::dyn".toList ≠ keyRobot "dyn".toList n.name := by
    rw [← e1]; exact (robot_args hp).symm
  have e5 : "webapp::resources::simulator".toList ≠ "webapp::simulator::args::dyn".toList := by decide
  rw [e2] at e3 e4
  rw [e, e1, e2]
  refine ⟨_, rfl, ⟨l, ?_, h2⟩, ⟨keysDict "dyn".toList, ?_, ?_, ?_, ?_, ?_⟩, ?_, ⟨_, put_eq .., rfl, rfl, rfl, rfl⟩,
    fun k k1 k2 k3 k4 => ?_⟩
  · rw [put_ne _ _ e3, put_ne _ _ (sensor_ne_res _).symm, put_ne _ _ e5]
    exact put_eq ..
  · rw [put_ne _ _ e4, put_ne _ _ (sensor_ne_args _).symm]
    exact put_eq ..
  · rfl
  · rfl
  · rfl
  · rfl
  · rw [put_ne _ _ (sensor_ne_robot _), put_eq, hq]
  · rw [put_ne _ _ k4, put_ne _ _ k3, put_ne _ _ k2]
    exact put_ne _ _ k1

/-- All links hang below the root: one joint of the loaded body for each moving joint. -/
theorem loaded_dof (h : rob.Sound) (hr : rob.Root r) {P : Str → Iso} {car : Str → Str}
    (hL : rob.Layout r P car) (htree : ∀ x ∈ rob.names, rob.Below r x) {I : Str → Inertia} {J : Str → Joint}
    {G : Str → List Graphics} {n : Named} (hn : rob.LoadedAs r P car I J G n) :
    n.body.dof = (rob.joints.filter fun j => j.kind ≠ .fixed).length := by
  have hrm := List.mem_of_find?_eq_some hr
  rw [← hn.count, ← List.length_map (f := Tag.name),
    ← List.length_map (as := rob.joints.filter _) (f := URJoint.child)]
  refine List.Perm.length_eq ((List.perm_ext_iff_of_nodup hn.distinct ?_).2 fun x => ?_)
  · exact h.once.sublist (List.Sublist.map _ List.filter_sublist)
  · rw [hn.bodies]
    simp only [List.mem_map, List.mem_filter, decide_eq_true_eq]
    refine ⟨fun ⟨b1, b2, b3⟩ => ?_, ?_⟩
    · obtain ⟨j, hj, rfl⟩ := Robot.below_joint h hrm b1 b2
      exact ⟨j, ⟨hj, fun hf => Robot.car_ne h hr hL hj b1 hf b3⟩, rfl⟩
    · rintro ⟨j, ⟨hj, hk⟩, rfl⟩
      have hb := htree _ (h.ends j hj).2
      refine ⟨hb, fun e => ?_, hL.moving j hj hb hk⟩
      have h3 := (Robot.root_of h hr).top
      rw [← e, Robot.parent_of h.toConsistent hj] at h3
      exact h.nonempty (h3 ▸ (h.ends j hj).1)

/-- C121: for every description of a robot, the program publishes the robot loaded from it, with one zero
for each of its joints under the key that its entry names, and touches no other entry of the database. -/
theorem C121_published (h : rob.Sound) (hj : rob.joints ≠ []) (hr : rob.Root r) {P : Str → Iso}
    {car : Str → Str} (hL : rob.Layout r P car) (htree : ∀ x ∈ rob.names, rob.Below r x) {top : List Xml}
    (htop : Xml.firstIn .robot top = some rob.xml) (c : Cache)
    (hdb : ∀ d, db "webapp::resources::simulator".toList ≠ some (.text d)) :
    ∃ n db', mainPy X C vec c (some top) dir resource db = (db', .ok ()) ∧ n.name = rob.name ∧
      n.body.dof = (rob.joints.filter fun j => j.kind ≠ .fixed).length ∧
      n.shown.Perm (rob.shown "iiwa_description".toList P) ∧
      db.Published C vec db' (resource.getD dir) n := by
  obtain ⟨n, h1, -, h2⟩ := Robot.load_ok (path := "iiwa_description".toList) ext0 h hj hr hL htop c true
  obtain ⟨n', h3, h4⟩ := C70_shown_partial (path := "iiwa_description".toList) h hj hr hL htree htop c true
  rw [h1] at h3
  cases h3
  obtain ⟨db', k1, k2⟩ := mainPy_published (C := C) (vec := vec) (dir := dir) (resource := resource) h1
    h2.rest.q hdb
  exact ⟨n, db', k1, h2.name, loaded_dof h hr hL htree h2, h4, k2⟩

/-- C121 (partial: only when all moving joints of the description are bounded; otherwise reading fails): the
library reads the published description as the model that was loaded. -/
theorem C121_readable_partial (hC : C.Faithful) (hP : C.Prints) (h : rob.Sound) (hj : rob.joints ≠ [])
    (hr : rob.Root r) {top : List Xml} (htop : Xml.firstIn .robot top = some rob.xml) (c c' : Cache)
    (hdb : ∀ d, db "webapp::resources::simulator".toList ≠ some (.text d)) :
    ∃ n db' d a, loadModel X c (some top) "iiwa_description".toList = .ok n ∧
      mainPy X C vec c (some top) dir resource db = (db', .ok ()) ∧
      db' ("dyn::model::robot::".toList ++ rob.name) = some (.text d) ∧
      item d "articulated_body".toList = .ok a ∧
      ((∀ j, rob.Kept r true j → j.Bounded) → ∃ m, fromJson C a (Named.init c') = .ok m ∧ n.SameModel m) ∧
      ((∃ j, rob.Kept r true j ∧ ¬ j.Bounded) → fromJson C a (Named.init c') = .throws) := by
  obtain ⟨P, car, hL⟩ := Robot.layout_exists h hr
  obtain ⟨n, h1, -, h2⟩ := Robot.load_ok (path := "iiwa_description".toList) ext0 h hj hr hL htop c true
  obtain ⟨n', h3, h4, h5⟩ := C102_text_partial (path := "iiwa_description".toList) hC hP h hj hr htop c c' true
  rw [h1] at h3
  cases h3
  obtain ⟨db', k1, k2⟩ := mainPy_published (C := C) (vec := vec) (dir := dir) (resource := resource) h1
    h2.rest.q hdb
  obtain ⟨d, d1, d2, -⟩ := k2.robot
  refine ⟨n, db', d, _, h1, k1, h2.name ▸ d1, d2, fun hb => ?_, h5⟩
  obtain ⟨m, m1, m2, -⟩ := h4 hb
  exact ⟨m, m1, m2⟩

/-- C121: a program that fails has changed nothing. -/
theorem C121_failed (c : Cache) (doc : Option (List Xml))
    (h : (mainPy X C vec c doc dir resource db).2 ≠ .ok ()) :
    (mainPy X C vec c doc dir resource db).1 = db := by
  unfold mainPy at h ⊢
  split
  · rfl
  · rfl
  · rename_i n hn
    rw [hn] at h
    dsimp only at h
    split
    · rfl
    · rfl
    · rename_i e
      rw [e] at h
      exact absurd rfl h

/-- C121: it fails exactly if the file cannot be loaded or something else is stored under the key of
the resources. -/
theorem C121_fails (c : Cache) (doc : Option (List Xml)) :
    (mainPy X C vec c doc dir resource db).2 = .ok () ↔
      (∃ n, loadModel X c doc "iiwa_description".toList = .ok n) ∧
      ∀ d, db "webapp::resources::simulator".toList ≠ some (.text d) := by
  unfold mainPy
  cases e : loadModel X c doc "iiwa_description".toList with
  | throws => simp
  | ub => simp
  | ok n =>
    simp only [Call.step, Db.sadd, keyResources_def]
    cases e' : db "webapp::resources::simulator".toList with
    | none => simp
    | some y => cases y <;> simp

/-- C121 (partial: robots without a colon in their name; false otherwise, see `C121_violated`): a registry
stays a registry, with the robot, its namespace and its resources added. -/
theorem C121_registry_partial (h : rob.Sound) (hj : rob.joints ≠ []) (hr : rob.Root r)
    (hname : PlainName rob.name) {top : List Xml} (htop : Xml.firstIn .robot top = some rob.xml) (c : Cache)
    (hv : db.Shows C v) :
    ∃ n db', loadModel X c (some top) "iiwa_description".toList = .ok n ∧
      mainPy X C vec c (some top) dir resource db = (db', .ok ()) ∧
      db'.Shows C ⟨v.resources ∪ {resource.getD dir}, v.spaces ∪ {"dyn".toList}, v.objects,
        fun ns x => if ns = "dyn".toList ∧ x = rob.name then
          some { body := n, keyQ := rob.name ++ "::sensor::q".toList } else v.robots ns x⟩ := by
  obtain ⟨P, car, hL⟩ := Robot.layout_exists h hr
  obtain ⟨n, h1, -, h2⟩ := Robot.load_ok (path := "iiwa_description".toList) ext0 h hj hr hL htop c true
  have hdb : ∀ d, db "webapp::resources::simulator".toList ≠ some (.text d) := by
    intro d hd
    rcases hv.resources with ⟨-, e⟩ | ⟨l, -, e, -⟩ <;> rw [e] at hd <;> cases hd
  obtain ⟨l, k1, -⟩ := sadd_ok (db := db) hdb (resource.getD dir)
  have hp : PlainName "dyn".toList := by show ':' ∉ _; decide
  have s2 := (hv.exec (.addResource (resource.getD dir)) trivial).exec (.addKeys "dyn".toList) hp
  have hs : ∀ db1 : Db, ∀ v1 : Registry, db1.Shows C v1 → ∀ e,
      (db1.put (rob.name ++ "::sensor::q".toList) e).Shows C v1 := by
    intro db1 v1 hs e
    have sep : "::sensor::q".toList = ':' :: ":sensor::q".toList := by decide
    have key : ∀ ns t : Str, PlainName ns → t ≠ ":sensor::q".toList → ns ++ ':' :: t ≠
        rob.name ++ "::sensor::q".toList := by
      intro ns t hn ht e
      rw [sep] at e
      exact ht (split_colon hn hname e).2
    refine ⟨?_, fun ns hn => ?_, fun ns x hn => ?_, fun ns x hn => ?_⟩
    · rw [put_ne _ _ (sensor_ne_res _).symm]; exact hs.resources
    · rw [put_ne]
      · exact hs.spaces ns hn
      · rw [keyArgs_eq]
        exact key _ _ web_plain (by intro e; have := congrArg (fun l => l[2]?) e; simp at this)
    · rw [put_ne]
      · exact hs.objects ns x hn
      · rw [keyObject_eq]
        exact key _ _ hn (by intro e; have := congrArg (fun l => l[1]?) e; simp at this)
    · rw [put_ne]
      · exact hs.robots ns x hn
      · rw [keyRobot_eq]
        exact key _ _ hn (by intro e; have := congrArg (fun l => l[1]?) e; simp at this)
  have s3 := hs _ _ s2 (.text (vec n.body.q))
  have s4 := s3.exec (.addRobot "dyn".toList { body := n, keyQ := rob.name ++ "::sensor::q".toList }) hp
  have e : ((v.exec (.addResource (resource.getD dir))).exec (.addKeys "dyn".toList)).exec
        (.addRobot "dyn".toList { body := n, keyQ := rob.name ++ "::sensor::q".toList }) =
        ⟨v.resources ∪ {resource.getD dir}, v.spaces ∪ {"dyn".toList}, v.objects,
        fun ns x => if ns = "dyn".toList ∧ x = rob.name then
          some { body := n, keyQ := rob.name ++ "::sensor::q".toList } else v.robots ns x⟩ := by
    simp only [Registry.exec, h2.name]
  rw [e] at s4
  refine ⟨n, _, h1, ?_, s4⟩
  unfold mainPy
  rw [h1]
  simp only [Call.step, Call.exec, k1, h2.name]

/-- C121 is false for robots with colons in their name: publishing `dyn::model::robot::x` replaces the
description of the robot `x::sensor::q` by joint positions. -/
theorem C121_violated (h : rob.Sound) (hj : rob.joints ≠ []) (hr : rob.Root r) {x : Str}
    (hname : rob.name = "dyn::model::robot::".toList ++ x) {top : List Xml}
    (htop : Xml.firstIn .robot top = some rob.xml) (c : Cache)
    (hdb : ∀ d, db "webapp::resources::simulator".toList ≠ some (.text d)) :
    ∃ n db', loadModel X c (some top) "iiwa_description".toList = .ok n ∧
      mainPy X C vec c (some top) dir resource db = (db', .ok ()) ∧
      db' ("dyn::model::robot::".toList ++ (x ++ "::sensor::q".toList)) =
        some (.text (vec (List.replicate n.body.dof 0))) := by
  obtain ⟨P, car, hL⟩ := Robot.layout_exists h hr
  obtain ⟨n, h1, -, h2⟩ := Robot.load_ok (path := "iiwa_description".toList) ext0 h hj hr hL htop c true
  obtain ⟨db', k1, k2⟩ := mainPy_published (C := C) (vec := vec) (dir := dir) (resource := resource) h1
    h2.rest.q hdb
  refine ⟨n, db', h1, k1, ?_⟩
  have := k2.q
  rw [h2.name, hname, List.append_assoc] at this
  exact this

/-- A database, a description and conversions that meet the conditions of C121. -/
example (c : Cache) : (∃ n db', mainPy xnum codec0 numList c (some [(armOf none (some vz)).xml]) "/tmp".toList none
      (fun _ => none) = (db', .ok ()) ∧ n.name = ['R'] ∧ n.body.dof = 1 ∧
      Db.Published codec0 numList (fun _ => none) db' "/tmp".toList n) ∧
    PlainName (armOf none (some vz)).name ∧
    { armOf none (some vz) with name := "dyn::model::robot::a".toList }.Sound := by
  have hs := armOf_sound none (some vz)
  obtain ⟨P, car, hL⟩ := Robot.layout_exists hs (armOf_root none (some vz))
  obtain ⟨n, db', h1, h2, h3, -, h4⟩ := C121_published (C := codec0) (vec := numList) (dir := "/tmp".toList)
    (resource := none) (db := fun _ => none) hs (by simp [armOf]) (armOf_root _ _) hL
    (armOf_below none (some vz)) (top := [(armOf none (some vz)).xml]) rfl c (by simp)
  exact ⟨⟨n, db', h1, h2, h3.trans (by simp [armOf]), h4⟩, by show ':' ∉ [_]; decide,
    ⟨⟨hs.names, hs.ends, hs.once, hs.joints, hs.masses⟩, hs.nonempty⟩⟩

end SpatialDyn.Redisgl
