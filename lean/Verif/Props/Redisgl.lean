import Verif.Lemmas.Redisgl
import Verif.Props.Document

/-!
C108: the registry of robots and objects in Redis.  C109: the documents published there.  C110: graphics
made with default arguments.
-/

namespace SpatialDyn.Redisgl
open SpatialDyn

variable {C : Codec} {db : Db} {v : Registry}

/-! ## C108 -/

theorem Db.Shows.exec (h : db.Shows C v) (c : Call) (hc : c.Plain) : (c.exec C db).Shows C (v.exec c) := by
  cases c with
  | addResource p =>
    have key : ∃ l, l ≠ [] ∧ Call.exec C db (.addResource p) = db.put keyResources (.set l) ∧
        ∀ x, x ∈ l ↔ x ∈ v.resources ∪ {p} := by
      rcases h.resources with ⟨h1, h2⟩ | ⟨l, h1, h2, h3⟩
      · refine ⟨[p], by simp, exec_ok (sadd_none p h2), fun x => ?_⟩
        rw [h1, Set.empty_union, Set.mem_singleton_iff, List.mem_singleton]
      · obtain ⟨l', k1, k2, k3⟩ := sadd_set p h2
        refine ⟨l', k2, exec_ok k1, fun x => ?_⟩
        rw [k3, h3, Set.mem_union, Set.mem_singleton_iff]
    obtain ⟨l, h1, h2, h3⟩ := key
    rw [h2]
    refine ⟨.inr ⟨l, h1, put_eq .., h3⟩, fun ns hn => ?_, fun ns x hn => ?_, fun ns x hn => ?_⟩
    · rw [put_ne _ _ (by rw [keyResources_def]; exact args_res)]; exact h.spaces ns hn
    · rw [put_ne _ _ (by rw [keyResources_def]; exact object_res hn)]; exact h.objects ns x hn
    · rw [put_ne _ _ (by rw [keyResources_def]; exact robot_res hn)]; exact h.robots ns x hn
  | removeResource p =>
    have key : ∃ e, Call.exec C db (.removeResource p) keyResources = e ∧
        ((v.resources \ {p} = ∅ ∧ e = none) ∨
          ∃ l, l ≠ [] ∧ e = some (.set l) ∧ ∀ x, x ∈ l ↔ x ∈ v.resources \ {p}) ∧
        ∀ k, k ≠ keyResources → Call.exec C db (.removeResource p) k = db k := by
      rcases h.resources with ⟨h1, h2⟩ | ⟨l, h1, h2, h3⟩
      · refine ⟨none, ?_, .inl ⟨by rw [h1, Set.empty_diff], rfl⟩, fun k _ => ?_⟩
        · rw [exec_ok (c := .removeResource p) (db' := db) (srem_none p h2)]; exact h2
        · rw [exec_ok (c := .removeResource p) (db' := db) (srem_none p h2)]
      · obtain ⟨l', k1, ⟨k2, k3⟩ | ⟨k2, k3⟩⟩ := srem_set p h2
        · refine ⟨none, ?_, .inl ⟨?_, rfl⟩, fun k hk => ?_⟩
          · rw [exec_ok (c := .removeResource p) (db' := db.del keyResources) k3]; exact del_eq ..
          · ext x
            rw [Set.mem_sdiff, ← h3, Set.mem_singleton_iff, ← ne_eq, ← k1, k2]
            exact ⟨fun h => absurd h List.not_mem_nil, fun h => h.elim⟩
          · rw [exec_ok (c := .removeResource p) (db' := db.del keyResources) k3]; exact del_ne _ hk
        · refine ⟨some (.set l'), ?_, .inr ⟨l', k2, rfl, fun x => ?_⟩, fun k hk => ?_⟩
          · rw [exec_ok (c := .removeResource p)
              (db' := db.put keyResources (.set l')) k3]; exact put_eq ..
          · rw [Set.mem_sdiff, ← h3, Set.mem_singleton_iff, k1]
          · rw [exec_ok (c := .removeResource p)
              (db' := db.put keyResources (.set l')) k3]; exact put_ne _ _ hk
    obtain ⟨e, he, hr, key⟩ := key
    refine ⟨?_, fun ns hn => ?_, fun ns x hn => ?_, fun ns x hn => ?_⟩
    · rw [← keyResources_def, he]
      exact hr
    · rw [key _ (by rw [keyResources_def]; exact args_res)]; exact h.spaces ns hn
    · rw [key _ (by rw [keyResources_def]; exact object_res hn)]; exact h.objects ns x hn
    · rw [key _ (by rw [keyResources_def]; exact robot_res hn)]; exact h.robots ns x hn
  | addKeys ns' =>
    refine ⟨?_, fun ns hn => ?_, fun ns x hn => ?_, fun ns x hn => ?_⟩
    · rw [show Call.exec C db (.addKeys ns') = db.put (keyArgs ns') (.text (keysDict ns')) from rfl,
        keyArgs_def, put_ne _ _ args_res.symm]
      exact h.resources
    · rw [show Call.exec C db (.addKeys ns') = db.put (keyArgs ns') (.text (keysDict ns')) from rfl,
        keyArgs_def]
      by_cases e : ns = ns'
      · subst e
        refine ⟨fun _ => ⟨keysDict ns, put_eq .., rfl, rfl⟩, fun hx => absurd (.inr rfl) hx⟩
      · rw [put_ne _ _ fun hx => e (args_inj hx)]
        have := h.spaces ns hn
        exact ⟨fun hx => this.1 (hx.resolve_right e), fun hx => this.2 fun hy => hx (.inl hy)⟩
    · rw [show Call.exec C db (.addKeys ns') = db.put (keyArgs ns') (.text (keysDict ns')) from rfl,
        keyArgs_def, put_ne _ _ (object_args hn)]
      exact h.objects ns x hn
    · rw [show Call.exec C db (.addKeys ns') = db.put (keyArgs ns') (.text (keysDict ns')) from rfl,
        keyArgs_def, put_ne _ _ (robot_args hn)]
      exact h.robots ns x hn
  | removeKeys ns' =>
    have e0 : Call.exec C db (.removeKeys ns') = db.del (keyArgs ns') := rfl
    rw [e0, keyArgs_def]
    refine ⟨?_, fun ns hn => ?_, fun ns x hn => ?_, fun ns x hn => ?_⟩
    · rw [del_ne _ args_res.symm]
      exact h.resources
    · by_cases e : ns = ns'
      · subst e
        exact ⟨fun hx => absurd rfl hx.2, fun _ => del_eq ..⟩
      · rw [del_ne _ fun hx => e (args_inj hx)]
        have := h.spaces ns hn
        exact ⟨fun hx => this.1 hx.1, fun hx => this.2 fun hy => hx ⟨hy, e⟩⟩
    · rw [del_ne _ (object_args hn)]
      exact h.objects ns x hn
    · rw [del_ne _ (robot_args hn)]
      exact h.robots ns x hn
  | addObject ns' o =>
    have hp : PlainName ns' := hc
    rcases obj_toDict o with ⟨hw, d, hd⟩ | ⟨hw, hd⟩
    · have e0 : Call.exec C db (.addObject ns' o) = db.put (keyObject ns' o.name) (.text d) := by
        simp [Call.exec, Call.step, hd, Out.bind]
      rw [e0, keyObject_def]
      refine ⟨?_, fun ns hn => ?_, fun ns x hn => ?_, fun ns x hn => ?_⟩
      · rw [put_ne _ _ (object_res hp).symm]
        exact h.resources
      · rw [put_ne _ _ (object_args hp).symm]
        exact h.spaces ns hn
      · simp only [Registry.exec]
        by_cases e : ns = ns' ∧ x = o.name
        · obtain ⟨rfl, rfl⟩ := e
          rw [if_pos ⟨rfl, rfl, hw⟩]
          exact ⟨d, hd, put_eq ..⟩
        · rw [if_neg fun hx => e ⟨hx.1, hx.2.1⟩, put_ne _ _ fun hx => e (object_inj hn hp hx)]
          exact h.objects ns x hn
      · rw [put_ne _ _ (robot_object hn hp)]
        exact h.robots ns x hn
    · have e0 : Call.exec C db (.addObject ns' o) = db := by
        simp [Call.exec, Call.step, hd, Out.bind]
      have e1 : v.exec (.addObject ns' o) = v := by
        simp [Registry.exec, hw]
      rw [e0, e1]
      exact h
  | removeObject ns' x' =>
    have hp : PlainName ns' := hc
    have e0 : Call.exec C db (.removeObject ns' x') = db.del (keyObject ns' x') := rfl
    rw [e0, keyObject_def]
    refine ⟨?_, fun ns hn => ?_, fun ns x hn => ?_, fun ns x hn => ?_⟩
    · rw [del_ne _ (object_res hp).symm]
      exact h.resources
    · rw [del_ne _ (object_args hp).symm]
      exact h.spaces ns hn
    · simp only [Registry.exec]
      by_cases e : ns = ns' ∧ x = x'
      · rw [if_pos e, e.1, e.2]
        exact del_eq ..
      · rw [if_neg e, del_ne _ fun hx => e (object_inj hn hp hx)]
        exact h.objects ns x hn
    · rw [del_ne _ (robot_object hn hp)]
      exact h.robots ns x hn
  | addRobot ns' r =>
    have hp : PlainName ns' := hc
    have e0 : Call.exec C db (.addRobot ns' r) =
      db.put (keyRobot ns' r.body.name) (.text (r.toDict C)) := rfl
    rw [e0, keyRobot_def]
    refine ⟨?_, fun ns hn => ?_, fun ns x hn => ?_, fun ns x hn => ?_⟩
    · rw [put_ne _ _ (robot_res hp).symm]
      exact h.resources
    · rw [put_ne _ _ (robot_args hp).symm]
      exact h.spaces ns hn
    · rw [put_ne _ _ (robot_object hp hn).symm]
      exact h.objects ns x hn
    · simp only [Registry.exec]
      by_cases e : ns = ns' ∧ x = r.body.name
      · rw [if_pos e, e.1, e.2]
        exact put_eq ..
      · rw [if_neg e, put_ne _ _ fun hx => e (robot_inj hn hp hx)]
        exact h.robots ns x hn

/-- C108 (partial: namespaces without colon; false otherwise, see `C108_violated`): after any program the
database holds exactly the registry its calls describe, whatever the names of robots and objects. -/
theorem C108_registry_partial (h : db.Shows C v) (l : List Call) (hl : ∀ c ∈ l, c.Plain) :
    (l.foldl (Call.exec C) db).Shows C (l.foldl Registry.exec v) := by
  induction l generalizing db v with
  | nil => exact h
  | cons c l ih =>
    exact ih (h.exec c (hl c (List.mem_cons_self ..))) fun c' hc' => hl c' (List.mem_cons_of_mem _ hc')

/-- C108: the empty database is the empty registry. -/
theorem C108_empty : Db.Shows C (fun _ => none) ⟨∅, ∅, fun _ _ => none, fun _ _ => none⟩ :=
  ⟨.inl ⟨rfl, rfl⟩, fun _ _ => ⟨fun h => h.elim, fun _ => rfl⟩, fun _ _ _ => rfl, fun _ _ _ => rfl⟩

/-- C108: entries of the database that are none of the keys of a program are left alone, so that
other programs can use the same database. -/
theorem C108_others (l : List Call) (k : Str) (hr : k ≠ "webapp::resources::simulator".toList)
    (hk : ∀ c ∈ l, match c with
      | .addResource _ | .removeResource _ => True
      | .addKeys ns | .removeKeys ns => k ≠ "webapp::simulator::args::".toList ++ ns
      | .addObject ns o => k ≠ ns ++ "::model::object::".toList ++ o.name
      | .removeObject ns x => k ≠ ns ++ "::model::object::".toList ++ x
      | .addRobot ns r => k ≠ ns ++ "::model::robot::".toList ++ r.body.name) :
    l.foldl (Call.exec C) db k = db k := by
  induction l generalizing db with
  | nil => rfl
  | cons c l ih =>
    rw [List.foldl_cons, ih fun c' hc' => hk c' (List.mem_cons_of_mem _ hc')]
    have hc := hk c (List.mem_cons_self ..)
    cases c with
    | addResource p =>
      simp only [Call.exec, Call.step, Db.sadd]
      cases db keyResources with
      | none => exact put_ne _ _ hr
      | some e =>
        cases e with
        | text d => rfl
        | set l => exact put_ne _ _ hr
    | removeResource p =>
      simp only [Call.exec, Call.step, Db.srem]
      cases db keyResources with
      | none => rfl
      | some e =>
        cases e with
        | text d => rfl
        | set l =>
          simp only
          split
          · exact del_ne _ hr
          · exact put_ne _ _ hr
    | addKeys ns => exact put_ne _ _ hc
    | removeKeys ns => exact del_ne _ hc
    | addObject ns o =>
      rcases obj_toDict o with ⟨-, d, hd⟩ | ⟨-, hd⟩
      · simp only [Call.exec, Call.step, hd, Out.bind]
        exact put_ne _ _ hc
      · simp only [Call.exec, Call.step, hd, Out.bind]
    | removeObject ns x => exact del_ne _ hc
    | addRobot ns r => exact put_ne _ _ hc

/-- C108: a robot that was registered stays registered; the module has no call that removes it. -/
theorem C108_robots_stay (h : db.Shows C v) (l : List Call) (hl : ∀ c ∈ l, c.Plain) {ns x : Str}
    (hn : PlainName ns) (hr : db (ns ++ "::model::robot::".toList ++ x) ≠ none) :
    l.foldl (Call.exec C) db (ns ++ "::model::robot::".toList ++ x) ≠ none := by
  induction l generalizing db v with
  | nil => exact hr
  | cons c l ih =>
    refine ih (h.exec c (hl c (List.mem_cons_self ..))) (fun c' hc' => hl c' (List.mem_cons_of_mem _ hc')) ?_
    have h1 := h.robots ns x hn
    have h2 := (h.exec c (hl c (List.mem_cons_self ..))).robots ns x hn
    rw [h2]
    rw [h1] at hr
    cases c <;> simp only [Registry.exec] at hr ⊢ <;> try exact hr
    split
    · simp
    · exact hr

/-- C108 is false for other namespaces: with a namespace inside another, registering an object in one and
unregistering an object in the other removes the first. -/
theorem C108_violated (C : Codec) : ∃ (ns ns' : Str) (o : Obj) (x : Str) (d : Doc), ns ≠ ns' ∧ o.name ≠ x ∧
    o.toDict = .ok d ∧
    [Call.addObject ns o].foldl (Call.exec C) (fun _ => none) (ns ++ "::model::object::".toList ++ o.name) =
      some (.text d) ∧
    [Call.addObject ns o, .removeObject ns' x].foldl (Call.exec C) (fun _ => none)
      (ns ++ "::model::object::".toList ++ o.name) = none ∧
    ([Call.addObject ns o, .removeObject ns' x].foldl Registry.exec
      ⟨∅, ∅, fun _ _ => none, fun _ _ => none⟩).objects ns o.name = some o := by
  have hw : Obj.Writable ⟨['b'] ++ "::model::object::".toList ++ ['c'], [], [], [], [], [], 0.1⟩ :=
    fun g hg => absurd hg (by simp)
  refine ⟨['a'], ['a'] ++ "::model::object::".toList ++ ['b'],
    ⟨['b'] ++ "::model::object::".toList ++ ['c'], [], [], [], [], [], 0.1⟩, ['c'], _, by decide, by decide,
    rfl, ?_, ?_, ?_⟩
  · simp only [List.foldl_cons, List.foldl_nil]
    rw [exec_ok (c := Call.addObject _ _) rfl]
    exact put_eq ..
  · simp only [List.foldl_cons, List.foldl_nil]
    have : keyObject ['a'] (['b'] ++ "::model::object::".toList ++ ['c']) =
      keyObject (['a'] ++ "::model::object::".toList ++ ['b']) ['c'] := by decide
    show Db.del _ (keyObject _ _) (keyObject _ _) = none
    rw [this]
    exact del_eq ..
  · simp only [List.foldl_cons, List.foldl_nil, Registry.exec]
    rw [if_neg fun h => absurd h.1 (by decide), if_pos ⟨rfl, rfl, hw⟩]

/-- A program that meets the conditions of C108: two namespaces, names with separators in them. -/
example (r : Rob) : ∀ c ∈ [Call.addResource "meshes".toList, .addKeys "a".toList, .addRobot "a".toList r,
    .addObject "b".toList ⟨"x::model::robot::y".toList, [⟨[], .sphere 1, {}, {}⟩], [], [], [], [], 0.1⟩,
    .removeObject "a".toList "x".toList], c.Plain := by
  intro c hc
  simp only [List.mem_cons, List.not_mem_nil, or_false] at hc
  rcases hc with rfl | rfl | rfl | rfl | rfl
  · trivial
  all_goals (show ':' ∉ _; decide)

/-! ## C109 -/

variable {rot : ℝ → ℝ → ℝ → ℝ → Mat3}

theorem list3 {l : List ℝ} (h : l.length = 3) : ∃ x y z, l = [x, y, z] := by
  match l, h with
  | [x, y, z], _ => exact ⟨x, y, z, rfl⟩

theorem list4 {l : List ℝ} (h : l.length = 4) : ∃ x y z w, l = [x, y, z, w] := by
  match l, h with
  | [x, y, z, w], _ => exact ⟨x, y, z, w, rfl⟩

/-- C109: the dictionary of a `Graphics` is read by the library as the picture described. -/
theorem C109_graphics (hC : ReadsLists C rot) {p : Picture} (hp : p.Sized) :
    ∃ d g, p.toDict = .ok d ∧ decGraphics (jsonFmt C) d = .ok g ∧ p.Is rot g := by
  obtain ⟨n, s, ⟨mn, rgba, tx⟩, ⟨pos, quat⟩⟩ := p
  obtain ⟨h1, h2, h3, h4⟩ := hp
  obtain ⟨r, gr, b, a, rfl⟩ := list4 h2
  obtain ⟨x, y, z, rfl⟩ := list3 h3
  obtain ⟨qx, qy, qz, qw, rfl⟩ := list4 h4
  have hF := jsonFmt_plain C
  have hg : ∃ g, decGeometry (jsonFmt C) s.toDict = .ok g ∧ s.Is g := by
    have ht := fun t => decGType_ok hF t
    cases s with
    | box l =>
      obtain ⟨u, v, w, rfl⟩ := list3 h1
      refine ⟨{ type := .box, scale := ⟨u, v, w⟩ }, ?_, .box _ _ _ _ rfl rfl⟩
      simp only [Shape.toDict, decGeometry, Fmt.req, hF.get, Doc.find, if_true, Out.bind, reduceCtorEq,
        if_false, hF.codec, hC.vec3]
      rw [show Doc.str "box".toList = .str GType.box.name from rfl, ht]
    | capsule r l =>
      refine ⟨{ type := .capsule, radius := r, length := l }, ?_, .capsule _ _ _ rfl rfl rfl⟩
      simp only [Shape.toDict, decGeometry, Fmt.req, Fmt.real, hF.get, Doc.find, if_true, Out.bind,
        reduceCtorEq, if_false, hF.dbl]
      rw [show Doc.str "capsule".toList = .str GType.capsule.name from rfl, ht]
    | cylinder r l =>
      refine ⟨{ type := .cylinder, radius := r, length := l }, ?_, .cylinder _ _ _ rfl rfl rfl⟩
      simp only [Shape.toDict, decGeometry, Fmt.req, Fmt.real, hF.get, Doc.find, if_true, Out.bind,
        reduceCtorEq, if_false, hF.dbl]
      rw [show Doc.str "cylinder".toList = .str GType.cylinder.name from rfl, ht]
    | sphere r =>
      refine ⟨{ type := .sphere, radius := r }, ?_, .sphere _ _ rfl rfl⟩
      simp only [Shape.toDict, decGeometry, Fmt.req, Fmt.real, hF.get, Doc.find, if_true, Out.bind,
        reduceCtorEq, if_false, hF.dbl]
      rw [show Doc.str "sphere".toList = .str GType.sphere.name from rfl, ht]
    | mesh m l =>
      obtain ⟨u, v, w, rfl⟩ := list3 h1
      refine ⟨{ type := .mesh, scale := ⟨u, v, w⟩, mesh := m }, ?_, .mesh _ _ _ _ _ rfl rfl rfl⟩
      simp only [Shape.toDict, decGeometry, Fmt.req, Fmt.opt, hF.get, Doc.find, if_true, Out.bind,
        reduceCtorEq, if_false, hF.codec, hC.vec3, hF.str]
      rw [show Doc.str "mesh".toList = .str GType.mesh.name from rfl, ht]
  obtain ⟨g, hg, hs⟩ := hg
  refine ⟨_, ⟨n, ⟨rot qx qy qz qw, ⟨x, y, z⟩⟩, g, ⟨mn, ⟨r, gr, b, a⟩, tx⟩⟩, rfl, ?_,
    ⟨rfl, hs, ⟨rfl, rfl, rfl⟩, qx, qy, qz, qw, rfl, rfl, rfl⟩⟩
  simp only [decGraphics, Fmt.opt, hF.get, Doc.find, if_true, Out.bind, reduceCtorEq, if_false, hF.codec,
    hF.str, hC.iso, hg, decMaterial, Paint.toDict, hC.vec4]

/-- C109: the published document of an object holds, under `graphics`, a list that the library reads as
the pictures of the object, and under the other keys what the web page is told to follow. -/
theorem C109_object (hC : ReadsLists C rot) (o : Obj) (ho : ∀ p ∈ o.graphics, p.Sized) :
    ∃ l gs, o.toDict = .ok (.obj l) ∧ (Doc.find .graphics l).map (decodeVec (decGraphics (jsonFmt C))) =
      some (.ok gs) ∧ List.Forall₂ (Picture.Is rot) o.graphics gs ∧
      Doc.find (.other "key_pos".toList) l = some (.str o.keyPos) ∧
      Doc.find (.other "key_ori".toList) l = some (.str o.keyOri) ∧
      Doc.find (.other "key_scale".toList) l = some (.str o.keyScale) ∧
      Doc.find (.other "key_matrix".toList) l = some (.str o.keyMatrix) := by
  have key : ∀ l : List Picture, (∀ p ∈ l, p.Sized) → ∃ ds gs, picturesToDict l = .ok ds ∧
      decodeList (decGraphics (jsonFmt C)) ds = .ok gs ∧ List.Forall₂ (Picture.Is rot) l gs := by
    intro l
    induction l with
    | nil => exact fun _ => ⟨[], [], rfl, rfl, .nil⟩
    | cons p l ih =>
      intro h
      obtain ⟨ds, gs, h1, h2, h3⟩ := ih fun q hq => h q (List.mem_cons_of_mem _ hq)
      obtain ⟨d, g, k1, k2, k3⟩ := C109_graphics hC (h p (List.mem_cons_self ..))
      refine ⟨d :: ds, g :: gs, ?_, ?_, .cons k3 h3⟩
      · rw [picturesToDict, k1]; simp only [Out.bind, h1]
      · rw [decodeList, k2]; simp only [Out.bind, h2]
  obtain ⟨ds, gs, h1, h2, h3⟩ := key o.graphics ho
  refine ⟨_, gs, by rw [Obj.toDict, h1]; rfl, ?_, h3, rfl, rfl, rfl, rfl⟩
  simp only [Doc.find, if_true, Option.map_some, decodeVec, h2]

/-- C109 (partial: robots whose joints have finite limits; false for all others, see `C109_violated`):
the published document of a robot holds a description that the library reads as the same model. -/
theorem C109_robot_partial {E : Ext} {d : Bool} (hC : C.Faithful) (hP : C.Prints) (r : Rob)
    (h : Reach E r.body.body d) (hp : r.body.Proper) (c : Cache)
    (hf : ∀ rb ∈ r.body.body.rbs, rb.joint.Finite) :
    ∃ v m, item (r.toDict C) "articulated_body".toList = .ok v ∧
      item (r.toDict C) "key_q".toList = .ok (.str r.keyQ) ∧
      fromJson C v (Named.init c) = .ok m ∧ r.body.SameModel m := by
  obtain ⟨m, h1, h2, -⟩ := C58_pickle_partial hC hP h hp c hf
  exact ⟨_, m, rfl, rfl, h1, h2⟩

/-- C109 is false for every robot with a joint without finite limits (the default): the library cannot
read what was published. -/
theorem C109_violated {E : Ext} {d : Bool} (hC : C.Faithful) (hP : C.Prints) (r : Rob)
    (h : Reach E r.body.body d) (hp : r.body.Proper) (c : Cache)
    (hf : ∃ rb ∈ r.body.body.rbs, ¬ rb.joint.Finite) :
    ∃ v, item (r.toDict C) "articulated_body".toList = .ok v ∧ fromJson C v (Named.init c) = .throws :=
  ⟨_, rfl, C58_violated hC hP h hp c hf⟩

/-- C109: a pose does not survive `to_dict` and `from_dict`: a `KeyError`, for every pose. -/
theorem C109_pose_violated (p : Pose) (d : Doc) (h : p.toDict = .ok d) : Pose.fromDict d = .throws := by
  unfold Pose.toDict at h
  split at h
  · cases h
    rfl
  · cases h

/-- The conversions `codec0` extended by positions with quaternions. -/
noncomputable def codecQ (rot : ℝ → ℝ → ℝ → ℝ → Mat3) : Codec :=
  { codec0 with
    decIso := fun d => match d with
      | .obj [(_, .arr [.num (.fin a), .num (.fin b), .num (.fin c)]), (_, .obj [(_, .num (.fin x)),
          (_, .num (.fin y)), (_, .num (.fin z)), (_, .num (.fin w))])] => .ok ⟨rot x y z w, ⟨a, b, c⟩⟩
      | d => codec0.decIso d }

/-- The conditions of C109 are met by these conversions and every kind of shape. -/
example : ReadsLists (codecQ rot) rot ∧ (codecQ rot).Faithful ∧ (codecQ rot).Prints ∧
    ∀ s ∈ [Shape.box [1, 2, 3], .capsule 1 2, .cylinder 1 2, .sphere 1, .mesh "m".toList [1, 1, 1]],
      Picture.Sized ⟨"p".toList, s, {}, {}⟩ := by
  refine ⟨⟨fun _ _ _ => rfl, fun _ _ _ _ => rfl, fun _ _ _ _ _ _ _ => rfl⟩,
    ⟨fun _ => rfl, fun _ => rfl, fun _ => rfl, fun _ _ => rfl⟩,
    ⟨codec0_prints.1, codec0_prints.2, codec0_prints.3, codec0_prints.4⟩, ?_⟩
  intro s hs
  simp only [List.mem_cons, List.not_mem_nil, or_false] at hs
  rcases hs with rfl | rfl | rfl | rfl | rfl <;> exact ⟨by simp, rfl, rfl, rfl⟩

/-! ## C110 -/

/-- The default objects as the module made them. -/
structure Heap.Fresh (h : Heap) : Prop where
  pos : h.arrays[0]? = some [0, 0, 0]
  quat : h.arrays[1]? = some [0, 0, 0, 1]
  pose : h.poses[0]? = some (0, 1)
  material : h.materials[0]? = some ⟨[], [1, 1, 1, 1], []⟩

theorem getElem?_snoc {α : Type*} {l : List α} {i : ℕ} {x y : α} (h : l[i]? = some x) :
    (l ++ [y])[i]? = some x := by
  rw [List.getElem?_append_left (List.getElem?_eq_some_iff.1 h).1, h]

theorem Heap.Fresh.exec {h : Heap} (hf : h.Fresh) (s : Stmt) (hs : s.Respects) : (s.exec h).Fresh := by
  obtain ⟨h1, h2, h3, h4⟩ := hf
  cases s with
  | newArray l => exact ⟨getElem?_snoc h1, getElem?_snoc h2, h3, h4⟩
  | newPose p q => exact ⟨h1, h2, getElem?_snoc h3, h4⟩
  | newMaterial m => exact ⟨h1, h2, h3, getElem?_snoc h4⟩
  | newGraphics n s m T => exact ⟨h1, h2, h3, h4⟩
  | setEntry a i x =>
    refine ⟨?_, ?_, h3, h4⟩
    · show (h.arrays.modify a _)[0]? = _
      rw [List.getElem?_modify, h1]; exact congrArg some (if_neg hs.1)
    · show (h.arrays.modify a _)[1]? = _
      rw [List.getElem?_modify, h2]; exact congrArg some (if_neg hs.2)
  | setPos p a =>
    refine ⟨h1, h2, ?_, h4⟩
    show (h.poses.modify p _)[0]? = _
    rw [List.getElem?_modify, h3]; exact congrArg some (if_neg hs)
  | setQuat p a =>
    refine ⟨h1, h2, ?_, h4⟩
    show (h.poses.modify p _)[0]? = _
    rw [List.getElem?_modify, h3]; exact congrArg some (if_neg hs)
  | setMaterial m v =>
    refine ⟨h1, h2, h3, ?_⟩
    show (h.materials.modify m _)[0]? = _
    rw [List.getElem?_modify, h4]; exact congrArg some (if_neg hs)
  | setT g p => exact ⟨h1, h2, h3, h4⟩

/-- C110 (partial: programs that change no default object in place; false otherwise, see
`C110_violated`): a `Graphics` made without pose and material is at the origin of its link and white. -/
theorem C110_defaults_partial (l : List Stmt) (hl : ∀ s ∈ l, s.Respects) (n : Str) (s : Shape) :
    ∃ k, ((l ++ [Stmt.newGraphics n s none none]).foldl Stmt.exec Heap.start).picture k =
      some ⟨n, s, ⟨[], [1, 1, 1, 1], []⟩, ⟨[0, 0, 0], [0, 0, 0, 1]⟩⟩ := by
  have key : ∀ (l : List Stmt) (h : Heap), h.Fresh → (∀ s ∈ l, s.Respects) →
      (l.foldl Stmt.exec h).Fresh := by
    intro l
    induction l with
    | nil => exact fun h hf _ => hf
    | cons s l ih =>
      exact fun h hf hl => ih _ (hf.exec s (hl s (List.mem_cons_self ..)))
        fun s' hs' => hl s' (List.mem_cons_of_mem _ hs')
  obtain ⟨h1, h2, h3, h4⟩ := key l Heap.start ⟨rfl, rfl, rfl, rfl⟩ hl
  rw [List.foldl_append]
  generalize l.foldl Stmt.exec Heap.start = h at *
  refine ⟨h.graphics.length, ?_⟩
  simp only [List.foldl_cons, List.foldl_nil, Stmt.exec, Heap.picture, Option.getD_none,
    List.getElem?_concat_length, Option.map_some, List.getD_eq_getElem?_getD, h1, h2, h3, h4,
    Option.getD_some]

/-- C110 is false: moving one picture that was made without a pose moves all others made without a pose,
those made before and those made after. -/
theorem C110_violated (n m : Str) (s t : Shape) (x : ℝ) :
    let prog := [Stmt.newGraphics n s none none, .newGraphics m t none none]
    ((prog.foldl Stmt.exec Heap.start).picture 1).map Picture.T = some ⟨[0, 0, 0], [0, 0, 0, 1]⟩ ∧
    (((prog ++ [Stmt.setEntry 0 0 x]).foldl Stmt.exec Heap.start).picture 0).map Picture.T =
      some ⟨[x, 0, 0], [0, 0, 0, 1]⟩ ∧
    (((prog ++ [Stmt.setEntry 0 0 x]).foldl Stmt.exec Heap.start).picture 1).map Picture.T =
      some ⟨[x, 0, 0], [0, 0, 0, 1]⟩ ∧
    (((prog ++ [Stmt.setEntry 0 0 x, .newGraphics m t none none]).foldl Stmt.exec Heap.start).picture 2).map
      Picture.T = some ⟨[x, 0, 0], [0, 0, 0, 1]⟩ :=
  ⟨rfl, rfl, rfl, rfl⟩

/-- C110 (assignments): what each assignment of a program changes on the picture of a `Graphics` object
`g` that refers to the material `x.material` and to the pose `x.T`.  Objects that are assigned exist. -/
theorem C110_assigned (h : Heap) (g : ℕ) (x : PictureRef) (P : Picture) (hx : h.graphics[g]? = some x)
    (hP : h.picture g = some P) :
    (∀ p a, p < h.poses.length → ((Stmt.setPos p a).exec h).picture g =
      some { P with T := ⟨if x.T = p then h.arrays.getD a [] else P.T.pos, P.T.quat⟩ }) ∧
    (∀ p a, p < h.poses.length → ((Stmt.setQuat p a).exec h).picture g =
      some { P with T := ⟨P.T.pos, if x.T = p then h.arrays.getD a [] else P.T.quat⟩ }) ∧
    (∀ m v, m < h.materials.length → ((Stmt.setMaterial m v).exec h).picture g =
      some { P with material := if x.material = m then v else P.material }) ∧
    (∀ k p, ((Stmt.setT k p).exec h).picture g =
      some { P with T := if g = k then ⟨h.arrays.getD (h.poses.getD p (0, 1)).1 [],
        h.arrays.getD (h.poses.getD p (0, 1)).2 []⟩ else P.T }) ∧
    (∀ a i y, ((Stmt.setEntry a i y).exec h).picture g =
      some { P with T := ⟨if (h.poses.getD x.T (0, 1)).1 = a then P.T.pos.set i y else P.T.pos,
        if (h.poses.getD x.T (0, 1)).2 = a then P.T.quat.set i y else P.T.quat⟩ }) := by
  have hP' : P = ⟨x.name, x.geometry, h.materials.getD x.material {},
      ⟨h.arrays.getD (h.poses.getD x.T (0, 1)).1 [], h.arrays.getD (h.poses.getD x.T (0, 1)).2 []⟩⟩ := by
    simp only [Heap.picture, hx, Option.map_some, Option.some.injEq] at hP
    exact hP.symm
  have hmod : ∀ {α : Type} (l : List α) (k j : ℕ) (f : α → α) (d : α), k < l.length →
      (l.modify k f).getD j d = if j = k then f (l.getD j d) else l.getD j d := by
    intro α l k j f d hk
    rw [List.getD_eq_getElem?_getD, List.getD_eq_getElem?_getD, List.getElem?_modify]
    split_ifs with h1 h2 h2
    · subst h1; rw [List.getElem?_eq_getElem hk]; rfl
    · exact absurd h1.symm h2
    · exact absurd h2.symm h1
    · cases l[j]? <;> rfl
  subst hP'
  refine ⟨fun p a hp => ?_, fun p a hp => ?_, fun m v hm => ?_, fun k p => ?_, fun a i y => ?_⟩
  · simp only [Heap.picture, Stmt.exec, hx, Option.map_some, hmod _ _ _ _ _ hp]
    split_ifs <;> rfl
  · simp only [Heap.picture, Stmt.exec, hx, Option.map_some, hmod _ _ _ _ _ hp]
    split_ifs <;> rfl
  · simp only [Heap.picture, Stmt.exec, hx, Option.map_some, hmod _ _ _ _ _ hm]
  · simp only [Heap.picture, Stmt.exec, List.getElem?_modify, hx, Option.map_some]
    by_cases h1 : k = g
    · subst h1; simp
    · simp [h1, Ne.symm h1]
  · have hset : ∀ j, (h.arrays.modify a fun l => l.set i y).getD j [] =
        if j = a then (h.arrays.getD j []).set i y else h.arrays.getD j [] := by
      intro j
      rw [List.getD_eq_getElem?_getD, List.getD_eq_getElem?_getD, List.getElem?_modify]
      by_cases h1 : a = j
      · subst h1; cases h.arrays[a]? <;> simp
      · rw [if_neg (Ne.symm h1)]; cases h.arrays[j]? <;> simp [h1]
    simp only [Heap.picture, Stmt.exec, hx, Option.map_some, hset]

/-- C110 (new objects): making arrays, poses, materials and pictures leaves the pictures there are as
they look. -/
theorem C110_made (h : Heap) (g : ℕ) (x : PictureRef) (hx : h.graphics[g]? = some x)
    (hm : x.material < h.materials.length) (hT : x.T < h.poses.length)
    (h1 : (h.poses.getD x.T (0, 1)).1 < h.arrays.length)
    (h2 : (h.poses.getD x.T (0, 1)).2 < h.arrays.length) :
    (∀ l, ((Stmt.newArray l).exec h).picture g = h.picture g) ∧
    (∀ p q, ((Stmt.newPose p q).exec h).picture g = h.picture g) ∧
    (∀ m, ((Stmt.newMaterial m).exec h).picture g = h.picture g) ∧
    (∀ n s m T, ((Stmt.newGraphics n s m T).exec h).picture g = h.picture g) := by
  have happ : ∀ {α : Type} (l : List α) (j : ℕ) (d y : α), j < l.length →
      (l ++ [y]).getD j d = l.getD j d := by
    intro α l j d y hj
    rw [List.getD_eq_getElem?_getD, List.getD_eq_getElem?_getD, List.getElem?_append_left hj]
  refine ⟨fun l => ?_, fun p q => ?_, fun m => ?_, fun n s m T => ?_⟩
  · simp only [Heap.picture, Stmt.exec, hx, Option.map_some, happ _ _ _ _ h1, happ _ _ _ _ h2]
  · simp only [Heap.picture, Stmt.exec, hx, Option.map_some, happ _ _ _ _ hT]
  · simp only [Heap.picture, Stmt.exec, hx, Option.map_some, happ _ _ _ _ hm]
  · simp only [Heap.picture, Stmt.exec, getElem?_snoc hx, hx]

/-- The assignments at work: a picture with a pose of its own is moved, turned and painted. -/
example : (([Stmt.newArray [1, 2, 3], .newPose none none, .newMaterial ⟨[], [0, 1, 0, 1], []⟩,
    .newGraphics [] (.sphere 1) (some 1) (some 1), .setPos 1 2, .setEntry 2 0 5,
    .setMaterial 1 ⟨[], [1, 0, 0, 1], []⟩].foldl Stmt.exec Heap.start).picture 0) =
      some ⟨[], .sphere 1, ⟨[], [1, 0, 0, 1], []⟩, ⟨[5, 2, 3], [0, 0, 0, 1]⟩⟩ := rfl

/-- A program that meets the condition of C110: it moves a picture that has its own pose. -/
example : ∀ s ∈ [Stmt.newArray [1, 2, 3], .newPose (some 2) none, .newGraphics [] (.sphere 1) none (some 1),
    .setEntry 2 0 5], s.Respects := by
  intro s hs
  simp only [List.mem_cons, List.not_mem_nil, or_false] at hs
  rcases hs with rfl | rfl | rfl | rfl
  · trivial
  · trivial
  · trivial
  · exact ⟨by decide, by decide⟩

end SpatialDyn.Redisgl
