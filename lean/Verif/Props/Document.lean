import Verif.Lemmas.Restore
import Verif.Lemmas.Demo
import Verif.Props.Cache

/-! Properties C44 (JSON), C45 (YAML), C58 (pickling), C59 (names of geometry
types), C60 (reading into a used object). -/

namespace SpatialDyn

/-! ## A concrete codec and a concrete body -/

/-- Numbers in a list. -/
def nums (l : List ℝ) : Doc := .arr (l.map fun r => .num (.fin r))

/-- Conversions of Eigen types as flat lists of numbers. -/
def codec0 : Codec where
  encVec3 v := nums [v.x, v.y, v.z]
  decVec3 d := match d with
    | .arr [.num (.fin x), .num (.fin y), .num (.fin z)] => .ok ⟨x, y, z⟩
    | _ => .throws
  encVec4 v := nums [v.x, v.y, v.z, v.w]
  decVec4 d := match d with
    | .arr [.num (.fin x), .num (.fin y), .num (.fin z), .num (.fin w)] => .ok ⟨x, y, z, w⟩
    | _ => .throws
  encVec6 v := nums [v.1, v.2.1, v.2.2.1, v.2.2.2.1, v.2.2.2.2.1, v.2.2.2.2.2]
  decVec6 d := match d with
    | .arr [.num (.fin a), .num (.fin b), .num (.fin c), .num (.fin d), .num (.fin e),
        .num (.fin f)] => .ok (a, b, c, d, e, f)
    | _ => .throws
  encIso T := nums [T.R.m00, T.R.m01, T.R.m02, T.R.m10, T.R.m11, T.R.m12, T.R.m20, T.R.m21, T.R.m22,
    T.t.x, T.t.y, T.t.z]
  decIso d := match d with
    | .arr [.num (.fin a), .num (.fin b), .num (.fin c), .num (.fin d), .num (.fin e), .num (.fin f),
        .num (.fin g), .num (.fin h), .num (.fin i), .num (.fin x), .num (.fin y), .num (.fin z)] =>
      .ok ⟨⟨a, b, c, d, e, f, g, h, i⟩, ⟨x, y, z⟩⟩
    | _ => .throws

theorem codec0_faithful : codec0.Faithful :=
  ⟨fun _ => rfl, fun _ => rfl, fun _ => rfl, fun _ _ => rfl⟩

theorem nums_text (l : List ℝ) : (nums l).text = nums l := by
  simp [nums, text_arr, Function.comp_def, text_real]

theorem codec0_prints : codec0.Prints :=
  ⟨fun _ => nums_text _, fun _ => nums_text _, fun _ => nums_text _, fun _ => nums_text _⟩

/-- The branching witness body with names, and a capsule on its root. -/
noncomputable def demoNamed : Named where
  name := "arm".toList
  graphics := [{ name := "base".toList }]
  body := Body.demo
  tags := [{ name := "a".toList, graphics := [{ T := quarterTurn, geometry :=
    { type := .capsule, radius := 1, length := 2 } }] }, { name := "b".toList }, {}]

theorem mkJoint_made (t : JType) : (mkJoint t).Made := by
  constructor <;> simp [mkJoint, Dbl.Lt]

theorem demoNamed_proper : demoNamed.Proper := by
  have hT : (1 : Iso).Valid := (Body.demo_inv ext0).rigid.base
  refine ⟨rfl, ?_, ?_, ?_, ?_, ?_⟩
  · intro rb h
    simp only [demoNamed, Body.demo, List.mem_cons, List.not_mem_nil, or_false] at h
    rcases h with rfl | rfl | rfl <;> exact mkJoint_made _
  · intro rb h
    simp only [demoNamed, Body.demo, List.mem_cons, List.not_mem_nil, or_false] at h
    rcases h with rfl | rfl | rfl <;> exact unitInertia_phys.1
  · intro rb h
    simp only [demoNamed, Body.demo, List.mem_cons, List.not_mem_nil, or_false] at h
    rcases h with rfl | rfl | rfl <;> exact unitInertia_phys.2.1
  · intro g h
    simp only [demoNamed, List.mem_cons, List.not_mem_nil, or_false] at h
    subst h; exact hT
  · intro t h g hg
    simp only [demoNamed, List.mem_cons, List.not_mem_nil, or_false] at h
    rcases h with rfl | rfl | rfl
    · simp only [List.mem_cons, List.not_mem_nil, or_false] at hg
      subst hg; exact quarterTurn_valid
    · simp at hg
    · simp at hg

/-! ## C44 -/

/-- C44: whatever calls a joint has seen, it satisfies what the round trip asks of joints. -/
theorem C44_joints_made (ops : List Joint.Op) : (({} : Joint).run ops).Made := Joint.Made.run ops

variable {E : Ext} {C : Codec} {n : Named} {d : Bool}

/-- C44: reading the JSON of a body into any reachable body succeeds and appends the bodies of the
document after those already there, with the parent indices of the document. -/
theorem C44_append (hC : C.Faithful) (h : Reach E n.body d) (hp : n.Proper) (n0 : Named)
    (h0 : Reach E n0.body false) :
    ∃ m, fromJson C (encBody C n) n0 = .ok m ∧ m.name = n.name ∧
      List.Forall₂ Graphics.Alike n.graphics m.graphics ∧
      (∃ ts, m.tags = n0.tags ++ ts ∧ List.Forall₂ Tag.Alike n.tags ts) ∧
      m.body.rbs = n0.body.rbs ++ place n0.body.dof n.body.rbs ∧
      m.body.T0 = n.body.T0 ∧ m.body.inertiaBase = n.body.inertiaBase ∧
      m.body.q = n0.body.q ++ List.replicate n.body.dof 0 ∧
      m.body.dq = n0.body.dq ++ List.replicate n.body.dof 0 ∧
      m.body.g = n0.body.g ∧ m.body.load = n0.body.load ∧ Reach E m.body false := by
  have hi := h.inv
  have hl : n.tags.length = n.body.rbs.length := hp.tags
  have hrd : Reach E (n.header n0).body false := by
    have h1 := h0.step (b' := n0.body.setBase n.body.T0) (.setBase n.body.T0) ⟨hi.rigid.base, rfl⟩ rfl
    have hm : ¬ n.body.inertiaBase.mass < 0 := not_lt.2 (Reach.base h).1
    have h2 := h1.step
      (b' := { n0.body.setBase n.body.T0 with inertiaBase := n.body.inertiaBase })
      (.setInertiaBase n.body.inertiaBase) trivial
      (by simp [Op.exec, Op.step, Body.setInertiaBase, hm, C05_flat_round_trip _ (Reach.base h).2])
    simpa [Op.dirty, Body.setBase, Named.header] using h2
  have hz : List.Forall₂ (fun d x => jsonRigidBody C d = .ok x)
      (List.zipWith (encRigidBody C) n.tags n.body.rbs)
      (List.zipWith (fun t rb => (t.canon, rb)) n.tags n.body.rbs) :=
    forall₂_zip _ _ fun t ht rb hr => jsonRigidBody_ok hC t (hp.rb h hr) (hp.tagGraphics t ht)
  have m1 := map_fst_zipWith Tag.canon (id : RB → RB) n.tags n.body.rbs hl
  have m2 := map_snd_zipWith Tag.canon (id : RB → RB) n.tags n.body.rbs hl
  simp only [id_eq, List.map_id] at m1 m2
  obtain ⟨m, hm, r⟩ := decBodies_ok hz (n.header n0) (by rw [m2]; exact hi.tree.ordered _)
  have hx : (List.zipWith (fun t rb => (Tag.canon t, rb)) n.tags n.body.rbs).length = n.body.dof := by
    rw [List.length_zipWith, hl]; exact min_self _
  refine ⟨m, ?_, r.name, ?_, ⟨n.tags.map Tag.canon, ?_, forall₂_map_right Tag.canon_alike _⟩, ?_, r.T0,
    r.inertiaBase, ?_, ?_, r.g, r.load, r.reach hrd ?_⟩
  · rw [fromJson, decBody_eq (jsonFmt_plain C) hC hp.graphics hi.rigid.base (Reach.base h), hm]
  · rw [r.graphics]; exact forall₂_map_right Graphics.canon_alike _
  · rw [r.tags, m1]; rfl
  · rw [r.rbs, m2]; rfl
  · rw [r.q, hx]; rfl
  · rw [r.dq, hx]; rfl
  · intro x hx
    have : x.2 ∈ n.body.rbs := by rw [← m2]; exact List.mem_map_of_mem hx
    exact (hp.rb h this).rigid

/-- C44: reading the JSON of a body into a new one gives the same names, graphics, tree, poses,
inertias and joints, at rest. -/
theorem C44_round_trip (hC : C.Faithful) (h : Reach E n.body d) (hp : n.Proper) (c : Cache) :
    ∃ m, fromJson C (encBody C n) (Named.init c) = .ok m ∧ n.SameModel m ∧ m.body.AtRest ∧
      Reach E m.body false := by
  obtain ⟨m, hm, e1, e2, ⟨ts, e3, e3'⟩, e4, e5, e6, e7, e8, e9, e10, hr⟩ :=
    C44_append hC h hp (Named.init c) (.init c)
  have er : m.body.rbs = n.body.rbs := by
    rw [e4]
    show [] ++ place 0 n.body.rbs = n.body.rbs
    rw [h.inv.tree.place, List.nil_append]
  have ed : m.body.dof = n.body.dof := by unfold Body.dof; rw [er]
  obtain ⟨ha, hs⟩ := Body.tree_lists hr.inv.tree h.inv.tree er
  have e3 : m.tags = ts := by rw [e3]; rfl
  exact ⟨m, hm, ⟨e1, e2, e3 ▸ e3', er, e5, e6, ha, hs⟩,
    ⟨by rw [e7, ed]; rfl, by rw [e8, ed]; rfl, e9, fun k => by rw [e10]; rfl⟩, hr⟩

/-- C44: once position, velocity, gravity and loads are set again, the body read back answers every
core query as the one that was written. -/
theorem C44_answers (hC : C.Faithful) (h : Reach E n.body d) (hp : n.Proper) (c : Cache)
    (hs : n.body.fresh.SymI) (hm : n.body.fresh.PosMass) :
    ∃ m l b, fromJson C (encBody C n) (Named.init c) = .ok m ∧ (∀ op ∈ l, op.State) ∧
      execAll E m.body l = some b ∧ n.body.ObsEq b ∧
      ∀ x : Query, x.Core → (x.run E n.body).map Prod.fst = (x.run E b).map Prod.fst := by
  obtain ⟨m, h1, h2, h3, h4⟩ := C44_round_trip hC h hp c
  obtain ⟨b, d', ⟨⟨l, hl, hx⟩, hr⟩, ho⟩ := Body.Reach.restore h h4 h2.rbs h2.T0 h3.load
  exact ⟨m, l, b, h1, hl, hx, ho, fun x hc => C14_history_independent h hr ho hs hm x hc⟩

/-- C44: the state is not in the document: a body that is not at rest does not come back as it was. -/
theorem C44_state_not_saved (hC : C.Faithful) (h : Reach E n.body d) (hp : n.Proper) (c : Cache)
    (hs : ¬ n.body.AtRest) :
    ∃ m, fromJson C (encBody C n) (Named.init c) = .ok m ∧ ¬ n.body.ObsEq m.body := by
  obtain ⟨m, h1, h2, h3, -⟩ := C44_round_trip hC h hp c
  refine ⟨m, h1, fun ho => hs ?_⟩
  have ed : m.body.dof = n.body.dof := by unfold Body.dof; rw [h2.rbs]
  exact ⟨by rw [ho.q, h3.q, ed], by rw [ho.dq, h3.dq, ed], by rw [ho.g, h3.g],
    fun k => by rw [ho.load]; exact h3.load k⟩

/-- C44 on the witness: the hypotheses are met and the body is neither trivial nor at rest. -/
example : (∃ d, Reach ext0 demoNamed.body d) ∧ demoNamed.Proper ∧ codec0.Faithful ∧
    ¬ demoNamed.body.AtRest :=
  ⟨Body.demo_reach ext0, demoNamed_proper, codec0_faithful, fun h => by
    have := h.q
    simp [demoNamed, Body.demo, Body.dof, List.replicate] at this⟩

/-! ## C45 -/

/-- Every body hangs on the base. -/
def Body.Flat (b : Body) : Prop := ∀ i < b.dof, b.par i = none

/-- The same bodies, all of them hung on the base. -/
def flatten (l : List RB) : List RB := l.map fun rb => { rb with idParent := -1 }

theorem place_flat : ∀ (l : List RB) (k : ℕ),
    place k (l.map fun rb => { rb with id := -1, idParent := -1 }) = flatten (place k l)
  | [], _ => rfl
  | _ :: l, k => by
    simp only [List.map_cons, place, flatten]
    rw [place_flat l (k + 1)]
    rfl

theorem ordered_flat : ∀ (l : List RB) (k : ℕ),
    Ordered k (l.map fun rb => { rb with id := -1, idParent := -1 })
  | [], _ => trivial
  | _ :: l, k => ⟨le_rfl, by simp only; omega, ordered_flat l (k + 1)⟩

/-- C45: reading the YAML of a body back always succeeds and gives every link, joint, inertia, name and
picture in order, but hung on the base. -/
theorem C45_reads_flat (hC : C.Faithful) (h : Reach E n.body d) (hp : n.Proper) (c : Cache) :
    ∃ m, fromYaml C (encBody C n) (Named.init c) = .ok m ∧ m.name = n.name ∧
      List.Forall₂ Graphics.Alike n.graphics m.graphics ∧ List.Forall₂ Tag.Alike n.tags m.tags ∧
      m.body.rbs = flatten n.body.rbs ∧ m.body.T0 = n.body.T0 ∧
      m.body.inertiaBase = n.body.inertiaBase ∧ m.body.AtRest ∧ Reach E m.body false := by
  have hi := h.inv
  have hl : n.tags.length = n.body.rbs.length := hp.tags
  have hz : List.Forall₂ (fun d x => yamlRigidBody C d = .ok x)
      (List.zipWith (encRigidBody C) n.tags n.body.rbs)
      (List.zipWith (fun t (rb : RB) => (t.canon, { rb with id := -1, idParent := -1 })) n.tags
        n.body.rbs) :=
    forall₂_zip _ _ fun t ht rb hr => yamlRigidBody_ok hC t (hp.rb h hr) (hp.tagGraphics t ht)
  have m1 := map_fst_zipWith Tag.canon (fun rb : RB => { rb with id := -1, idParent := -1 }) n.tags
    n.body.rbs hl
  have m2 := map_snd_zipWith Tag.canon (fun rb : RB => { rb with id := -1, idParent := -1 }) n.tags
    n.body.rbs hl
  obtain ⟨m, hm, r⟩ := decBodies_ok hz (n.header (Named.init c)) (by rw [m2]; exact ordered_flat _ _)
  have er : m.body.rbs = flatten n.body.rbs := by
    rw [r.rbs, m2, place_flat]
    show [] ++ flatten (place 0 n.body.rbs) = _
    rw [hi.tree.place, List.nil_append]
  have ed : m.body.dof = n.body.dof := by unfold Body.dof; rw [er]; simp [flatten]
  have hx : (List.zipWith (fun t (rb : RB) => (Tag.canon t, ({ rb with id := -1, idParent := -1 } : RB)))
      n.tags n.body.rbs).length = m.body.dof := by
    rw [List.length_zipWith, hl, ed]; exact min_self _
  refine ⟨m, ?_, r.name, ?_, ?_, er, r.T0, r.inertiaBase, ⟨?_, ?_, r.g, ?_⟩,
    r.reach (header_reach h c) ?_⟩
  · rw [fromYaml, decBody_eq (yamlFmt_plain C) hC hp.graphics hi.rigid.base (Reach.base h), hm]
  · rw [r.graphics]; exact forall₂_map_right Graphics.canon_alike _
  · rw [r.tags, m1]; exact forall₂_map_right Tag.canon_alike _
  · rw [r.q, hx]; rfl
  · rw [r.dq, hx]; rfl
  · intro k; rw [r.load]; rfl
  · intro x hx
    have : x.2 ∈ n.body.rbs.map fun rb : RB => { rb with id := -1, idParent := -1 } := by
      rw [← m2]; exact List.mem_map_of_mem hx
    obtain ⟨rb, hr, e⟩ := List.mem_map.1 this
    rw [← e]
    exact (hp.rb h hr).rigid

theorem flatten_eq_iff (h : n.body.Tree) : flatten n.body.rbs = n.body.rbs ↔ n.body.Flat := by
  constructor
  · intro e i hi
    have hi' : i < n.body.rbs.length := hi
    have : n.body.rb i = { n.body.rb i with idParent := -1 } := by
      have := congrArg (fun l : List RB => l[i]?) e
      simpa [flatten, Body.rb, hi'] using this.symm
    unfold Body.par
    rw [this]
    simp
  · intro hf
    unfold flatten
    conv_rhs => rw [← List.map_id n.body.rbs]
    refine List.map_congr_left fun rb hr => ?_
    obtain ⟨i, hi, rfl⟩ := List.mem_iff_getElem.1 hr
    obtain ⟨-, h1, -⟩ := h.ids i hi
    have h2 := hf i hi
    unfold Body.par at h2
    simp only [ite_eq_left_iff, reduceCtorEq, imp_false, not_not] at h2
    rw [Body.rb_get hi] at h1 h2
    have h3 : (n.body.rbs[i]).idParent = -1 := by omega
    simp only [id_eq]
    rw [← h3]

/-- C45 (partial: only bodies all of whose links hang on the base; false for all others, see
`C45_violated`): the YAML round trip gives the same model. -/
theorem C45_round_trip_partial (hC : C.Faithful) (h : Reach E n.body d) (hp : n.Proper) (c : Cache)
    (hf : n.body.Flat) :
    ∃ m, fromYaml C (encBody C n) (Named.init c) = .ok m ∧ n.SameModel m ∧ m.body.AtRest ∧
      Reach E m.body false := by
  obtain ⟨m, h1, h2, h3, h4, h5, h6, h7, h8, h9⟩ := C45_reads_flat hC h hp c
  rw [(flatten_eq_iff h.inv.tree).2 hf] at h5
  obtain ⟨ha, hs⟩ := Body.tree_lists h9.inv.tree h.inv.tree h5
  exact ⟨m, h1, ⟨h2, h3, h4, h5, h6, h7, ha, hs⟩, h8, h9⟩

/-- C45 is false for every body in which some link hangs on another: the body read back is a
different model. -/
theorem C45_violated (hC : C.Faithful) (h : Reach E n.body d) (hp : n.Proper) (c : Cache)
    (hf : ¬ n.body.Flat) :
    ∃ m, fromYaml C (encBody C n) (Named.init c) = .ok m ∧ ¬ n.SameModel m ∧ m.body.Flat := by
  obtain ⟨m, h1, -, -, -, h5, -, -, -, -⟩ := C45_reads_flat hC h hp c
  refine ⟨m, h1, fun hs => hf ((flatten_eq_iff h.inv.tree).1 (h5.symm.trans hs.rbs)), fun i hi => ?_⟩
  have hi' : i < (flatten n.body.rbs).length := by rw [← h5]; exact hi
  unfold Body.par Body.rb
  rw [h5]
  simp only [flatten, List.length_map] at hi'
  simp [flatten, hi']

/-- C45 is false: the witness arm is not flat. -/
example : (∃ d, Reach ext0 demoNamed.body d) ∧ demoNamed.Proper ∧ ¬ demoNamed.body.Flat :=
  ⟨Body.demo_reach ext0, demoNamed_proper, fun h => by
    have := h 1 (by simp [demoNamed, Body.demo, Body.dof])
    simp [demoNamed, Body.demo, Body.par, Body.rb] at this⟩

/-! ## C60 -/

theorem place_get : ∀ (l : List RB) (k i : ℕ), i < l.length →
    ∃ j : ℤ, (place k l).getD i {} = { l.getD i {} with id := j }
  | [], _, _, h => by simp at h
  | rb :: _, k, 0, _ => ⟨k, rfl⟩
  | _ :: l, k, i + 1, h => by
    obtain ⟨j, hj⟩ := place_get l (k + 1) i (by simpa using h)
    exact ⟨j, by simpa [place] using hj⟩

/-- The parent of a body read into an object that had bodies before is the index in the document. -/
theorem par_read {b b0 m : Body} (e : m.rbs = b0.rbs ++ place b0.dof b.rbs) {i : ℕ} (hi : i < b.dof) :
    m.par (b0.dof + i) = b.par i := by
  obtain ⟨j, hj⟩ := place_get b.rbs b0.dof i hi
  have : m.rb (b0.dof + i) = { b.rb i with id := j } := by
    unfold Body.rb
    rw [e, ← hj, List.getD_eq_getElem?_getD, List.getElem?_append_right (by simp [Body.dof])]
    simp [Body.dof]
  unfold Body.par
  rw [this]

/-- C60 (partial: the object read into is empty, or every link of the document hangs on the base; false
for all others, see `C60_violated`): the tree of the document is reproduced next to the old bodies. -/
theorem C60_partial (hC : C.Faithful) (h : Reach E n.body d) (hp : n.Proper) (n0 : Named)
    (h0 : Reach E n0.body false) (hf : n0.body.dof = 0 ∨ n.body.Flat) :
    ∃ m, fromJson C (encBody C n) n0 = .ok m ∧ m.body.dof = n0.body.dof + n.body.dof ∧
      ∀ i < n.body.dof, m.body.par (n0.body.dof + i) = (n.body.par i).map (n0.body.dof + ·) := by
  obtain ⟨m, h1, -, -, -, e, -⟩ := C44_append hC h hp n0 h0
  refine ⟨m, h1, by simp [Body.dof, e], fun i hi => ?_⟩
  rw [par_read e hi]
  rcases hf with hf | hf
  · rw [hf]; simp
  · rw [hf i hi]; rfl

/-- C60 is false whenever the object already has bodies and some link of the document hangs on
another: that link is attached to one of the old bodies. -/
theorem C60_violated (hC : C.Faithful) (h : Reach E n.body d) (hp : n.Proper) (n0 : Named)
    (h0 : Reach E n0.body false) (hd : 0 < n0.body.dof) {i p : ℕ} (hi : i < n.body.dof)
    (hf : n.body.par i = some p) :
    ∃ m, fromJson C (encBody C n) n0 = .ok m ∧ m.body.par (n0.body.dof + i) = some p ∧
      m.body.par (n0.body.dof + i) ≠ (n.body.par i).map (n0.body.dof + ·) := by
  obtain ⟨m, h1, -, -, -, e, -⟩ := C44_append hC h hp n0 h0
  refine ⟨m, h1, by rw [par_read e hi, hf], ?_⟩
  rw [par_read e hi, hf]
  simp only [Option.map_some, ne_eq, Option.some.injEq]
  omega

/-- C60 is false, reading twice into one object: the second copy hangs on the first.  The third body of the
second copy (index 5) is attached to the root of the first copy, not of the second. -/
theorem C60_read_twice_violated : ∃ m m', fromJson codec0 (encBody codec0 demoNamed)
      (Named.init cache0) = .ok m ∧ fromJson codec0 (encBody codec0 demoNamed) m = .ok m' ∧
      m'.body.dof = 6 ∧ m'.body.par 2 = some 0 ∧ m'.body.par 5 = some 0 ∧ m'.body.par 3 = none := by
  obtain ⟨d, h⟩ : ∃ d, Reach ext0 demoNamed.body d := Body.demo_reach ext0
  obtain ⟨m, h1, h2, -, h4⟩ := C44_round_trip codec0_faithful h demoNamed_proper cache0
  obtain ⟨m', k1, -, -, -, k2, -⟩ := C44_append codec0_faithful h demoNamed_proper m h4
  refine ⟨m, m', h1, k1, ?_⟩
  rw [h2.rbs] at k2
  simp [Body.dof, Body.par, Body.rb, k2, demoNamed, Body.demo, place]

/-! ## C58 -/

/-- C58 (partial: only if every limit of every joint is finite; false for all others, see
`C58_violated`): a pickled body comes back as the same model. -/
theorem C58_pickle_partial (hC : C.Faithful) (hP : C.Prints) (h : Reach E n.body d) (hp : n.Proper)
    (c : Cache) (hf : ∀ rb ∈ n.body.rbs, rb.joint.Finite) :
    ∃ m, pickle C c n = .ok m ∧ n.SameModel m ∧ m.body.AtRest ∧ Reach E m.body false := by
  have : (encBody C n).text = encBody C n := by
    rw [encBody_text hP, encBody_eq]
    congr 4
    have hl : ∀ (l : List Tag) (r : List RB), (∀ rb ∈ r, rb.joint.Finite) →
        (List.zipWith (encRigidBody C) l r).map Doc.text = List.zipWith (encRigidBody C) l r := by
      intro l
      induction l with
      | nil => intro r _; simp
      | cons t l ih =>
        intro r hr
        cases r with
        | nil => simp
        | cons rb r =>
          simp only [List.zipWith_cons_cons, List.map_cons]
          rw [encRigidBody_text hP t (hr rb (List.mem_cons_self ..)),
            ih r fun x hx => hr x (List.mem_cons_of_mem _ hx)]
    exact hl _ _ hf
  unfold pickle
  rw [this]
  exact C44_round_trip hC h hp c

/-- C58 is false for every body with a joint that has an infinite (or NaN) limit, such as any joint
whose limits were never set: unpickling throws. -/
theorem C58_violated (hC : C.Faithful) (hP : C.Prints) (h : Reach E n.body d) (hp : n.Proper)
    (c : Cache) (hf : ∃ rb ∈ n.body.rbs, ¬ rb.joint.Finite) : pickle C c n = .throws := by
  have hF := jsonFmt_plain C
  have hi := h.inv
  have hl : n.tags.length = n.body.rbs.length := hp.tags
  have hz : List.Forall₂ (fun d x => jsonRigidBody C d = .ok x ∨ jsonRigidBody C d = .throws)
      (List.zipWith (fun t rb => (encRigidBody C t rb).text) n.tags n.body.rbs)
      (List.zipWith (fun t rb => (t.canon, rb)) n.tags n.body.rbs) :=
    forall₂_zip _ _ fun t ht rb hr => by
      by_cases hj : rb.joint.Finite
      · left
        rw [encRigidBody_text hP t hj]
        exact jsonRigidBody_ok hC t (hp.rb h hr) (hp.tagGraphics t ht)
      · right
        exact jsonRigidBody_throws hC hP t (hp.rb h hr) (hp.tagGraphics t ht) hj
  have m2 := map_snd_zipWith Tag.canon (id : RB → RB) n.tags n.body.rbs hl
  simp only [id_eq, List.map_id] at m2
  have hex : ∃ d ∈ List.zipWith (fun t rb => (encRigidBody C t rb).text) n.tags n.body.rbs,
      jsonRigidBody C d = .throws := by
    obtain ⟨rb, hr, hj⟩ := hf
    obtain ⟨i, hi', rfl⟩ := List.mem_iff_getElem.1 hr
    have hi2 : i < n.tags.length := hl ▸ hi'
    refine ⟨(encRigidBody C n.tags[i] n.body.rbs[i]).text, ?_, jsonRigidBody_throws hC hP _
      (hp.rb h hr) (hp.tagGraphics _ (List.getElem_mem hi2)) hj⟩
    refine List.mem_iff_getElem.2 ⟨i, by simp [hi', hi2], by simp⟩
  have hm : ¬ n.body.inertiaBase.mass < 0 := not_lt.2 (Reach.base h).1
  have := decBodies_throws hz hex (n.header (Named.init c)) (by rw [m2]; exact hi.tree.ordered _)
  unfold pickle
  rw [encBody_text hP]
  simp only [fromJson, decBody, Fmt.opt, hF.get, Doc.find, Out.bind, Out.map, hF.str, hF.codec,
    decodeVec, decGraphicsList_ok hF hC _ hp.graphics, hC.iso _ hi.rigid.base,
    decInertia_ok hF hC (Reach.base h).2, Body.setInertiaBase, hm, hF.items, Body.setBase,
    C05_flat_round_trip _ (Reach.base h).2, reduceCtorEq, if_false, if_true, List.map_zipWith]
  exact this

/-- C58 is false: the witness arm, with the limits every new joint has, cannot be unpickled. -/
theorem C58_violated_witness : pickle codec0 cache0 demoNamed = .throws := by
  obtain ⟨d, h⟩ : ∃ d, Reach ext0 demoNamed.body d := Body.demo_reach ext0
  refine C58_violated codec0_faithful codec0_prints h demoNamed_proper cache0
    ⟨_, List.mem_cons_self .., fun h => ?_⟩
  obtain ⟨r, hr⟩ := h.qMin
  simp [mkRB, mkJoint] at hr

/-- A slider with all limits finite. -/
def boundedRB : RB := { mkRB .px with
  joint := { type := .px, subspace := JType.subspace .px, qMin := .fin (-1), qMax := .fin 1
             dqMax := .fin 2, fqMax := .fin 3 } }

/-- C58: a body with finite limits meets the hypotheses of the partial theorem. -/
example : ∃ (n : Named) (d : Bool), Reach ext0 n.body d ∧ n.Proper ∧ n.body.dof = 1 ∧
    ∀ rb ∈ n.body.rbs, rb.joint.Finite := by
  obtain ⟨b, hb⟩ : ∃ b, (Body.init cache0).addRigidBody boundedRB (-1) = .ok (0, b) := by
    unfold Body.addRigidBody
    simp [Body.init]
  obtain ⟨-, -, -, e⟩ := Body.addRigidBody_ok hb
  have er : b.rbs = [{ boundedRB with id := 0, idParent := -1 }] := by
    rw [e]; simp [Body.init, Body.dof]
  refine ⟨{ body := b, tags := [{}] }, _, (Reach.init cache0).step (.addRigidBody boundedRB (-1))
    quarterTurn_valid (by simp [Op.exec, Op.step, hb, Out.map, Out.bind]), ⟨?_, ?_, ?_, ?_, ?_, ?_⟩, ?_,
    ?_⟩
  · simp [Body.dof, er]
  · simp only [er, List.mem_singleton, forall_eq]
    constructor <;> simp [boundedRB, mkRB, mkJoint, Dbl.Lt]
  · simp only [er, List.mem_singleton, forall_eq]
    exact unitInertia_phys.1
  · simp only [er, List.mem_singleton, forall_eq]
    exact unitInertia_phys.2.1
  · simp
  · simp
  · simp [Body.dof, er]
  · simp only [er, List.mem_singleton, forall_eq]
    constructor <;> exact ⟨_, rfl⟩

/-! ## C59 -/

/-- The names of the geometry types (graphics.h 100-101, and `capsule`). -/
def geometryNames : List String := ["undefined", "box", "capsule", "cylinder", "sphere", "mesh"]

/-- C59: parsing the printed name of a geometry type returns the type, surrounded by any white space,
in any letter case. -/
theorem C59_geometry_name_round_trip (t : GType) (s pre post : List Char)
    (hs : sameUpToCase s t.name) (hpre : ∀ c ∈ pre, isWs c = true)
    (hpost : post = [] ∨ ∃ c cs, post = c :: cs ∧ isWs c = true) :
    GType.parse (pre ++ s ++ post) = some t := by
  -- lower-casing never produces or removes white space
  have ws : ∀ c : Char, isWs c.toLower = false → isWs c = false := by
    intro c h
    by_cases hc : isWs c = true
    · have : c = ' ' ∨ c = '\t' ∨ c = '\n' ∨ c = '\r' ∨ c = '\x0b' ∨ c = '\x0c' := by
        simpa [isWs, or_assoc] using hc
      rcases this with rfl | rfl | rfl | rfl | rfl | rfl <;> revert h <;> decide
    · simpa using hc
  have hname : t.name.map Char.toLower = t.name := by cases t <;> decide
  have hnw : ∀ c ∈ t.name, isWs c = false := by cases t <;> decide
  have hne : t.name ≠ [] := by cases t <;> decide
  unfold sameUpToCase at hs
  rw [hname] at hs
  have hsw : ∀ c ∈ s, isWs c = false := by
    intro c hc
    apply ws
    apply hnw
    rw [← hs]
    exact List.mem_map_of_mem hc
  have hsne : s ≠ [] := by
    rintro rfl
    exact hne hs.symm
  have htok : token (pre ++ s ++ post) = s := by
    unfold token
    have h1 : (pre ++ s ++ post).dropWhile isWs = s ++ post := by
      rw [List.append_assoc, List.dropWhile_append_of_pos hpre]
      cases s with
      | nil => exact absurd rfl hsne
      | cons a as => simp [hsw a (by simp)]
    rw [h1, List.takeWhile_append_of_pos (by intro c hc; simp [hsw c hc])]
    rcases hpost with rfl | ⟨c, cs, rfl, hc⟩
    · simp
    · simp [hc]
  unfold GType.parse
  rw [htok, hs]
  cases t <;> decide

example : sameUpToCase ['B', 'o', 'X'] GType.box.name ∧ isWs ' ' = true := by
  constructor
  · unfold sameUpToCase; decide
  · decide

/-- C59: a text whose first token is not one of the six names, up to ASCII case, is rejected. -/
theorem C59_geometry_name_rejects (s : List Char) :
    GType.parse s = none ↔ ∀ n ∈ geometryNames, ¬ sameUpToCase (token s) n.toList := by
  have key : ∀ (l : List Char), gtypeTable.lookup l = none ↔
      ∀ n ∈ geometryNames, l ≠ (n.toList).map Char.toLower := by
    intro l
    simp [gtypeTable, geometryNames, List.lookup_eq_none_iff]
    tauto
  unfold GType.parse sameUpToCase
  exact key _

/-- C59: printing distinguishes types. -/
theorem C59_geometry_name_injective (a b : GType) (h : a.name = b.name) : a = b := by
  cases a <;> cases b <;> first | rfl | (exact absurd h (by decide))

end SpatialDyn
