import Verif.Lemmas.Accept
import Verif.Props.Document

/-! Property C77: documents are refused or read as they are written. -/

namespace SpatialDyn

variable {E : Ext} {C : Codec} {F : Fmt} {dec : Doc → Out (Tag × RB)} {d : Doc} {n0 m : Named}

/-- Reading the top-level entries: everything before the list of bodies. -/
theorem decBody_inv (hF : F.Strict C) (h : decBody F dec d n0 = .ok m) :
    ∃ n1 : Named, n1.body.rbs = n0.body.rbs ∧ n1.tags = n0.tags ∧
      Says d.entries .name (fun x s => x = .str s) n0.name n1.name ∧
      Says d.entries .T_base_to_world (fun x T => C.decIso x = .ok T) n0.body.T0 n1.body.T0 ∧
      Says d.entries .inertia_base (InertiaSays C) n0.body.inertiaBase n1.body.inertiaBase ∧
      (C.Rigid → (∀ g ∈ n0.graphics, g.T.Valid) → ∀ g ∈ n1.graphics, g.T.Valid) ∧
      (C.Rigid → Reach E n0.body false → Reach E n1.body false) ∧
      ((Doc.find .rigid_bodies d.entries = none ∧ m = n1) ∨
        ∃ v l, Doc.find .rigid_bodies d.entries = some v ∧ F.items v = .ok l ∧
          decBodies dec l n1 = .ok m) := by
  unfold decBody at h
  obtain ⟨x1, h1, h⟩ := Body.Out.bind_ok h
  obtain ⟨x2, h2, h⟩ := Body.Out.bind_ok h
  obtain ⟨x3, h3, h⟩ := Body.Out.bind_ok h
  obtain ⟨x4, h4, h5⟩ := Body.Out.bind_ok h
  have s1 := hF.says h1 (fun x s => x = .str s) (fun v a e => hF.str e) (fun x => x.name)
    fun a e => by cases e; rfl
  have c1 : x1.body = n0.body ∧ x1.tags = n0.tags ∧ x1.graphics = n0.graphics := by
    rcases hF.opt h1 with ⟨-, rfl⟩ | ⟨v, a, -, -, h⟩
    · exact ⟨rfl, rfl, rfl⟩
    · cases h; exact ⟨rfl, rfl, rfl⟩
  have c2 : x2.body = x1.body ∧ x2.tags = x1.tags ∧ x2.name = x1.name ∧
      (C.Rigid → (∀ g ∈ x1.graphics, g.T.Valid) → ∀ g ∈ x2.graphics, g.T.Valid) := by
    rcases hF.opt h2 with ⟨-, rfl⟩ | ⟨v, a, -, h', h⟩
    · exact ⟨rfl, rfl, rfl, fun _ h => h⟩
    · cases h
      exact ⟨rfl, rfl, rfl, fun hR _ => decodeVec_inv (P := fun g => g.T.Valid)
        (fun d g hg => decGraphics_inv hF hR hg) h'⟩
  have s3 := hF.says h3 (fun x T => C.decIso x = .ok T) (fun v a e => by rwa [hF.codec] at e)
    (fun x => x.body.T0) fun a e => by cases e; rfl
  have c3 : x3.body.rbs = x2.body.rbs ∧ x3.tags = x2.tags ∧ x3.name = x2.name ∧
      x3.graphics = x2.graphics ∧ x3.body.inertiaBase = x2.body.inertiaBase ∧
      (C.Rigid → Reach E x2.body false → Reach E x3.body false) := by
    rcases hF.opt h3 with ⟨-, rfl⟩ | ⟨v, a, -, h', h⟩
    · exact ⟨rfl, rfl, rfl, rfl, rfl, fun _ h => h⟩
    · cases h
      rw [hF.codec] at h'
      refine ⟨rfl, rfl, rfl, rfl, rfl, fun hR hr => ?_⟩
      have := hr.step (b' := x2.body.setBase a) (.setBase a) ⟨hR _ _ h', rfl⟩ rfl
      simpa [Op.dirty, Body.setBase] using this
  have inv4 : ∀ {x y : Named} {I : Inertia}, I.Icom.IsSymm →
      (x.body.setInertiaBase I).map (fun b => { x with body := b }) = .ok y →
      ¬ I.mass < 0 ∧ y = { x with body := { x.body with inertiaBase := I } } := by
    intro x y I hI h
    classical
    unfold Body.setInertiaBase at h
    split at h
    · cases h
    · next hn =>
      cases h
      exact ⟨hn, by rw [C05_flat_round_trip _ hI]⟩
  have s4 : Says d.entries .inertia_base (InertiaSays C) x3.body.inertiaBase
      x4.body.inertiaBase := by
    unfold Says
    rcases hF.opt h4 with ⟨e, rfl⟩ | ⟨v, a, e, h', h⟩
    · rw [e]
    · rw [e]
      obtain ⟨i1, i2⟩ := decInertia_inv hF h'
      rw [(inv4 i2 h).2]
      exact i1
  have c4 : x4.body.rbs = x3.body.rbs ∧ x4.tags = x3.tags ∧ x4.name = x3.name ∧
      x4.graphics = x3.graphics ∧ x4.body.T0 = x3.body.T0 ∧
      (Reach E x3.body false → Reach E x4.body false) := by
    rcases hF.opt h4 with ⟨-, rfl⟩ | ⟨v, a, -, h', h⟩
    · exact ⟨rfl, rfl, rfl, rfl, rfl, fun h => h⟩
    · have i2 := (decInertia_inv hF h').2
      obtain ⟨hm, rfl⟩ := inv4 i2 h
      refine ⟨rfl, rfl, rfl, rfl, rfl, fun hr => ?_⟩
      have := hr.step (b' := { x3.body with inertiaBase := a }) (.setInertiaBase a) trivial
        (by simp [Op.exec, Op.step, Body.setInertiaBase, hm, C05_flat_round_trip _ i2])
      simpa [Op.dirty] using this
  obtain ⟨a1, a2, a3⟩ := c1
  obtain ⟨b1, b2, b3, b4⟩ := c2
  obtain ⟨d1, d2, d3, d4, d5, d6⟩ := c3
  obtain ⟨e1, e2, e3, e4, e5, e6⟩ := c4
  refine ⟨x4, by rw [e1, d1, b1, a1], by rw [e2, d2, b2, a2], ?_, ?_, ?_, ?_, ?_, ?_⟩
  · rw [e3, d3, b3]; exact s1
  · rw [e5, ← a1, ← b1]; exact s3
  · rw [← a1, ← b1, ← d5]; exact s4
  · intro hR hg
    rw [e4, d4]
    exact b4 hR (by rw [a3]; exact hg)
  · intro hR hr
    exact e6 (d6 hR (by rw [b1, a1]; exact hr))
  · rcases hF.opt h5 with ⟨h, e⟩ | ⟨v, l, h, h', h''⟩
    · exact .inl ⟨h, e⟩
    · exact .inr ⟨v, l, h, h', h''⟩

theorem place_mem : ∀ {l : List RB} {k : ℕ} {rb : RB}, rb ∈ place k l →
    ∃ x ∈ l, ∃ i : ℤ, rb = { x with id := i }
  | [], _, _, h => by cases h
  | x :: l, k, rb, h => by
    rcases List.mem_cons.1 h with rfl | h
    · exact ⟨x, List.mem_cons_self .., _, rfl⟩
    · obtain ⟨y, hy, i, e⟩ := place_mem h
      exact ⟨y, List.mem_cons_of_mem _ hy, i, e⟩

theorem forall₂_mem_right {α β : Type*} {R : α → β → Prop} {l : List α} {r : List β}
    (h : List.Forall₂ R l r) {b : β} (hb : b ∈ r) : ∃ a ∈ l, R a b := by
  induction h with
  | nil => cases hb
  | cons h1 _ ih =>
    rcases List.mem_cons.1 hb with rfl | hb
    · exact ⟨_, List.mem_cons_self .., h1⟩
    · obtain ⟨a, ha, hr⟩ := ih hb
      exact ⟨a, List.mem_cons_of_mem _ ha, hr⟩

theorem ordered_get : ∀ {l : List RB} {k : ℕ}, Ordered k l → ∀ i (h : i < l.length),
    -1 ≤ l[i].idParent ∧ l[i].idParent < (k + i : ℕ)
  | [], _, _, _, h => by simp at h
  | x :: l, k, ho, 0, _ => ⟨ho.1, ho.2.1⟩
  | x :: l, k, ho, i + 1, h => by
    have := ordered_get ho.2.2 i (by simpa using h)
    rw [show k + 1 + i = k + (i + 1) by omega] at this
    exact this

/-- What was read is a body as the interface builds it. -/
theorem decBody_proper (hF : F.Strict C) (hd : ∀ {d x}, dec d = .ok x → Accepted C d x)
    (hR : C.Rigid) (h0 : Reach E n0.body false) (hp : n0.Proper) (h : decBody F dec d n0 = .ok m) :
    m.Proper ∧ Reach E m.body false := by
  obtain ⟨n1, a1, a2, -, -, -, a3, a4, a5⟩ := decBody_inv (E := E) hF h
  have hp1 : n1.Proper := by
    obtain ⟨p1, p2, p3, p4, p5, p6⟩ := hp
    refine ⟨?_, ?_, ?_, ?_, a3 hR p5, ?_⟩
    · rw [a2, p1]; unfold Body.dof; rw [a1]
    · rw [a1]; exact p2
    · rw [a1]; exact p3
    · rw [a1]; exact p4
    · rw [a2]; exact p6
  have hr1 := a4 hR h0
  rcases a5 with ⟨-, rfl⟩ | ⟨v, l, -, -, hb⟩
  · exact ⟨hp1, hr1⟩
  · obtain ⟨xs, x1, x2, r⟩ := decBodies_inv hb
    have hx : ∀ x ∈ xs, ∃ e, Accepted C e x := fun x hx => by
      obtain ⟨e, -, he⟩ := forall₂_mem_right x1 hx
      exact ⟨e, hd he⟩
    have hrb : ∀ rb ∈ m.body.rbs, rb ∈ n1.body.rbs ∨ ∃ x ∈ xs, ∃ i : ℤ, rb = { x.2 with id := i } := by
      intro rb hm
      rw [r.rbs] at hm
      rcases List.mem_append.1 hm with hm | hm
      · exact .inl hm
      · obtain ⟨y, hy, i, e⟩ := place_mem hm
        obtain ⟨x, hx', rfl⟩ := List.mem_map.1 hy
        exact .inr ⟨x, hx', i, e⟩
    refine ⟨⟨?_, ?_, ?_, ?_, ?_, ?_⟩, r.reach hr1 fun x h => ?_⟩
    · rw [r.tags]
      unfold Body.dof
      rw [r.rbs]
      have := hp1.tags
      unfold Body.dof at this
      simp [this]
    · intro rb hm
      rcases hrb rb hm with h | ⟨x, h, i, rfl⟩
      · exact hp1.joint rb h
      · obtain ⟨e, he⟩ := hx x h
        exact he.made
    · intro rb hm
      rcases hrb rb hm with h | ⟨x, h, i, rfl⟩
      · exact hp1.mass rb h
      · obtain ⟨e, he⟩ := hx x h
        exact he.mass
    · intro rb hm
      rcases hrb rb hm with h | ⟨x, h, i, rfl⟩
      · exact hp1.symm rb h
      · obtain ⟨e, he⟩ := hx x h
        exact he.symm
    · rw [r.graphics]; exact hp1.graphics
    · intro t ht
      rw [r.tags] at ht
      rcases List.mem_append.1 ht with ht | ht
      · exact hp1.tagGraphics t ht
      · obtain ⟨x, h, rfl⟩ := List.mem_map.1 ht
        obtain ⟨e, he⟩ := hx x h
        exact he.graphics hR
    · obtain ⟨e, he⟩ := hx x h
      exact he.rigid hR

/-- The bodies that were read say what the elements of the list say, in order. -/
theorem decBody_content (hF : F.Strict C) (ht : n0.tags.length = n0.body.dof)
    (h : decBody F dec d n0 = .ok m) {es : List Doc}
    (hl : Doc.find .rigid_bodies d.entries = some (.arr es)) :
    m.body.dof = n0.body.dof + es.length ∧
      Says d.entries .name (fun x s => x = .str s) n0.name m.name ∧
      Says d.entries .T_base_to_world (fun x T => C.decIso x = .ok T) n0.body.T0 m.body.T0 ∧
      Says d.entries .inertia_base (InertiaSays C) n0.body.inertiaBase m.body.inertiaBase ∧
      ∀ i (hi : i < es.length), ∃ x, dec es[i] = .ok x ∧ m.tags.getD (n0.body.dof + i) {} = x.1 ∧
        -1 ≤ x.2.idParent ∧ x.2.idParent < (n0.body.dof + i : ℕ) ∧
        ∃ j : ℤ, m.body.rb (n0.body.dof + i) = { x.2 with id := j } := by
  obtain ⟨n1, a1, a2, s1, s2, s3, -, -, a5⟩ := decBody_inv (E := ext0) hF h
  have ed : n1.body.dof = n0.body.dof := by unfold Body.dof; rw [a1]
  rcases a5 with ⟨e, -⟩ | ⟨v, l, e, hi, hb⟩
  · rw [hl] at e; cases e
  rw [hl] at e
  cases e
  cases hF.items hi
  obtain ⟨xs, x1, x2, r⟩ := decBodies_inv hb
  have el : xs.length = es.length := x1.length_eq.symm
  refine ⟨?_, by rw [r.name]; exact s1, by rw [r.T0]; exact s2, by rw [r.inertiaBase]; exact s3,
    fun i hi => ?_⟩
  · rw [← ed]
    unfold Body.dof
    rw [r.rbs]
    simp [el]
  have hi' : i < xs.length := by rw [el]; exact hi
  refine ⟨xs[i], x1.get hi hi', ?_, ?_, ?_, ?_⟩
  · rw [r.tags, a2, List.getD_eq_getElem?_getD, List.getElem?_append_right (by omega)]
    simp [ht, hi']
  · have := ordered_get x2 i (by simpa using hi')
    simpa using this.1
  · have := ordered_get x2 i (by simpa using hi')
    rw [ed] at this
    simpa using this.2
  · obtain ⟨j, hj⟩ := place_get (xs.map Prod.snd) n1.body.dof i (by simpa using hi')
    refine ⟨j, ?_⟩
    have e2 : (xs.map Prod.snd).getD i {} = xs[i].2 := by simp [hi']
    rw [e2] at hj
    rw [← hj, ← ed]
    unfold Body.rb
    rw [r.rbs, List.getD_eq_getElem?_getD, List.getElem?_append_right (by simp [Body.dof])]
    simp [Body.dof]

/-! ## C77 -/

/-- C77: whatever JSON document is read into a body, if it is not refused the result is a body as the
interface builds it: reachable by calls, parents before children, joints with ordered limits, masses
not negative, inertia tensors symmetric. -/
theorem C77_json_proper (hR : C.Rigid) (h0 : Reach E n0.body false) (hp : n0.Proper)
    (h : fromJson C d n0 = .ok m) : m.Proper ∧ Reach E m.body false :=
  decBody_proper (jsonFmt_strict C) (fun e => (jsonRigidBody_inv e).1) hR h0 hp h

/-- C77: the same for YAML. -/
theorem C77_yaml_proper (hR : C.Rigid) (h0 : Reach E n0.body false) (hp : n0.Proper)
    (h : fromYaml C d n0 = .ok m) : m.Proper ∧ Reach E m.body false :=
  decBody_proper (yamlFmt_strict C) (fun e => (yamlRigidBody_inv e).1) hR h0 hp h

/-- C77: what was read from JSON is what the document says, one body per element, in order, with the
parents of the document, and defaults for what it leaves out. -/
theorem C77_json_content (ht : n0.tags.length = n0.body.dof) (h : fromJson C d n0 = .ok m)
    {es : List Doc} (hl : Doc.find .rigid_bodies d.entries = some (.arr es)) :
    m.body.dof = n0.body.dof + es.length ∧
      Says d.entries .name (fun x s => x = .str s) n0.name m.name ∧
      Says d.entries .T_base_to_world (fun x T => C.decIso x = .ok T) n0.body.T0 m.body.T0 ∧
      Says d.entries .inertia_base (InertiaSays C) n0.body.inertiaBase m.body.inertiaBase ∧
      ∀ i (hi : i < es.length),
        BodySays C es[i] (m.tags.getD (n0.body.dof + i) {}) (m.body.rb (n0.body.dof + i)) ∧
        ∀ p, Doc.find .id_parent es[i].entries = some (.int p) →
          (m.body.rb (n0.body.dof + i)).idParent = p := by
  obtain ⟨c1, c2, c3, c4, c5⟩ := decBody_content (jsonFmt_strict C) ht h hl
  refine ⟨c1, c2, c3, c4, fun i hi => ?_⟩
  obtain ⟨x, hx, e1, -, -, j, e2⟩ := c5 i hi
  obtain ⟨a, ap⟩ := jsonRigidBody_inv hx
  rw [e1, e2]
  exact ⟨⟨a.body.name, a.body.T, a.body.inertia, a.body.joint⟩, fun p hp => ap _ p hp rfl⟩

/-- C77: what was read from YAML is what the document says, except for the parents. -/
theorem C77_yaml_content (ht : n0.tags.length = n0.body.dof) (h : fromYaml C d n0 = .ok m)
    {es : List Doc} (hl : Doc.find .rigid_bodies d.entries = some (.arr es)) :
    m.body.dof = n0.body.dof + es.length ∧
      Says d.entries .name (fun x s => x = .str s) n0.name m.name ∧
      Says d.entries .T_base_to_world (fun x T => C.decIso x = .ok T) n0.body.T0 m.body.T0 ∧
      Says d.entries .inertia_base (InertiaSays C) n0.body.inertiaBase m.body.inertiaBase ∧
      ∀ i (hi : i < es.length),
        BodySays C es[i] (m.tags.getD (n0.body.dof + i) {}) (m.body.rb (n0.body.dof + i)) := by
  obtain ⟨c1, c2, c3, c4, c5⟩ := decBody_content (yamlFmt_strict C) ht h hl
  refine ⟨c1, c2, c3, c4, fun i hi => ?_⟩
  obtain ⟨x, hx, e1, -, -, j, e2⟩ := c5 i hi
  obtain ⟨a, -⟩ := yamlRigidBody_inv hx
  rw [e1, e2]
  exact ⟨a.body.name, a.body.T, a.body.inertia, a.body.joint⟩

/-- An element of the list of rigid bodies that no body can be read from: the type of the joint is
missing or unknown, the mass is negative, or the limits are the wrong way round. -/
inductive Malformed (e : Doc) : Prop
  | type {v} (h : Doc.find .joint e.entries = some v)
      (ht : ∀ s, Doc.find .type v.entries = some (.str s) → JType.parse s = none)
  | mass {v x} (h : Doc.find .inertia e.entries = some v)
      (hm : Doc.find .mass v.entries = some (.num (.fin x))) (hx : x < 0)
  | limits {v lo hi} (h : Doc.find .joint e.entries = some v)
      (h1 : Doc.find .q_min v.entries = some (.num lo))
      (h2 : Doc.find .q_max v.entries = some (.num hi)) (hx : hi.Lt lo)
  | bound {v k x} (hk : k ∈ [Key.dq_max, .fq_max, .f_coulomb, .f_viscous, .f_stiction])
      (h : Doc.find .joint e.entries = some v) (h1 : Doc.find k v.entries = some (.num x))
      (hx : x.Lt (.fin 0))

theorem isNum_num {x y : Dbl} (h : (Doc.num x).IsNum y) : y = x := by
  rcases h with h | ⟨i, h, -⟩
  · cases h; rfl
  · cases h

theorem Accepted.not_malformed {e : Doc} {x : Tag × RB} (h : Accepted C e x) : ¬ Malformed e := by
  intro hm
  obtain ⟨hb, -, -, h1, -, h2⟩ := h
  cases hm with
  | type hj ht =>
    have := hb.joint
    unfold Says at this
    rw [hj] at this
    obtain ⟨s, e1, e2⟩ := this.type
    rw [ht s e1] at e2
    cases e2
  | mass hI hm hx =>
    have := hb.inertia
    unfold Says at this
    rw [hI] at this
    obtain ⟨y, e1, e2⟩ := this.mass
    rw [hm] at e1
    cases e1
    have := isNum_num e2
    cases this
    exact absurd hx (not_lt.2 h1)
  | limits hj ha hb' hx =>
    have := hb.joint
    unfold Says at this
    rw [hj] at this
    have e1 := this.qMin
    have e2 := this.qMax
    unfold Says at e1 e2
    rw [ha] at e1
    rw [hb'] at e2
    rw [← isNum_num e1, ← isNum_num e2] at hx
    exact h2.limits hx
  | bound hk hj ha hx =>
    have := hb.joint
    unfold Says at this
    rw [hj] at this
    simp only [List.mem_cons, List.not_mem_nil, or_false] at hk
    rcases hk with rfl | rfl | rfl | rfl | rfl
    · have e := this.dqMax
      unfold Says at e
      rw [ha] at e
      rw [← isNum_num e] at hx
      exact h2.dqMax hx
    · have e := this.fqMax
      unfold Says at e
      rw [ha] at e
      rw [← isNum_num e] at hx
      exact h2.fqMax hx
    · have e := this.coulomb
      unfold Says at e
      rw [ha] at e
      rw [← isNum_num e] at hx
      exact h2.coulomb hx
    · have e := this.viscous
      unfold Says at e
      rw [ha] at e
      rw [← isNum_num e] at hx
      exact h2.viscous hx
    · have e := this.stiction
      unfold Says at e
      rw [ha] at e
      rw [← isNum_num e] at hx
      exact h2.stiction hx

/-- C77: a document with a malformed rigid body is never accepted, in either format. -/
theorem C77_malformed_refused {es : List Doc}
    (hl : Doc.find .rigid_bodies d.entries = some (.arr es)) {e : Doc} (he : e ∈ es)
    (hm : Malformed e) (n0 m : Named) : fromJson C d n0 ≠ .ok m ∧ fromYaml C d n0 ≠ .ok m := by
  constructor
  · intro h
    obtain ⟨n1, -, -, -, -, -, -, -, a5⟩ := decBody_inv (E := ext0) (jsonFmt_strict C) h
    rcases a5 with ⟨e, -⟩ | ⟨v, l, e, hi, hb⟩
    · rw [hl] at e; cases e
    rw [hl] at e
    cases e
    cases (jsonFmt_strict C).items hi
    obtain ⟨xs, x1, -⟩ := decBodies_inv hb
    obtain ⟨x, -, hx⟩ := forall₂_mem_right x1.flip he
    exact (jsonRigidBody_inv hx).1.not_malformed hm
  · intro h
    obtain ⟨n1, -, -, -, -, -, -, -, a5⟩ := decBody_inv (E := ext0) (yamlFmt_strict C) h
    rcases a5 with ⟨e, -⟩ | ⟨v, l, e, hi, hb⟩
    · rw [hl] at e; cases e
    rw [hl] at e
    cases e
    cases (yamlFmt_strict C).items hi
    obtain ⟨xs, x1, -⟩ := decBodies_inv hb
    obtain ⟨x, -, hx⟩ := forall₂_mem_right x1.flip he
    exact (yamlRigidBody_inv hx).1.not_malformed hm

/-- C77: a JSON document in which a body names a parent that does not come before it is never
accepted. -/
theorem C77_parent_refused {es : List Doc}
    (hl : Doc.find .rigid_bodies d.entries = some (.arr es)) {i : ℕ} (hi : i < es.length) {p : ℤ}
    (hp : Doc.find .id_parent es[i].entries = some (.int p))
    (hbad : p < -1 ∨ (n0.body.dof + i : ℕ) ≤ p) (ht : n0.tags.length = n0.body.dof) (m : Named) :
    fromJson C d n0 ≠ .ok m := by
  intro h
  obtain ⟨-, -, -, -, c5⟩ := decBody_content (jsonFmt_strict C) ht h hl
  obtain ⟨x, hx, -, e1, e2, -⟩ := c5 i hi
  have := (jsonRigidBody_inv hx).2 _ p hp rfl
  omega

/-! ## Witnesses -/

open Classical in
/-- Flat lists of numbers, transforms that are not rigid refused. -/
noncomputable def codec1 : Codec :=
  { codec0 with decIso := fun d => (codec0.decIso d).bind fun T => if T.Valid then .ok T else .throws }

theorem codec1_rigid : codec1.Rigid := by
  intro d T h
  obtain ⟨T', -, h⟩ := Body.Out.bind_ok h
  split at h
  · next hv => cases h; exact hv
  · cases h

open Classical in
theorem codec1_faithful : codec1.Faithful := by
  refine ⟨fun _ => rfl, fun _ => rfl, fun _ => rfl, fun T hT => ?_⟩
  have e : codec1.decIso (codec1.encIso T) =
      (codec0.decIso (codec0.encIso T)).bind fun T => if T.Valid then .ok T else .throws := rfl
  rw [e, codec0_faithful.iso T hT]
  simp [Out.bind, hT]

theorem named_init_proper (c : Cache) : (Named.init c).Proper := by
  constructor <;> simp [Named.init, Body.init, Body.dof]

/-- The document of the witness arm is accepted, by JSON and YAML. -/
example : ∃ d es, Doc.find .rigid_bodies d.entries = some (.arr es) ∧ es.length = 3 ∧
    (∃ m, fromJson codec1 d (Named.init cache0) = .ok m) ∧
    (∃ m, fromYaml codec1 d (Named.init cache0) = .ok m) ∧ codec1.Rigid ∧
    Reach ext0 (Named.init cache0).body false ∧ (Named.init cache0).Proper := by
  obtain ⟨d, h⟩ : ∃ d, Reach ext0 demoNamed.body d := Body.demo_reach ext0
  obtain ⟨m, h1, -⟩ := C44_round_trip codec1_faithful h demoNamed_proper cache0
  obtain ⟨m', h2, -⟩ := C45_reads_flat codec1_faithful h demoNamed_proper cache0
  refine ⟨encBody codec1 demoNamed,
    List.zipWith (encRigidBody codec1) demoNamed.tags demoNamed.body.rbs, ?_, ?_, ⟨m, h1⟩, ⟨m', h2⟩, codec1_rigid, .init cache0,
    named_init_proper cache0⟩
  · simp [encBody_eq, Doc.entries, Doc.find]
  · rfl

/-- Malformed elements: a joint of an unknown type, and a negative mass. -/
example : Malformed (.obj [(.joint, .obj [(.type, .str ['q'])])]) ∧
    Malformed (.obj [(.inertia, .obj [(.mass, .num (.fin (-1)))])]) := by
  refine ⟨.type (v := .obj [(.type, .str ['q'])]) rfl fun s hs => ?_,
    .mass (v := .obj [(.mass, .num (.fin (-1)))]) (x := -1) rfl rfl (by norm_num)⟩
  simp only [Doc.entries, Doc.find, if_true, Option.some.injEq, Doc.str.injEq] at hs
  subst hs
  decide

end SpatialDyn
