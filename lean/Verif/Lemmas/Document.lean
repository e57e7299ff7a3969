import Verif.Spec.Document
import Verif.Lemmas.Rebuild
import Verif.Props.Joint

/-! Reading back what was written. -/

namespace SpatialDyn

/-- What the two libraries have in common. -/
structure Fmt.Plain (F : Fmt) (C : Codec) : Prop where
  codec : F.codec = C
  get : ∀ l k, F.get (.obj l) k = .ok (Doc.find k l)
  str : ∀ s, F.str (.str s) = .ok s
  dbl : ∀ x, F.dbl (.num x) = .ok x
  int : ∀ i, F.int (.int i) = .ok i
  items : ∀ l, F.items (.arr l) = .ok l

theorem jsonFmt_plain (C : Codec) : (jsonFmt C).Plain C :=
  ⟨rfl, fun _ _ => rfl, fun _ => rfl, fun _ => rfl, fun _ => rfl, fun _ => rfl⟩

theorem yamlFmt_plain (C : Codec) : (yamlFmt C).Plain C :=
  ⟨rfl, fun _ _ => rfl, fun _ => rfl, fun _ => rfl, fun _ => rfl, fun _ => rfl⟩

theorem JType.parse_name (t : JType) : JType.parse t.name = some t := by cases t <;> decide
theorem GType.parse_name (t : GType) : GType.parse t.name = some t := by cases t <;> decide

/-! ## Joints -/

theorem Joint.Made.default : ({} : Joint).Made := by
  constructor <;> simp [JType.subspace, Dbl.Lt]

theorem Joint.Made.step {j : Joint} (h : j.Made) (o : Joint.Op) : (j.step o).joint.Made := by
  obtain ⟨h1, h2, h3, h4, h5, h6, h7⟩ := h
  cases o <;> simp only [Joint.step, Joint.setType, Joint.setQMin, Joint.setQMax, Joint.setQLimits,
    Joint.setDqMax, Joint.setFqMax, Joint.setFCoulomb, Joint.setFViscous, Joint.setFStiction] <;>
    first
    | exact ⟨rfl, h2, h3, h4, h5, h6, h7⟩
    | (split
       · exact ⟨h1, h2, h3, h4, h5, h6, h7⟩
       · constructor <;> assumption)

theorem Joint.Made.run (ops : List Joint.Op) : (({} : Joint).run ops).Made := by
  have : ∀ (ops : List Joint.Op) (j : Joint), j.Made → (j.run ops).Made := by
    intro ops
    induction ops with
    | nil => intro j h; exact h
    | cons o os ih => intro j h; exact ih _ (h.step o)
  exact this ops _ .default

section
variable {F : Fmt} {C : Codec}

theorem decJType_ok (hF : F.Plain C) (t : JType) : decJType F (.str t.name) = .ok t := by
  simp [decJType, hF.str, Out.bind, JType.parse_name]

theorem decGType_ok (hF : F.Plain C) (t : GType) : decGType F (.str t.name) = .ok t := by
  simp [decGType, hF.str, Out.bind, GType.parse_name]

theorem encJoint_eq (j : Joint) : encJoint j = .obj
    [(.f_stiction, .num j.fStiction), (.f_viscous, .num j.fViscous), (.f_coulomb, .num j.fCoulomb),
     (.fq_max, .num j.fqMax), (.dq_max, .num j.dqMax), (.q_max, .num j.qMax), (.q_min, .num j.qMin),
     (.type, .str j.type.name)] := by
  simp [encJoint, Doc.put]

theorem decJoint_ok (hF : F.Plain C) {j : Joint} (h : j.Made) : decJoint F (encJoint j) = .ok j := by
  have hp : ¬ Dbl.pinf.Lt j.qMin := by cases j.qMin <;> simp [Dbl.Lt]
  rw [encJoint_eq]
  simp only [decJoint, Fmt.req, Fmt.opt, hF.get, Doc.find, Out.bind, reduceCtorEq, if_false, if_true,
    decJType_ok hF, hF.dbl, Joint.setType, Joint.setQMin, Joint.setQMax, Joint.setDqMax,
    Joint.setFqMax, Joint.setFCoulomb, Joint.setFViscous, Joint.setFStiction, Joint.Res.out, hp,
    h.limits, h.dqMax, h.fqMax, h.coulomb, h.viscous, h.stiction, Bool.false_eq_true]
  rw [← h.subspace]

/-! ## Inertias -/

theorem encInertia_eq (I : Inertia) : encInertia C I = .obj
    [(.I_com_flat, C.encVec6 I.flat), (.com, C.encVec3 I.com), (.mass, .num (.fin I.mass))] := by
  simp [encInertia, Doc.put]

theorem decInertia_ok (hF : F.Plain C) (hC : C.Faithful) {I : Inertia} (h : I.Icom.IsSymm) :
    decInertia F (encInertia C I) = .ok I := by
  rw [encInertia_eq]
  simp only [decInertia, Fmt.req, Fmt.real, hF.get, Doc.find, Out.bind, reduceCtorEq, if_false,
    if_true, hF.dbl, hF.codec, hC.vec3, hC.vec6]
  rw [C05_flat_round_trip I h]

/-! ## Graphics -/

/-- The measures that mean nothing for the type are those of a new geometry. -/
def Geometry.canon (g : Geometry) : Geometry :=
  match g.type with
  | .undefined => { type := .undefined }
  | .box => { type := .box, scale := g.scale }
  | .capsule => { type := .capsule, radius := g.radius, length := g.length }
  | .cylinder => { type := .cylinder, radius := g.radius, length := g.length }
  | .sphere => { type := .sphere, radius := g.radius }
  | .mesh => { type := .mesh, scale := g.scale, mesh := g.mesh }

theorem Geometry.canon_alike (g : Geometry) : g.Alike g.canon := by
  obtain ⟨t, s, r, l, m⟩ := g
  cases t <;> constructor <;> simp [Geometry.canon]

/-- `Geometry.canon` on the geometry. -/
def Graphics.canon (g : Graphics) : Graphics := { g with geometry := g.geometry.canon }

theorem Graphics.canon_alike (g : Graphics) : g.Alike g.canon :=
  ⟨rfl, rfl, g.geometry.canon_alike, rfl⟩

/-- `Graphics.canon` on all graphics. -/
def Tag.canon (t : Tag) : Tag := { t with graphics := t.graphics.map Graphics.canon }

theorem forall₂_map_right {α : Type*} {R : α → α → Prop} {f : α → α} (h : ∀ a, R a (f a)) :
    ∀ l : List α, List.Forall₂ R l (l.map f)
  | [] => .nil
  | a :: l => .cons (h a) (forall₂_map_right h l)

theorem Tag.canon_alike (t : Tag) : t.Alike t.canon :=
  ⟨rfl, forall₂_map_right Graphics.canon_alike _⟩

theorem decGeometry_ok (hF : F.Plain C) (hC : C.Faithful) (g : Geometry) :
    decGeometry F (encGeometry C g) = .ok g.canon := by
  obtain ⟨t, s, r, l, m⟩ := g
  cases t <;> simp [encGeometry, Doc.put, decGeometry, Fmt.req, Fmt.opt, Fmt.real, hF.get, Doc.find,
    Out.bind, hF.dbl, hF.str, hF.codec, hC.vec3, decGType_ok hF, Geometry.canon]

theorem decMaterial_ok (hF : F.Plain C) (hC : C.Faithful) (m : Material) :
    decMaterial F (encMaterial C m) = .ok m := by
  simp [encMaterial, Doc.put, decMaterial, Fmt.opt, hF.get, Doc.find, Out.bind, hF.str, hF.codec,
    hC.vec4]

theorem decGraphics_ok (hF : F.Plain C) (hC : C.Faithful) {g : Graphics} (h : g.T.Valid) :
    decGraphics F (encGraphics C g) = .ok g.canon := by
  simp [encGraphics, Doc.put, decGraphics, Fmt.opt, hF.get, Doc.find, Out.bind, hF.str, hF.codec,
    hC.iso _ h, decGeometry_ok hF hC, decMaterial_ok hF hC, Graphics.canon]

theorem decGraphicsList_ok (hF : F.Plain C) (hC : C.Faithful) : ∀ (l : List Graphics),
    (∀ g ∈ l, g.T.Valid) →
    decodeList (decGraphics F) (l.map (encGraphics C)) = .ok (l.map Graphics.canon)
  | [], _ => rfl
  | g :: l, h => by
    simp only [List.map_cons, decodeList, decGraphics_ok hF hC (h g (List.mem_cons_self ..)),
      decGraphicsList_ok hF hC l fun g hg => h g (List.mem_cons_of_mem _ hg), Out.bind]

/-! ## Rigid bodies -/

theorem encRigidBody_eq (t : Tag) (rb : RB) : encRigidBody C t rb = .obj
    [(.joint, encJoint rb.joint), (.inertia, encInertia C rb.inertia), (.T_to_parent, C.encIso rb.T),
     (.id_parent, .int rb.idParent), (.id, .int rb.id),
     (.graphics, .arr (t.graphics.map (encGraphics C))), (.name, .str t.name)] := by
  simp [encRigidBody, Doc.put]

/-- What the interface guarantees about a rigid body. -/
structure RB.Proper (rb : RB) : Prop where
  joint : rb.joint.Made
  mass : 0 ≤ rb.inertia.mass
  symm : rb.inertia.Icom.IsSymm
  rigid : rb.T.Valid

theorem decRigidBodyTag_ok (hF : F.Plain C) (hC : C.Faithful) (t : Tag) (rb : RB)
    (ht : ∀ g ∈ t.graphics, g.T.Valid) :
    decRigidBodyTag F (encRigidBody C t rb) = .ok (t.canon, {}) := by
  simp [encRigidBody_eq, decRigidBodyTag, Fmt.opt, hF.get, Doc.find, Out.bind, hF.str, decodeVec,
    decGraphicsList_ok hF hC _ ht, Tag.canon]

theorem decRigidBodyRest_ok (hF : F.Plain C) (hC : C.Faithful) (t u : Tag) {rb : RB} (h : rb.Proper)
    (i p : ℤ) :
    decRigidBodyRest F (encRigidBody C t rb) (u, { id := i, idParent := p }) =
      .ok (u, { rb with id := i, idParent := p }) := by
  have hm : ¬ rb.inertia.mass < 0 := not_lt.2 h.mass
  simp [encRigidBody_eq, decRigidBodyRest, Fmt.opt, hF.get, Doc.find, Out.bind, Out.map, hF.codec,
    hC.iso _ h.rigid, decInertia_ok hF hC h.symm, decJoint_ok hF h.joint, RB.setInertia, hm]

theorem jsonRigidBody_ok (hC : C.Faithful) (t : Tag) {rb : RB} (h : rb.Proper)
    (ht : ∀ g ∈ t.graphics, g.T.Valid) :
    jsonRigidBody C (encRigidBody C t rb) = .ok (t.canon, rb) := by
  have hF := jsonFmt_plain C
  unfold jsonRigidBody
  simp only [decRigidBodyTag_ok hF hC t rb ht, Out.bind]
  have := decRigidBodyRest_ok hF hC t t.canon h rb.id rb.idParent
  rw [encRigidBody_eq] at *
  simp only [Fmt.opt, hF.get, Doc.find, Out.bind, reduceCtorEq, if_false, if_true, hF.int]
  exact this

theorem yamlRigidBody_ok (hC : C.Faithful) (t : Tag) {rb : RB} (h : rb.Proper)
    (ht : ∀ g ∈ t.graphics, g.T.Valid) :
    yamlRigidBody C (encRigidBody C t rb) = .ok (t.canon, { rb with id := -1, idParent := -1 }) := by
  have hF := yamlFmt_plain C
  unfold yamlRigidBody
  simp only [decRigidBodyTag_ok hF hC t rb ht, Out.bind]
  exact decRigidBodyRest_ok hF hC t t.canon h (-1) (-1)

end

/-! ## The list of bodies -/

/-- The bodies with ids counted from `k`. -/
def place (k : ℕ) : List RB → List RB
  | [] => []
  | rb :: l => { rb with id := k } :: place (k + 1) l

@[simp] theorem place_length (k : ℕ) (l : List RB) : (place k l).length = l.length := by
  induction l generalizing k with
  | nil => rfl
  | cons a l ih => simp [place, ih]

/-- Parents come before their children, counted from `k`. -/
def Ordered (k : ℕ) : List RB → Prop
  | [] => True
  | rb :: l => -1 ≤ rb.idParent ∧ rb.idParent < k ∧ Ordered (k + 1) l

/-- What reading a list of bodies does to a named body. -/
structure Named.Read (n m : Named) (xs : List (Tag × RB)) : Prop where
  name : m.name = n.name
  graphics : m.graphics = n.graphics
  tags : m.tags = n.tags ++ xs.map Prod.fst
  rbs : m.body.rbs = n.body.rbs ++ place n.body.dof (xs.map Prod.snd)
  q : m.body.q = n.body.q ++ List.replicate xs.length 0
  dq : m.body.dq = n.body.dq ++ List.replicate xs.length 0
  g : m.body.g = n.body.g
  load : m.body.load = n.body.load
  T0 : m.body.T0 = n.body.T0
  inertiaBase : m.body.inertiaBase = n.body.inertiaBase
  reach : ∀ {E : Ext}, Reach E n.body false → (∀ x ∈ xs, x.2.T.Valid) → Reach E m.body false

theorem decBodies_ok {dec : Doc → Out (Tag × RB)} : ∀ {l : List Doc} {xs : List (Tag × RB)},
    List.Forall₂ (fun d x => dec d = .ok x) l xs → ∀ n : Named,
    Ordered n.body.dof (xs.map Prod.snd) → ∃ m, decBodies dec l n = .ok m ∧ n.Read m xs
  | _, _, .nil, n, _ => ⟨n, rfl, by constructor <;> simp [place]⟩
  | _, _, .cons (a := d) (b := x) (l₁ := l) (l₂ := xs) hd hl, n, ho => by
    obtain ⟨h1, h2, h3⟩ := ho
    have hadd : ∃ b, n.body.addRigidBody x.2 x.2.idParent = .ok (n.body.dof, b) := by
      unfold Body.addRigidBody
      simp only
      rw [if_neg (by simp only [Body.dof] at h2; omega)]
      exact ⟨_, rfl⟩
    obtain ⟨b, hb⟩ := hadd
    obtain ⟨-, -, -, e⟩ := Body.addRigidBody_ok hb
    have hdof : b.dof = n.body.dof + 1 := by rw [e]; simp [Body.dof]
    obtain ⟨m, hm, r⟩ := decBodies_ok hl { n with body := b, tags := n.tags ++ [x.1] }
      (by simp only [hdof]; exact h3)
    refine ⟨m, ?_, ?_⟩
    · simp only [decBodies, hd, Out.bind, Named.addRigidBody, hb, Out.map]
      exact hm
    · obtain ⟨r1, r2, r3, r4, r5, r6, r7, r8, r9, r10, r11⟩ := r
      simp only at r1 r2 r3 r4 r5 r6 r7 r8 r9 r10 r11
      refine ⟨r1, r2, by simp [r3], ?_, ?_, ?_, ?_, ?_, ?_, ?_, ?_⟩
      · rw [r4, hdof, e]; simp [place]
      · rw [r5, e]; simp [List.replicate_succ]
      · rw [r6, e]; simp [List.replicate_succ]
      · rw [r7, e]
      · rw [r8, e]
      · rw [r9, e]
      · rw [r10, e]
      · intro E hr hv
        refine r11 ?_ fun y hy => hv y (List.mem_cons_of_mem _ hy)
        have := hr.step (b' := b) (.addRigidBody x.2 x.2.idParent) (hv x (List.mem_cons_self ..))
          (by simp [Op.exec, Op.step, hb, Out.map, Out.bind])
        have ed : (Op.addRigidBody x.2 x.2.idParent).dirty n.body b false = false := by
          simp [Op.dirty]
        rwa [ed] at this

/-- A rejected element rejects the list, if the elements before it are read. -/
theorem decBodies_throws {dec : Doc → Out (Tag × RB)} : ∀ {l : List Doc} {xs : List (Tag × RB)},
    List.Forall₂ (fun d x => dec d = .ok x ∨ dec d = .throws) l xs → (∃ d ∈ l, dec d = .throws) →
    ∀ n : Named, Ordered n.body.dof (xs.map Prod.snd) → decBodies dec l n = .throws
  | _, _, .nil, h, _, _ => by simp at h
  | _, _, .cons (a := d) (b := x) (l₁ := l) (l₂ := xs) hd hl, h, n, ho => by
    rcases hd with hd | hd
    · obtain ⟨h1, h2, h3⟩ := ho
      have hadd : ∃ b, n.body.addRigidBody x.2 x.2.idParent = .ok (n.body.dof, b) := by
        unfold Body.addRigidBody
        simp only
        rw [if_neg (by simp only [Body.dof] at h2; omega)]
        exact ⟨_, rfl⟩
      obtain ⟨b, hb⟩ := hadd
      obtain ⟨-, -, -, e⟩ := Body.addRigidBody_ok hb
      have hdof : b.dof = n.body.dof + 1 := by rw [e]; simp [Body.dof]
      have h' : ∃ d ∈ l, dec d = .throws := by
        obtain ⟨d', hm, ht⟩ := h
        rcases List.mem_cons.1 hm with rfl | hm
        · rw [hd] at ht; cases ht
        · exact ⟨d', hm, ht⟩
      simp only [decBodies, hd, Out.bind, Named.addRigidBody, hb, Out.map]
      exact decBodies_throws hl h' { n with body := b, tags := n.tags ++ [x.1] }
        (by simp only [hdof]; exact h3)
    · simp only [decBodies, hd, Out.bind]

theorem ordered_of_get : ∀ (l : List RB) (k : ℕ),
    (∀ i (h : i < l.length), -1 ≤ l[i].idParent ∧ l[i].idParent < (k + i : ℕ)) → Ordered k l
  | [], _, _ => trivial
  | a :: l, k, h => by
    have h0 := h 0 (by simp)
    refine ⟨by simpa using h0.1, by simpa using h0.2, ordered_of_get l (k + 1) fun i hi => ?_⟩
    have := h (i + 1) (by simpa using hi)
    simp only [List.getElem_cons_succ] at this
    exact ⟨this.1, by rw [show k + 1 + i = k + (i + 1) by omega]; exact this.2⟩

theorem place_self : ∀ (l : List RB) (k : ℕ),
    (∀ i (h : i < l.length), l[i].id = (k + i : ℕ)) → place k l = l
  | [], _, _ => rfl
  | a :: l, k, h => by
    have h0 := h 0 (by simp)
    simp only [List.getElem_cons_zero, Nat.add_zero] at h0
    simp only [place]
    rw [← h0, place_self l (k + 1) fun i hi => ?_]
    have := h (i + 1) (by simpa using hi)
    simp only [List.getElem_cons_succ] at this
    rw [this]; congr 1; omega

theorem Body.rb_get {b : Body} {i : ℕ} (h : i < b.rbs.length) : b.rb i = b.rbs[i] := by
  simp [Body.rb, h]

theorem Body.Tree.ordered {b : Body} (h : b.Tree) (k : ℕ) : Ordered k b.rbs := by
  refine ordered_of_get _ _ fun i hi => ?_
  obtain ⟨-, h1, h2⟩ := h.ids i hi
  rw [Body.rb_get hi] at h1 h2
  exact ⟨h1, by push_cast; omega⟩

theorem Body.Tree.place {b : Body} (h : b.Tree) : place 0 b.rbs = b.rbs := by
  refine place_self _ _ fun i hi => ?_
  obtain ⟨h1, -, -⟩ := h.ids i hi
  rw [Body.rb_get hi] at h1
  rw [h1]; simp

/-! ## The base inertia of a reachable body -/

/-- Mass not negative, tensor symmetric. -/
def Inertia.Settable (I : Inertia) : Prop := 0 ≤ I.mass ∧ I.Icom.IsSymm

theorem Reach.base {E : Ext} {b : Body} {d : Bool} (h : Reach E b d) : b.inertiaBase.Settable := by
  induction h with
  | init c => exact ⟨by simp [Body.init], rfl⟩
  | @step b b' d op hr ho hs ih =>
    rcases Out.exec_cases hs with h1 | ⟨h1, rfl⟩
    · have ht := hr.inv.tree
      have key : ∀ {b' : Body}, Body.StateOnly b b' → b'.inertiaBase.Settable :=
        fun hk => hk.inertiaBase ▸ ih
      cases op with
      | addRigidBody rb p =>
        obtain ⟨⟨id, b1⟩, h2, rfl⟩ := Body.Out.map_ok h1
        obtain ⟨-, -, -, e⟩ := Body.addRigidBody_ok h2
        show b1.inertiaBase.Settable
        rw [e]; exact ih
      | setQ q => exact key (Body.setQ_stateOnly ht.lq h1)
      | setDq dq => exact key (Body.setDq_stateOnly ht.ldq h1)
      | setG g => cases h1; exact ih
      | addLoad I i => cases h1; exact ih
      | replaceLoad I i => cases h1; exact ih
      | clearLoad i => cases h1; exact ih
      | setBase T => cases h1; exact ih
      | setInertiaBase I =>
        change b.setInertiaBase I = .ok b' at h1
        unfold Body.setInertiaBase at h1
        split at h1
        · cases h1
        · next hm => cases h1; exact ⟨not_lt.1 hm, rfl⟩
      | query x =>
        obtain ⟨r, hr, rfl⟩ := Body.Out.map_ok h1
        exact key (x.run_same hr).stateOnly
      | integrate t dt f o => exact key (Body.integrate_stateOnly ht h1)
      | discreteIntegrate t dt f o => exact key (Body.discreteIntegrate_stateOnly ht h1)
    · exact ih

/-! ## The whole document -/

theorem encBody_eq (C : Codec) (n : Named) : encBody C n = .obj
    [(.rigid_bodies, .arr (List.zipWith (encRigidBody C) n.tags n.body.rbs)),
     (.inertia_base, encInertia C n.body.inertiaBase), (.T_base_to_world, C.encIso n.body.T0),
     (.graphics, .arr (n.graphics.map (encGraphics C))), (.name, .str n.name)] := by
  simp [encBody, Doc.put]

/-- The named body after the fields before `rigid_bodies` have been read. -/
def Named.header (n m : Named) : Named :=
  { m with
    name := n.name
    graphics := n.graphics.map Graphics.canon
    body := { m.body with T0 := n.body.T0, inertiaBase := n.body.inertiaBase } }

theorem decBody_eq {F : Fmt} {C : Codec} (hF : F.Plain C) (hC : C.Faithful) {n : Named}
    (hg : ∀ g ∈ n.graphics, g.T.Valid) (hT : n.body.T0.Valid) (hI : n.body.inertiaBase.Settable)
    (dec : Doc → Out (Tag × RB)) (m : Named) :
    decBody F dec (encBody C n) m =
      decBodies dec (List.zipWith (encRigidBody C) n.tags n.body.rbs) (n.header m) := by
  have hm : ¬ n.body.inertiaBase.mass < 0 := not_lt.2 hI.1
  simp [encBody_eq, decBody, Fmt.opt, hF.get, Doc.find, Out.bind, Out.map, hF.str, hF.codec, decodeVec,
    decGraphicsList_ok hF hC _ hg, hC.iso _ hT, decInertia_ok hF hC hI.2, Body.setInertiaBase, hm,
    hF.items, Body.setBase, C05_flat_round_trip _ hI.2, Named.header]

theorem header_reach {E : Ext} {n : Named} {d : Bool} (h : Reach E n.body d) (c : Cache) :
    Reach E (n.header (Named.init c)).body false := by
  have h1 := (Reach.init (E := E) c).step (b' := (Body.init c).setBase n.body.T0)
    (.setBase n.body.T0) ⟨h.inv.rigid.base, rfl⟩ rfl
  have hm : ¬ n.body.inertiaBase.mass < 0 := not_lt.2 (Reach.base h).1
  have h2 := h1.step (b' := { (Body.init c).setBase n.body.T0 with inertiaBase := n.body.inertiaBase })
    (.setInertiaBase n.body.inertiaBase) trivial
    (by simp [Op.exec, Op.step, Body.setInertiaBase, hm, C05_flat_round_trip _ (Reach.base h).2])
  simpa [Op.dirty, Body.setBase, Named.header, Named.init] using h2

theorem forall₂_zip {α β γ δ : Type*} {R : γ → δ → Prop} {f : α → β → γ} {g : α → β → δ} :
    ∀ (l : List α) (m : List β), (∀ a ∈ l, ∀ b ∈ m, R (f a b) (g a b)) →
    List.Forall₂ R (List.zipWith f l m) (List.zipWith g l m)
  | [], _, _ => by simp
  | _ :: _, [], _ => by simp
  | a :: l, b :: m, h => .cons (h a (List.mem_cons_self ..) b (List.mem_cons_self ..))
      (forall₂_zip l m fun a ha b hb => h a (List.mem_cons_of_mem _ ha) b (List.mem_cons_of_mem _ hb))

theorem map_fst_zipWith {α β γ δ : Type*} (f : α → γ) (g : β → δ) : ∀ (l : List α) (m : List β),
    l.length = m.length → (List.zipWith (fun a b => (f a, g b)) l m).map Prod.fst = l.map f
  | [], _, _ => by simp
  | _ :: _, [], h => by simp at h
  | a :: l, b :: m, h => by
    simp only [List.zipWith_cons_cons, List.map_cons]
    rw [map_fst_zipWith f g l m (by simpa using h)]

theorem map_snd_zipWith {α β γ δ : Type*} (f : α → γ) (g : β → δ) : ∀ (l : List α) (m : List β),
    l.length = m.length → (List.zipWith (fun a b => (f a, g b)) l m).map Prod.snd = m.map g
  | [], [], _ => by simp
  | [], _ :: _, h => by simp at h
  | _ :: _, [], h => by simp at h
  | a :: l, b :: m, h => by
    simp only [List.zipWith_cons_cons, List.map_cons]
    rw [map_snd_zipWith f g l m (by simpa using h)]

theorem Named.Proper.rb {E : Ext} {n : Named} {d : Bool} (hp : n.Proper) (h : Reach E n.body d)
    {rb : RB} (hm : rb ∈ n.body.rbs) : rb.Proper := by
  refine ⟨hp.joint _ hm, hp.mass _ hm, hp.symm _ hm, ?_⟩
  obtain ⟨i, hi, rfl⟩ := List.mem_iff_getElem.1 hm
  have := h.inv.rigid.link i hi
  rwa [Body.rb_get hi] at this

/-! ## Printed documents -/

theorem text_num_fin {x : Dbl} (h : x.Finite) : (Doc.num x).text = .num x := by
  obtain ⟨r, rfl⟩ := h; rfl

theorem text_num_inf {x : Dbl} (h : ¬ x.Finite) : (Doc.num x).text = .null := by
  cases x with
  | fin r => exact absurd ⟨r, rfl⟩ h
  | _ => rfl

theorem textList_eq (l : List Doc) : Doc.textList l = l.map Doc.text := by
  induction l with
  | nil => rfl
  | cons a l ih => simp [Doc.textList, ih]

theorem textObj_eq (l : List (Key × Doc)) : Doc.textObj l = l.map fun e => (e.1, e.2.text) := by
  induction l with
  | nil => rfl
  | cons a l ih => obtain ⟨k, d⟩ := a; simp [Doc.textObj, ih]

theorem text_obj (l : List (Key × Doc)) : (Doc.obj l).text = .obj (l.map fun e => (e.1, e.2.text)) := by
  simp only [Doc.text, textObj_eq]

theorem text_arr (l : List Doc) : (Doc.arr l).text = .arr (l.map Doc.text) := by
  simp only [Doc.text, textList_eq]

theorem text_str (s : Str) : (Doc.str s).text = .str s := by simp only [Doc.text]

theorem text_int (i : ℤ) : (Doc.int i).text = .int i := by simp only [Doc.text]

theorem text_real (r : ℝ) : (Doc.num (.fin r)).text = .num (.fin r) := text_num_fin ⟨r, rfl⟩

theorem encJoint_text {j : Joint} (h : j.Finite) : (encJoint j).text = encJoint j := by
  simp only [encJoint_eq, text_obj, text_str, text_real, List.map_cons, List.map_nil, text_num_fin h.qMin,
    text_num_fin h.qMax, text_num_fin h.dqMax, text_num_fin h.fqMax, text_num_fin h.coulomb,
    text_num_fin h.viscous, text_num_fin h.stiction]

theorem decJoint_throws (C : Codec) {j : Joint} (hm : j.Made) (h : ¬ j.Finite) :
    decJoint (jsonFmt C) (encJoint j).text = .throws := by
  have hF := jsonFmt_plain C
  have hp : ¬ Dbl.pinf.Lt j.qMin := by cases j.qMin <;> simp [Dbl.Lt]
  have hn : (jsonFmt C).dbl .null = .throws := rfl
  simp only [encJoint_eq, text_obj, text_str, text_real, List.map_cons, List.map_nil, decJoint, Fmt.req,
    Fmt.opt, hF.get, Doc.find, Out.bind, reduceCtorEq, if_false, if_true, decJType_ok hF,
    Joint.setType]
  by_cases h1 : j.qMin.Finite
  swap
  · simp only [text_num_inf h1, hn]
  by_cases h2 : j.qMax.Finite
  swap
  · simp only [text_num_fin h1, text_num_inf h2, hn, hF.dbl, Joint.setQMin, hp, if_false,
      Joint.Res.out, Bool.false_eq_true]
  by_cases h3 : j.dqMax.Finite
  swap
  · simp only [text_num_fin h1, text_num_fin h2, text_num_inf h3, hn, hF.dbl, Joint.setQMin,
      Joint.setQMax, hp, hm.limits, if_false, Joint.Res.out, Bool.false_eq_true]
  by_cases h4 : j.fqMax.Finite
  swap
  · simp only [text_num_fin h1, text_num_fin h2, text_num_fin h3, text_num_inf h4, hn, hF.dbl,
      Joint.setQMin, Joint.setQMax, Joint.setDqMax, hp, hm.limits, hm.dqMax, if_false,
      Joint.Res.out, Bool.false_eq_true]
  by_cases h5 : j.fCoulomb.Finite
  swap
  · simp only [text_num_fin h1, text_num_fin h2, text_num_fin h3, text_num_fin h4, text_num_inf h5,
      hn, hF.dbl, Joint.setQMin, Joint.setQMax, Joint.setDqMax, Joint.setFqMax, hp, hm.limits,
      hm.dqMax, hm.fqMax, if_false, Joint.Res.out, Bool.false_eq_true]
  by_cases h6 : j.fViscous.Finite
  swap
  · simp only [text_num_fin h1, text_num_fin h2, text_num_fin h3, text_num_fin h4, text_num_fin h5,
      text_num_inf h6, hn, hF.dbl, Joint.setQMin, Joint.setQMax, Joint.setDqMax, Joint.setFqMax,
      Joint.setFCoulomb, hp, hm.limits, hm.dqMax, hm.fqMax, hm.coulomb, if_false, Joint.Res.out,
      Bool.false_eq_true]
  by_cases h7 : j.fStiction.Finite
  swap
  · simp only [text_num_fin h1, text_num_fin h2, text_num_fin h3, text_num_fin h4, text_num_fin h5,
      text_num_fin h6, text_num_inf h7, hn, hF.dbl, Joint.setQMin, Joint.setQMax, Joint.setDqMax,
      Joint.setFqMax, Joint.setFCoulomb, Joint.setFViscous, hp, hm.limits, hm.dqMax, hm.fqMax,
      hm.coulomb, hm.viscous, if_false, Joint.Res.out, Bool.false_eq_true]
  exact absurd ⟨h1, h2, h3, h4, h5, h6, h7⟩ h

section
variable {C : Codec}

theorem encInertia_text (hP : C.Prints) (I : Inertia) : (encInertia C I).text = encInertia C I := by
  simp [encInertia_eq, text_obj, text_str, text_real, hP.vec3, hP.vec6]

theorem encGeometry_text (hP : C.Prints) (g : Geometry) :
    (encGeometry C g).text = encGeometry C g := by
  obtain ⟨t, s, r, l, m⟩ := g
  cases t <;> simp [encGeometry, Doc.put, text_obj, text_str, text_real, hP.vec3]

theorem encMaterial_text (hP : C.Prints) (m : Material) :
    (encMaterial C m).text = encMaterial C m := by
  simp [encMaterial, Doc.put, text_obj, text_str, text_real, hP.vec4]

theorem encGraphics_text (hP : C.Prints) (g : Graphics) :
    (encGraphics C g).text = encGraphics C g := by
  simp [encGraphics, Doc.put, text_obj, text_str, text_real, hP.iso, encGeometry_text hP, encMaterial_text hP]

theorem encGraphicsList_text (hP : C.Prints) (l : List Graphics) :
    (Doc.arr (l.map (encGraphics C))).text = .arr (l.map (encGraphics C)) := by
  simp [text_arr, Function.comp_def, encGraphics_text hP]

theorem encRigidBody_text_eq (hP : C.Prints) (t : Tag) (rb : RB) : (encRigidBody C t rb).text = .obj
    [(.joint, (encJoint rb.joint).text), (.inertia, encInertia C rb.inertia),
     (.T_to_parent, C.encIso rb.T), (.id_parent, .int rb.idParent), (.id, .int rb.id),
     (.graphics, .arr (t.graphics.map (encGraphics C))), (.name, .str t.name)] := by
  rw [encRigidBody_eq, text_obj]
  simp only [List.map_cons, List.map_nil, encInertia_text hP, hP.iso, encGraphicsList_text hP, text_str,
    text_int]

theorem encRigidBody_text (hP : C.Prints) (t : Tag) {rb : RB} (h : rb.joint.Finite) :
    (encRigidBody C t rb).text = encRigidBody C t rb := by
  rw [encRigidBody_text_eq hP, encJoint_text h, encRigidBody_eq]

theorem jsonRigidBody_throws (hC : C.Faithful) (hP : C.Prints) (t : Tag) {rb : RB} (h : rb.Proper)
    (ht : ∀ g ∈ t.graphics, g.T.Valid) (hj : ¬ rb.joint.Finite) :
    jsonRigidBody C (encRigidBody C t rb).text = .throws := by
  have hF := jsonFmt_plain C
  have hm : ¬ rb.inertia.mass < 0 := not_lt.2 h.mass
  rw [encRigidBody_text_eq hP]
  simp [jsonRigidBody, decRigidBodyTag, decRigidBodyRest, Fmt.opt, hF.get, Doc.find, Out.bind, Out.map,
    hF.str, hF.int, hF.codec, decodeVec, decGraphicsList_ok hF hC _ ht, hC.iso _ h.rigid,
    decInertia_ok hF hC h.symm, RB.setInertia, hm, decJoint_throws C h.joint hj]

theorem encBody_text (hP : C.Prints) (n : Named) : (encBody C n).text = .obj
    [(.rigid_bodies, .arr ((List.zipWith (encRigidBody C) n.tags n.body.rbs).map Doc.text)),
     (.inertia_base, encInertia C n.body.inertiaBase), (.T_base_to_world, C.encIso n.body.T0),
     (.graphics, .arr (n.graphics.map (encGraphics C))), (.name, .str n.name)] := by
  rw [encBody_eq, text_obj]
  simp only [List.map_cons, List.map_nil, encInertia_text hP, hP.iso, encGraphicsList_text hP, text_arr,
    text_str]

end

end SpatialDyn
