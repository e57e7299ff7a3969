import Verif.Spec.Accept
import Verif.Lemmas.Document
import Verif.Lemmas.Steps

/-! What can be concluded from a document having been read. -/

namespace SpatialDyn

/-- What the two libraries have in common when they accept. -/
structure Fmt.Strict (F : Fmt) (C : Codec) : Prop where
  codec : F.codec = C
  get : ∀ {d k r}, F.get d k = .ok r → r = Doc.find k d.entries
  str : ∀ {d s}, F.str d = .ok s → d = .str s
  dbl : ∀ {d x}, F.dbl d = .ok x → d.IsNum x
  items : ∀ {l r}, F.items (.arr l) = .ok r → r = l

theorem jsonFmt_strict (C : Codec) : (jsonFmt C).Strict C where
  codec := rfl
  get {d k r} h := by
    cases d <;> simp only [jsonFmt] at h <;> cases h <;> rfl
  str {d s} h := by
    cases d <;> simp only [jsonFmt] at h <;> cases h <;> rfl
  dbl {d x} h := by
    cases d <;> simp only [jsonFmt] at h <;> cases h
    · exact .inl rfl
    · exact .inr ⟨_, rfl, rfl⟩
  items {l r} h := by
    simp only [jsonFmt] at h
    cases h; rfl

theorem yamlFmt_strict (C : Codec) : (yamlFmt C).Strict C where
  codec := rfl
  get {d k r} h := by
    cases d <;> simp only [yamlFmt] at h <;> cases h <;> rfl
  str {d s} h := by
    cases d <;> simp only [yamlFmt] at h <;> cases h <;> rfl
  dbl {d x} h := by
    cases d <;> simp only [yamlFmt] at h <;> cases h
    · exact .inl rfl
    · exact .inr ⟨_, rfl, rfl⟩
  items {l r} h := by
    simp only [yamlFmt] at h
    cases h; rfl

section
variable {F : Fmt} {C : Codec} {α β : Type*}

theorem Fmt.Strict.opt (hF : F.Strict C) {d : Doc} {k : Key} {dec : Doc → Out α} {f : β → α → Out β}
    {x y : β} (h : F.opt d k dec f x = .ok y) :
    (Doc.find k d.entries = none ∧ y = x) ∨
      ∃ v a, Doc.find k d.entries = some v ∧ dec v = .ok a ∧ f x a = .ok y := by
  unfold Fmt.opt at h
  obtain ⟨r, h1, h⟩ := Body.Out.bind_ok h
  have e := hF.get h1
  cases r with
  | none => exact .inl ⟨e.symm, (Out.ok.inj h).symm⟩
  | some v =>
    obtain ⟨a, h2, h⟩ := Body.Out.bind_ok h
    exact .inr ⟨v, a, e.symm, h2, h⟩

theorem Fmt.Strict.req (hF : F.Strict C) {d : Doc} {k : Key} {dec : Doc → Out α} {a : α}
    (h : F.req d k dec = .ok a) : ∃ v, Doc.find k d.entries = some v ∧ dec v = .ok a := by
  unfold Fmt.req at h
  obtain ⟨r, h1, h⟩ := Body.Out.bind_ok h
  have e := hF.get h1
  cases r with
  | none => cases h
  | some v => exact ⟨v, e.symm, h⟩

theorem Fmt.Strict.real (hF : F.Strict C) {d : Doc} {r : ℝ} (h : F.real d = .ok r) :
    d.IsNum (.fin r) := by
  unfold Fmt.real at h
  obtain ⟨x, h1, h⟩ := Body.Out.bind_ok h
  cases x <;> cases h
  exact hF.dbl h1

/-- An optional entry stored in a field that no other step touches. -/
theorem Fmt.Strict.says (hF : F.Strict C) {d : Doc} {k : Key} {dec : Doc → Out α}
    {f : β → α → Out β} {x y : β} (h : F.opt d k dec f x = .ok y) (P : Doc → α → Prop)
    (hP : ∀ v a, dec v = .ok a → P v a) (g : β → α) (hg : ∀ a, f x a = .ok y → g y = a) :
    Says d.entries k P (g x) (g y) := by
  unfold Says
  rcases hF.opt h with ⟨h1, h2⟩ | ⟨v, a, h1, h2, h3⟩
  · rw [h1, h2]
  · rw [h1, hg a h3]
    exact hP v a h2

theorem Joint.Res.out_ok {r : Joint.Res} {j : Joint} (h : r.out = .ok j) :
    r.threw = false ∧ j = r.joint := by
  unfold Joint.Res.out at h
  split at h
  · cases h
  · next hn => exact ⟨by simpa using hn, (Out.ok.inj h).symm⟩

theorem decJType_inv (hF : F.Strict C) {d : Doc} {t : JType} (h : decJType F d = .ok t) :
    ∃ s, d = .str s ∧ JType.parse s = some t := by
  unfold decJType at h
  obtain ⟨s, h1, h⟩ := Body.Out.bind_ok h
  refine ⟨s, hF.str h1, ?_⟩
  cases hp : JType.parse s <;> rw [hp] at h <;> cases h
  rfl

open Classical in
theorem setQMin_out {j j' : Joint} {x : Dbl} (h : (j.setQMin x).out = .ok j') :
    ¬ j.qMax.Lt x ∧ j' = { j with qMin := x } := by
  obtain ⟨h1, rfl⟩ := Joint.Res.out_ok h
  unfold Joint.setQMin at h1 ⊢
  split at h1
  · cases h1
  · next hn => exact ⟨hn, by rw [if_neg hn]⟩

open Classical in
theorem setQMax_out {j j' : Joint} {x : Dbl} (h : (j.setQMax x).out = .ok j') :
    ¬ x.Lt j.qMin ∧ j' = { j with qMax := x } := by
  obtain ⟨h1, rfl⟩ := Joint.Res.out_ok h
  unfold Joint.setQMax at h1 ⊢
  split at h1
  · cases h1
  · next hn => exact ⟨hn, by rw [if_neg hn]⟩

open Classical in
theorem setDqMax_out {j j' : Joint} {x : Dbl} (h : (j.setDqMax x).out = .ok j') :
    ¬ x.Lt (.fin 0) ∧ j' = { j with dqMax := x } := by
  obtain ⟨h1, rfl⟩ := Joint.Res.out_ok h
  unfold Joint.setDqMax at h1 ⊢
  split at h1
  · cases h1
  · next hn => exact ⟨hn, by rw [if_neg hn]⟩

open Classical in
theorem setFqMax_out {j j' : Joint} {x : Dbl} (h : (j.setFqMax x).out = .ok j') :
    ¬ x.Lt (.fin 0) ∧ j' = { j with fqMax := x } := by
  obtain ⟨h1, rfl⟩ := Joint.Res.out_ok h
  unfold Joint.setFqMax at h1 ⊢
  split at h1
  · cases h1
  · next hn => exact ⟨hn, by rw [if_neg hn]⟩

open Classical in
theorem setFCoulomb_out {j j' : Joint} {x : Dbl} (h : (j.setFCoulomb x).out = .ok j') :
    ¬ x.Lt (.fin 0) ∧ j' = { j with fCoulomb := x } := by
  obtain ⟨h1, rfl⟩ := Joint.Res.out_ok h
  unfold Joint.setFCoulomb at h1 ⊢
  split at h1
  · cases h1
  · next hn => exact ⟨hn, by rw [if_neg hn]⟩

open Classical in
theorem setFViscous_out {j j' : Joint} {x : Dbl} (h : (j.setFViscous x).out = .ok j') :
    ¬ x.Lt (.fin 0) ∧ j' = { j with fViscous := x } := by
  obtain ⟨h1, rfl⟩ := Joint.Res.out_ok h
  unfold Joint.setFViscous at h1 ⊢
  split at h1
  · cases h1
  · next hn => exact ⟨hn, by rw [if_neg hn]⟩

open Classical in
theorem setFStiction_out {j j' : Joint} {x : Dbl} (h : (j.setFStiction x).out = .ok j') :
    ¬ x.Lt (.fin 0) ∧ j' = { j with fStiction := x } := by
  obtain ⟨h1, rfl⟩ := Joint.Res.out_ok h
  unfold Joint.setFStiction at h1 ⊢
  split at h1
  · cases h1
  · next hn => exact ⟨hn, by rw [if_neg hn]⟩

/-- One limit of a joint: the entry is stored, nothing else changes. -/
theorem limit_inv (hF : F.Strict C) {d : Doc} {k : Key} {set : Joint → Dbl → Joint.Res}
    {up : Joint → Dbl → Joint} {j j' : Joint}
    (h : F.opt d k F.dbl (fun j x => (set j x).out) j = .ok j')
    (hs : ∀ x, (set j x).out = .ok j' → j' = up j x) (g : Joint → Dbl) (hg : ∀ x, g (up j x) = x) :
    Says d.entries k Doc.IsNum (g j) (g j') ∧ (j' = j ∨ ∃ x, j' = up j x) := by
  refine ⟨hF.says h _ (fun v a e => hF.dbl e) g fun a e => ?_, ?_⟩
  · rw [hs a e, hg]
  · rcases hF.opt h with ⟨-, h2⟩ | ⟨v, a, -, -, h3⟩
    · exact .inl h2
    · exact .inr ⟨a, hs a h3⟩

theorem decJoint_inv (hF : F.Strict C) {d : Doc} {j : Joint} (h : decJoint F d = .ok j) :
    JointSays d j ∧ j.Made := by
  unfold decJoint at h
  obtain ⟨t, ht, h⟩ := Body.Out.bind_ok h
  obtain ⟨j1, h1, h⟩ := Body.Out.bind_ok h
  obtain ⟨j2, h2, h⟩ := Body.Out.bind_ok h
  obtain ⟨j3, h3, h⟩ := Body.Out.bind_ok h
  obtain ⟨j4, h4, h⟩ := Body.Out.bind_ok h
  obtain ⟨j5, h5, h⟩ := Body.Out.bind_ok h
  obtain ⟨j6, h6, h7⟩ := Body.Out.bind_ok h
  obtain ⟨v, hv, ht⟩ := hF.req ht
  obtain ⟨s, rfl, hp⟩ := decJType_inv hF ht
  -- setters keep `Made`
  have made : ∀ {k : Key} {set : Joint → Dbl → Joint.Res} {j j' : Joint},
      F.opt d k F.dbl (fun j x => (set j x).out) j = .ok j' →
      (∀ x, ∃ o : Joint.Op, set j x = j.step o) → j.Made → j'.Made := by
    intro k set j j' h ho hm
    rcases hF.opt h with ⟨-, rfl⟩ | ⟨v, a, -, -, h⟩
    · exact hm
    · obtain ⟨o, e⟩ := ho a
      obtain ⟨-, rfl⟩ := Joint.Res.out_ok h
      rw [e]
      exact hm.step o
  have m0 : ((({} : Joint).setType t).joint).Made := Joint.Made.default.step (.setType t)
  have m1 := made h1 (fun x => ⟨.setQMin x, rfl⟩) m0
  have m2 := made h2 (fun x => ⟨.setQMax x, rfl⟩) m1
  have m3 := made h3 (fun x => ⟨.setDqMax x, rfl⟩) m2
  have m4 := made h4 (fun x => ⟨.setFqMax x, rfl⟩) m3
  have m5 := made h5 (fun x => ⟨.setFCoulomb x, rfl⟩) m4
  have m6 := made h6 (fun x => ⟨.setFViscous x, rfl⟩) m5
  have m7 := made h7 (fun x => ⟨.setFStiction x, rfl⟩) m6
  obtain ⟨s1, c1⟩ := limit_inv hF h1 (up := fun j x => { j with qMin := x })
    (fun x e => (setQMin_out e).2) (·.qMin) fun _ => rfl
  obtain ⟨s2, c2⟩ := limit_inv hF h2 (up := fun j x => { j with qMax := x })
    (fun x e => (setQMax_out e).2) (·.qMax) fun _ => rfl
  obtain ⟨s3, c3⟩ := limit_inv hF h3 (up := fun j x => { j with dqMax := x })
    (fun x e => (setDqMax_out e).2) (·.dqMax) fun _ => rfl
  obtain ⟨s4, c4⟩ := limit_inv hF h4 (up := fun j x => { j with fqMax := x })
    (fun x e => (setFqMax_out e).2) (·.fqMax) fun _ => rfl
  obtain ⟨s5, c5⟩ := limit_inv hF h5 (up := fun j x => { j with fCoulomb := x })
    (fun x e => (setFCoulomb_out e).2) (·.fCoulomb) fun _ => rfl
  obtain ⟨s6, c6⟩ := limit_inv hF h6 (up := fun j x => { j with fViscous := x })
    (fun x e => (setFViscous_out e).2) (·.fViscous) fun _ => rfl
  obtain ⟨s7, c7⟩ := limit_inv hF h7 (up := fun j x => { j with fStiction := x })
    (fun x e => (setFStiction_out e).2) (·.fStiction) fun _ => rfl
  have keep : ∀ {γ : Type} (g : Joint → γ) {up : Joint → Dbl → Joint} {j j' : Joint},
      (j' = j ∨ ∃ x, j' = up j x) → (∀ x, g (up j x) = g j) → g j' = g j := by
    intro γ g up j j' h hg
    rcases h with rfl | ⟨x, rfl⟩
    · rfl
    · exact hg x
  have e1 := fun {γ : Type} (g : Joint → γ) => keep g (up := fun j x => { j with qMin := x }) c1
  have e2 := fun {γ : Type} (g : Joint → γ) => keep g (up := fun j x => { j with qMax := x }) c2
  have e3 := fun {γ : Type} (g : Joint → γ) => keep g (up := fun j x => { j with dqMax := x }) c3
  have e4 := fun {γ : Type} (g : Joint → γ) => keep g (up := fun j x => { j with fqMax := x }) c4
  have e5 := fun {γ : Type} (g : Joint → γ) => keep g (up := fun j x => { j with fCoulomb := x }) c5
  have e6 := fun {γ : Type} (g : Joint → γ) => keep g (up := fun j x => { j with fViscous := x }) c6
  have e7 := fun {γ : Type} (g : Joint → γ) => keep g (up := fun j x => { j with fStiction := x }) c7
  refine ⟨⟨⟨s, hv, ?_⟩, ?_, ?_, ?_, ?_, ?_, ?_, ?_⟩, m7⟩
  · rw [hp, e7 (·.type) fun _ => rfl, e6 (·.type) fun _ => rfl, e5 (·.type) fun _ => rfl,
      e4 (·.type) fun _ => rfl, e3 (·.type) fun _ => rfl, e2 (·.type) fun _ => rfl,
      e1 (·.type) fun _ => rfl]
    rfl
  · rw [e7 (·.qMin) fun _ => rfl, e6 (·.qMin) fun _ => rfl, e5 (·.qMin) fun _ => rfl,
      e4 (·.qMin) fun _ => rfl, e3 (·.qMin) fun _ => rfl, e2 (·.qMin) fun _ => rfl]
    exact s1
  · rw [e7 (·.qMax) fun _ => rfl, e6 (·.qMax) fun _ => rfl, e5 (·.qMax) fun _ => rfl,
      e4 (·.qMax) fun _ => rfl, e3 (·.qMax) fun _ => rfl]
    have e := e1 (·.qMax) fun _ => rfl
    rw [e] at s2
    exact s2
  · rw [e7 (·.dqMax) fun _ => rfl, e6 (·.dqMax) fun _ => rfl, e5 (·.dqMax) fun _ => rfl,
      e4 (·.dqMax) fun _ => rfl]
    have e := e1 (·.dqMax) fun _ => rfl
    have e' := e2 (·.dqMax) fun _ => rfl
    rw [e', e] at s3
    exact s3
  · rw [e7 (·.fqMax) fun _ => rfl, e6 (·.fqMax) fun _ => rfl, e5 (·.fqMax) fun _ => rfl]
    have e := e1 (·.fqMax) fun _ => rfl
    have e' := e2 (·.fqMax) fun _ => rfl
    have e'' := e3 (·.fqMax) fun _ => rfl
    rw [e'', e', e] at s4
    exact s4
  · rw [e7 (·.fCoulomb) fun _ => rfl, e6 (·.fCoulomb) fun _ => rfl]
    have e := e1 (·.fCoulomb) fun _ => rfl
    have e' := e2 (·.fCoulomb) fun _ => rfl
    have e'' := e3 (·.fCoulomb) fun _ => rfl
    have e3' := e4 (·.fCoulomb) fun _ => rfl
    rw [e3', e'', e', e] at s5
    exact s5
  · rw [e7 (·.fViscous) fun _ => rfl]
    have e := e1 (·.fViscous) fun _ => rfl
    have e' := e2 (·.fViscous) fun _ => rfl
    have e'' := e3 (·.fViscous) fun _ => rfl
    have e3' := e4 (·.fViscous) fun _ => rfl
    have e4' := e5 (·.fViscous) fun _ => rfl
    rw [e4', e3', e'', e', e] at s6
    exact s6
  · have e := e1 (·.fStiction) fun _ => rfl
    have e' := e2 (·.fStiction) fun _ => rfl
    have e'' := e3 (·.fStiction) fun _ => rfl
    have e3' := e4 (·.fStiction) fun _ => rfl
    have e4' := e5 (·.fStiction) fun _ => rfl
    have e5' := e6 (·.fStiction) fun _ => rfl
    rw [e5', e4', e3', e'', e', e] at s7
    exact s7

theorem decInertia_inv (hF : F.Strict C) {d : Doc} {I : Inertia} (h : decInertia F d = .ok I) :
    InertiaSays C d I ∧ I.Icom.IsSymm := by
  unfold decInertia at h
  obtain ⟨m, h1, h⟩ := Body.Out.bind_ok h
  obtain ⟨c, h2, h⟩ := Body.Out.bind_ok h
  obtain ⟨v, h3, h⟩ := Body.Out.bind_ok h
  obtain ⟨x, hx, h1⟩ := hF.req h1
  obtain ⟨y, hy, h2⟩ := hF.req h2
  obtain ⟨z, hz, h3⟩ := hF.req h3
  rw [hF.codec] at h2 h3
  cases h
  refine ⟨⟨⟨x, hx, hF.real h1⟩, ⟨y, hy, h2⟩, ⟨z, hz, ?_⟩⟩, (C05_flat_of_ctor m c v).2⟩
  rw [(C05_flat_of_ctor m c v).1]
  exact h3


theorem decGraphics_inv (hF : F.Strict C) (hR : C.Rigid) {d : Doc} {g : Graphics}
    (h : decGraphics F d = .ok g) : g.T.Valid := by
  unfold decGraphics at h
  obtain ⟨g1, h1, h⟩ := Body.Out.bind_ok h
  obtain ⟨g2, h2, h⟩ := Body.Out.bind_ok h
  obtain ⟨g3, h3, h4⟩ := Body.Out.bind_ok h
  have e1 : g1.T = 1 := by
    rcases hF.opt h1 with ⟨-, rfl⟩ | ⟨v, a, -, -, h⟩
    · rfl
    · cases h; rfl
  have e2 : g2.T.Valid := by
    rcases hF.opt h2 with ⟨-, rfl⟩ | ⟨v, a, -, h', h⟩
    · rw [e1]; exact Iso.valid_one
    · cases h
      rw [hF.codec] at h'
      exact hR _ _ h'
  have e3 : g3.T = g2.T := by
    rcases hF.opt h3 with ⟨-, rfl⟩ | ⟨v, a, -, -, h⟩
    · rfl
    · cases h; rfl
  have e4 : g.T = g3.T := by
    rcases hF.opt h4 with ⟨-, rfl⟩ | ⟨v, a, -, -, h⟩
    · rfl
    · cases h; rfl
  rw [e4, e3]
  exact e2

theorem decodeList_inv {dec : Doc → Out α} {P : α → Prop} (hP : ∀ d a, dec d = .ok a → P a) :
    ∀ {l : List Doc} {r : List α}, decodeList dec l = .ok r → ∀ a ∈ r, P a
  | [], r, h, a, ha => by cases h; cases ha
  | d :: l, r, h, a, ha => by
    unfold decodeList at h
    obtain ⟨x, h1, h⟩ := Body.Out.bind_ok h
    obtain ⟨xs, h2, h⟩ := Body.Out.bind_ok h
    cases h
    rcases List.mem_cons.1 ha with rfl | ha
    · exact hP _ _ h1
    · exact decodeList_inv hP h2 a ha

theorem decodeVec_inv {dec : Doc → Out α} {P : α → Prop} (hP : ∀ d a, dec d = .ok a → P a)
    {d : Doc} {r : List α} (h : decodeVec dec d = .ok r) : ∀ a ∈ r, P a := by
  unfold decodeVec at h
  split at h
  · exact decodeList_inv hP h
  · cases h

/-- What is known of a rigid body that was read. -/
structure Accepted (C : Codec) (d : Doc) (x : Tag × RB) : Prop where
  body : BodySays C d x.1 x.2
  rigid : C.Rigid → x.2.T.Valid
  graphics : C.Rigid → ∀ g ∈ x.1.graphics, g.T.Valid
  mass : 0 ≤ x.2.inertia.mass
  symm : x.2.inertia.Icom.IsSymm
  made : x.2.joint.Made

theorem tag_inv (hF : F.Strict C) {d : Doc} {x : Tag × RB} (h : decRigidBodyTag F d = .ok x) :
    Says d.entries .name (fun x s => x = .str s) [] x.1.name ∧
      (C.Rigid → ∀ g ∈ x.1.graphics, g.T.Valid) ∧ x.2 = {} := by
  unfold decRigidBodyTag at h
  obtain ⟨y, h1, h2⟩ := Body.Out.bind_ok h
  have s1 := hF.says h1 (fun x s => x = .str s) (fun v a e => hF.str e) (fun x => x.1.name)
    fun a e => by cases e; rfl
  have e1 : y.2 = {} ∧ y.1.graphics = [] := by
    rcases hF.opt h1 with ⟨-, rfl⟩ | ⟨v, a, -, -, h⟩
    · exact ⟨rfl, rfl⟩
    · cases h; exact ⟨rfl, rfl⟩
  rcases hF.opt h2 with ⟨-, rfl⟩ | ⟨v, a, -, h', h⟩
  · exact ⟨s1, fun _ => by rw [e1.2]; simp, e1.1⟩
  · cases h
    exact ⟨s1, fun hR => decodeVec_inv (P := fun g => g.T.Valid)
      (fun d g hg => decGraphics_inv hF hR hg) h', e1.1⟩

theorem rest_inv (hF : F.Strict C) {d : Doc} {x y : Tag × RB} (h : decRigidBodyRest F d x = .ok y)
    (hn : Says d.entries .name (fun x s => x = .str s) [] x.1.name)
    (hg : C.Rigid → ∀ g ∈ x.1.graphics, g.T.Valid)
    (hT : x.2.T = 1) (hI : x.2.inertia = ⟨1, 0, 0⟩) (hj : x.2.joint = {}) :
    Accepted C d y ∧ y.2.id = x.2.id ∧ y.2.idParent = x.2.idParent := by
  unfold decRigidBodyRest at h
  obtain ⟨x1, h1, h⟩ := Body.Out.bind_ok h
  obtain ⟨x2, h2, h3⟩ := Body.Out.bind_ok h
  have s1 := hF.says h1 (fun x T => C.decIso x = .ok T) (fun v a e => by rwa [hF.codec] at e)
    (fun x => x.2.T) fun a e => by cases e; rfl
  have c1 : x1.1 = x.1 ∧ x1.2.inertia = x.2.inertia ∧ x1.2.joint = x.2.joint ∧
      x1.2.id = x.2.id ∧ x1.2.idParent = x.2.idParent ∧ (C.Rigid → x1.2.T.Valid) := by
    rcases hF.opt h1 with ⟨-, rfl⟩ | ⟨v, a, -, h', h⟩
    · exact ⟨rfl, rfl, rfl, rfl, rfl, fun _ => by rw [hT]; exact Iso.valid_one⟩
    · cases h
      rw [hF.codec] at h'
      exact ⟨rfl, rfl, rfl, rfl, rfl, fun hR => hR _ _ h'⟩
  have inv2 : ∀ {I : Inertia} {x1 x2 : Tag × RB},
      (x1.2.setInertia I).map (fun r => (x1.1, r)) = .ok x2 →
      0 ≤ I.mass ∧ x2 = (x1.1, { x1.2 with inertia := I }) := by
    intro I x1 x2 h
    classical
    unfold RB.setInertia at h
    split at h
    · cases h
    · next hn => cases h; exact ⟨not_lt.1 hn, rfl⟩
  have s2 := hF.says h2 (InertiaSays C) (fun v a e => (decInertia_inv hF e).1)
    (fun x => x.2.inertia) fun a e => by rw [(inv2 e).2]
  have c2 : x2.1 = x1.1 ∧ x2.2.T = x1.2.T ∧ x2.2.joint = x1.2.joint ∧ x2.2.id = x1.2.id ∧
      x2.2.idParent = x1.2.idParent ∧ 0 ≤ x2.2.inertia.mass ∧ x2.2.inertia.Icom.IsSymm := by
    rcases hF.opt h2 with ⟨-, rfl⟩ | ⟨v, a, -, h', h⟩
    · refine ⟨rfl, rfl, rfl, rfl, rfl, ?_, ?_⟩
      · rw [c1.2.1, hI]; exact zero_le_one
      · rw [c1.2.1, hI]; rfl
    · obtain ⟨h4, rfl⟩ := inv2 h
      exact ⟨rfl, rfl, rfl, rfl, rfl, h4, (decInertia_inv hF h').2⟩
  have s3 := hF.says h3 JointSays (fun v a e => (decJoint_inv hF e).1)
    (fun x => x.2.joint) fun a e => by cases e; rfl
  have c3 : y.1 = x2.1 ∧ y.2.T = x2.2.T ∧ y.2.inertia = x2.2.inertia ∧ y.2.id = x2.2.id ∧
      y.2.idParent = x2.2.idParent ∧ y.2.joint.Made := by
    rcases hF.opt h3 with ⟨-, rfl⟩ | ⟨v, a, -, h', h⟩
    · refine ⟨rfl, rfl, rfl, rfl, rfl, ?_⟩
      rw [c2.2.2.1, c1.2.2.1, hj]
      exact .default
    · cases h
      exact ⟨rfl, rfl, rfl, rfl, rfl, (decJoint_inv hF h').2⟩
  obtain ⟨a1, a2, a3, a4, a5, a6⟩ := c1
  obtain ⟨b1, b2, b3, b4, b5, b6, b7⟩ := c2
  obtain ⟨d1, d2, d3, d4, d5, d6⟩ := c3
  refine ⟨⟨⟨?_, ?_, ?_, ?_⟩, ?_, ?_, ?_, ?_, d6⟩, by rw [d4, b4, a4], by rw [d5, b5, a5]⟩
  · rw [d1, b1, a1]; exact hn
  · rw [d2, b2, ← hT]; exact s1
  · rw [d3, ← hI, ← a2]; exact s2
  · rw [← hj, ← a3, ← b3]; exact s3
  · intro hR; rw [d2, b2]; exact a6 hR
  · rw [d1, b1, a1]; exact hg
  · rw [d3]; exact b6
  · rw [d3]; exact b7

/-- A rigid body read from JSON: the parent is the one of the entry. -/
theorem jsonRigidBody_inv {d : Doc} {x : Tag × RB} (h : jsonRigidBody C d = .ok x) :
    Accepted C d x ∧ ∀ v i, Doc.find .id_parent d.entries = some v → v = .int i → x.2.idParent = i := by
  have hF := jsonFmt_strict C
  unfold jsonRigidBody at h
  obtain ⟨x1, h1, h⟩ := Body.Out.bind_ok h
  obtain ⟨x2, h2, h⟩ := Body.Out.bind_ok h
  obtain ⟨x3, h3, h4⟩ := Body.Out.bind_ok h
  obtain ⟨t1, t2, t3⟩ := tag_inv hF h1
  have c2 : x2.1 = x1.1 ∧ x2.2.T = x1.2.T ∧ x2.2.inertia = x1.2.inertia ∧
      x2.2.joint = x1.2.joint := by
    rcases hF.opt h2 with ⟨-, rfl⟩ | ⟨v, a, -, h', h⟩
    · exact ⟨rfl, rfl, rfl, rfl⟩
    · cases h; exact ⟨rfl, rfl, rfl, rfl⟩
  have c3 : x3.1 = x2.1 ∧ x3.2.T = x2.2.T ∧ x3.2.inertia = x2.2.inertia ∧
      x3.2.joint = x2.2.joint ∧
      ∀ v i, Doc.find .id_parent d.entries = some v → v = .int i → x3.2.idParent = i := by
    rcases hF.opt h3 with ⟨e, rfl⟩ | ⟨v, a, e, h', h⟩
    · refine ⟨rfl, rfl, rfl, rfl, fun v i hv _ => ?_⟩
      rw [e] at hv; cases hv
    · cases h
      refine ⟨rfl, rfl, rfl, rfl, fun v' i hv hi => ?_⟩
      rw [e] at hv; cases hv; subst hi
      exact (Out.ok.inj h').symm
  obtain ⟨a1, a2, a3, a4⟩ := c2
  obtain ⟨b1, b2, b3, b4, b5⟩ := c3
  obtain ⟨r1, r2, r3⟩ := rest_inv hF h4 (by rw [b1, a1]; exact t1) (by rw [b1, a1]; exact t2)
    (by rw [b2, a2, t3]) (by rw [b3, a3, t3]) (by rw [b4, a4, t3])
  exact ⟨r1, fun v i hv hi => by rw [r3]; exact b5 v i hv hi⟩

/-- A rigid body read from YAML: the parent is the base. -/
theorem yamlRigidBody_inv {d : Doc} {x : Tag × RB} (h : yamlRigidBody C d = .ok x) :
    Accepted C d x ∧ x.2.idParent = -1 := by
  have hF := yamlFmt_strict C
  unfold yamlRigidBody at h
  obtain ⟨x1, h1, h4⟩ := Body.Out.bind_ok h
  obtain ⟨t1, t2, t3⟩ := tag_inv hF h1
  obtain ⟨r1, r2, r3⟩ := rest_inv hF h4 t1 t2 (by rw [t3]) (by rw [t3]) (by rw [t3])
  exact ⟨r1, by rw [r3, t3]⟩

/-- A list of bodies that was read: every element was, and the parents came before. -/
theorem decBodies_inv {dec : Doc → Out (Tag × RB)} : ∀ {l : List Doc} {n m : Named},
    decBodies dec l n = .ok m → ∃ xs, List.Forall₂ (fun d x => dec d = .ok x) l xs ∧
      Ordered n.body.dof (xs.map Prod.snd) ∧ n.Read m xs
  | [], n, m, h => by
    cases h
    exact ⟨[], .nil, trivial, by constructor <;> simp [place]⟩
  | d :: l, n, m, h => by
    have h0 := h
    unfold decBodies at h
    obtain ⟨x, h1, h⟩ := Body.Out.bind_ok h
    obtain ⟨n', h2, h3⟩ := Body.Out.bind_ok h
    obtain ⟨xs, g1, g2, g3⟩ := decBodies_inv h3
    unfold Named.addRigidBody at h2
    have : ∃ r, n.body.addRigidBody x.2 x.2.idParent = .ok r ∧
        n' = { n with body := r.2, tags := n.tags ++ [x.1] } := by
      cases hr : n.body.addRigidBody x.2 x.2.idParent <;> rw [hr] at h2 <;> cases h2
      exact ⟨_, rfl, rfl⟩
    obtain ⟨⟨id, b⟩, hb, e⟩ := this
    obtain ⟨-, p1, p2, e'⟩ := Body.addRigidBody_ok hb
    have hdof : n'.body.dof = n.body.dof + 1 := by rw [e]; simp [e', Body.dof]
    have ho : Ordered n.body.dof ((x :: xs).map Prod.snd) :=
      ⟨p1, p2, by rw [hdof] at g2; exact g2⟩
    have hz : List.Forall₂ (fun d x => dec d = .ok x) (d :: l) (x :: xs) := .cons h1 g1
    obtain ⟨m', hm', r⟩ := decBodies_ok hz n ho
    have : m' = m := by
      rw [h0] at hm'
      exact (Out.ok.inj hm').symm
    exact ⟨x :: xs, hz, ho, this ▸ r⟩

end
end SpatialDyn
