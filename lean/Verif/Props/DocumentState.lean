import Verif.Spec.DocumentState
import Verif.Props.Accept

/-! C122: documents that are refused halfway. -/

namespace SpatialDyn

variable {E : Ext} {C : Codec} {F : Fmt} {dec : Doc → Out (Tag × RB)} {d : Doc} {n : Named}

/-- How a result without state follows from the state and the outcome. -/
def result (s : Named × Out Unit) : Out Named := s.2.map fun _ => s.1

theorem attempt_result (f : Named → Out Named) (s : Named × Out Unit) :
    result (attempt f s) = (result s).bind f := by
  obtain ⟨n, o⟩ := s
  cases o with
  | ok u =>
    simp only [attempt, result, Out.map, Out.bind]
    cases f n <;> rfl
  | throws => rfl
  | ub => rfl

theorem readLinks_result (l : List Doc) : ∀ s, result (readLinks dec l s) = (result s).bind (decBodies dec l) := by
  induction l with
  | nil =>
    rintro ⟨n, o⟩
    cases o <;> rfl
  | cons e l ih =>
    intro s
    show result (readLinks dec l _) = _
    rw [ih, attempt_result]
    cases result s with
    | throws => rfl
    | ub => rfl
    | ok n =>
      simp only [Out.bind, decBodies]
      cases dec e <;> rfl

theorem bind_assoc' {α β γ : Type*} (x : Out α) (f : α → Out β) (g : β → Out γ) :
    (x.bind f).bind g = x.bind fun a => (f a).bind g := by cases x <;> rfl

theorem readBody_result (d : Doc) (n : Named) : result (readBody F dec d n) = decBody F dec d n := by
  unfold readBody decBody
  extract_lets s1 s2 s3 s4
  have e : result s4 = ((((F.opt d .name F.str (fun (n : Named) s => .ok { n with name := s }) n).bind fun n =>
      F.opt d .graphics (decodeVec (decGraphics F)) (fun n g => .ok { n with graphics := g }) n).bind fun n =>
      F.opt d .T_base_to_world F.codec.decIso
        (fun (n : Named) T => .ok { n with body := n.body.setBase T }) n).bind fun n =>
      F.opt d .inertia_base (decInertia F)
        (fun n I => (n.body.setInertiaBase I).map fun b => { n with body := b }) n) := by
    rw [attempt_result, attempt_result, attempt_result, attempt_result]
    rfl
  rw [← bind_assoc', ← bind_assoc', ← bind_assoc', ← e]
  generalize s4 = s
  obtain ⟨x, o⟩ := s
  cases o with
  | throws => rfl
  | ub => rfl
  | ok u =>
    unfold Fmt.opt
    simp only [result, Out.map, Out.bind]
    cases F.get d .rigid_bodies with
    | throws => rfl
    | ub => rfl
    | ok r =>
      cases r with
      | none => rfl
      | some v =>
        simp only
        cases F.items v with
        | throws => rfl
        | ub => rfl
        | ok l => exact readLinks_result l (x, .ok u)

theorem opt_same (hS : F.Strict C) (hP : F.Plain C) {α β : Type*} {k : Key} {g : Doc → Out α}
    {f : β → α → Out β} {x y : β} {l : List (Key × Doc)} (hk : Doc.find k l = Doc.find k d.entries)
    (h : F.opt d k g f x = .ok y) : F.opt (.obj l) k g f x = .ok y := by
  unfold Fmt.opt at h ⊢
  obtain ⟨r, h1, h2⟩ := Body.Out.bind_ok h
  rw [hP.get, hk, ← hS.get h1]
  exact h2

theorem opt_none (hP : F.Plain C) {α β : Type*} {k : Key} {g : Doc → Out α}
    {f : β → α → Out β} {x : β} {l : List (Key × Doc)} (hk : Doc.find k l = none) :
    F.opt (.obj l) k g f x = .ok x := by
  unfold Fmt.opt
  rw [hP.get, hk]
  rfl

theorem attempt_cases (f : Named → Out Named) (n : Named) :
    (∃ m, f n = .ok m ∧ attempt f (n, .ok ()) = (m, .ok ())) ∨
      attempt f (n, .ok ()) = (n, .throws) ∨ attempt f (n, .ok ()) = (n, .ub) := by
  unfold attempt
  cases h : f n with
  | ok m => exact .inl ⟨m, rfl, rfl⟩
  | throws => exact .inr (.inl rfl)
  | ub => exact .inr (.inr rfl)

theorem attempt_stop (f : Named → Out Named) (s : Named × Out Unit) (h : ∀ u, s.2 ≠ .ok u) : attempt f s = s := by
  obtain ⟨n, o⟩ := s
  cases o with
  | ok u => exact absurd rfl (h u)
  | throws => rfl
  | ub => rfl

theorem readLinks_stop (l : List Doc) (s : Named × Out Unit) (h : ∀ u, s.2 ≠ .ok u) : readLinks dec l s = s := by
  induction l with
  | nil => rfl
  | cons e l ih =>
    show readLinks dec l (attempt _ s) = s
    rw [attempt_stop _ s h, ih]

/-- The loop stops at the first link that cannot be read or has no parent. -/
theorem readLinks_prefix (l : List Doc) (n : Named) : ∃ i ≤ l.length,
    decBodies dec (l.take i) n = .ok (readLinks dec l (n, .ok ())).1 ∧
    ((readLinks dec l (n, .ok ())).2 = .ok () → i = l.length) ∧
    ((readLinks dec l (n, .ok ())).2 ≠ .ok () → i < l.length ∧ ∀ m, decBodies dec (l.take (i + 1)) n ≠ .ok m) := by
  induction l generalizing n with
  | nil => exact ⟨0, le_rfl, rfl, fun _ => rfl, fun h => absurd rfl h⟩
  | cons e l ih =>
    have e0 : readLinks dec (e :: l) (n, .ok ()) = readLinks dec l (attempt
      (fun n => (dec e).bind fun x => n.addRigidBody x.1 x.2 x.2.idParent) (n, .ok ())) := rfl
    rw [e0]
    rcases attempt_cases (fun n => (dec e).bind fun x => n.addRigidBody x.1 x.2 x.2.idParent) n with
      ⟨m, h1, h2⟩ | h2 | h2
    · obtain ⟨i, k1, k2, k3, k4⟩ := ih m
      rw [h2]
      obtain ⟨x, x1, x2⟩ := Body.Out.bind_ok h1
      refine ⟨i + 1, by simpa using k1, ?_, fun h => by simp [k3 h], fun h => ⟨by simpa using (k4 h).1, fun m' h' => ?_⟩⟩
      · rw [List.take_succ_cons, decBodies, ← k2]
        rw [x1]
        simp only [Out.bind, x2]
      · rw [List.take_succ_cons, decBodies, x1] at h'
        simp only [Out.bind, x2] at h'
        exact (k4 h).2 m' h'
    · have no : ∀ m, decBodies dec ((e :: l).take 1) n ≠ .ok m := by
        intro m h
        obtain ⟨x, x1, h⟩ := Body.Out.bind_ok h
        obtain ⟨m', x2, h⟩ := Body.Out.bind_ok h
        have : attempt (fun n => (dec e).bind fun x => n.addRigidBody x.1 x.2 x.2.idParent) (n, .ok ()) =
            (m', .ok ()) := by
          simp [attempt, x1, Out.bind, x2]
        rw [this] at h2
        cases h2
      rw [h2, readLinks_stop _ _ (by simp)]
      exact ⟨0, by simp, rfl, fun h => (by cases h), fun _ => ⟨by simp, no⟩⟩
    · have no : ∀ m, decBodies dec ((e :: l).take 1) n ≠ .ok m := by
        intro m h
        obtain ⟨x, x1, h⟩ := Body.Out.bind_ok h
        obtain ⟨m', x2, h⟩ := Body.Out.bind_ok h
        have : attempt (fun n => (dec e).bind fun x => n.addRigidBody x.1 x.2 x.2.idParent) (n, .ok ()) =
            (m', .ok ()) := by
          simp [attempt, x1, Out.bind, x2]
        rw [this] at h2
        cases h2
      rw [h2, readLinks_stop _ _ (by simp)]
      exact ⟨0, by simp, rfl, fun h => (by cases h), fun _ => ⟨by simp, no⟩⟩

theorem find_some (ks : List Key) (es l : List (Key × Doc)) (k : Key) :
    Doc.find k ((ks.filterMap fun k => (Doc.find k es).map fun v => (k, v)) ++ l) =
      if k ∈ ks then (Doc.find k es).or (Doc.find k l) else Doc.find k l := by
  induction ks with
  | nil => simp
  | cons a ks ih =>
    cases h : Doc.find a es with
    | none =>
      rw [List.filterMap_cons_none (by rw [h]; rfl), ih]
      by_cases e : k = a
      · subst e
        simp [h]
      · simp [e]
    | some v =>
      rw [List.filterMap_cons_some (b := (a, v)) (by rw [h]; rfl), List.cons_append, Doc.find, ih]
      by_cases e : k = a
      · subst e
        simp [h]
      · simp [e, Ne.symm e]

theorem find_top (d : Doc) (j : ℕ) (k : Key) (l : List (Key × Doc)) : Doc.find k (d.top j ++ l) =
    if k ∈ [Key.name, .graphics, .T_base_to_world, .inertia_base].take j then
      (Doc.find k d.entries).or (Doc.find k l) else Doc.find k l := find_some ..

theorem find_top' (d : Doc) (j : ℕ) (k : Key) : Doc.find k (d.top j) =
    if k ∈ [Key.name, .graphics, .T_base_to_world, .inertia_base].take j then
      Doc.find k d.entries else none := by
  have := find_top d j k []
  simpa [Doc.find] using this

/-- The body is as if a beginning of the document had been read. -/
theorem readBody_beginning (hS : F.Strict C) (hP : F.Plain C) (d : Doc) (n : Named)
    (hu : (readBody F dec d n).2 ≠ .ub) :
    ((readBody F dec d n).2 = .throws ∧
      ∃ j ≤ 4, decBody F dec (.obj (d.top j)) n = .ok (readBody F dec d n).1) ∨
    ((readBody F dec d n).2 = .ok () ∧ Doc.find .rigid_bodies d.entries = none ∧
      decBody F dec (.obj (d.top 4)) n = .ok (readBody F dec d n).1) ∨
    ∃ v l, ∃ i ≤ l.length, Doc.find .rigid_bodies d.entries = some v ∧ F.items v = .ok l ∧
      decBody F dec (d.links l i) n = .ok (readBody F dec d n).1 ∧
      ((readBody F dec d n).2 = .ok () → i = l.length) ∧
      ((readBody F dec d n).2 = .throws → i < l.length ∧ ∀ m, decBody F dec (d.links l (i + 1)) n ≠ .ok m) := by
  revert hu
  unfold readBody
  extract_lets s1 s2 s3 s4
  intro hu
  rcases attempt_cases (F.opt d .name F.str fun (n : Named) s => .ok { n with name := s }) n with
    ⟨n1, e1, a1⟩ | a1 | a1
  rotate_left
  · have b1 : s1 = (n, .throws) := a1
    have b2 : s2 = (n, .throws) := by
      show attempt _ s1 = _
      rw [b1]
      rfl
    have b3 : s3 = (n, .throws) := by
      show attempt _ s2 = _
      rw [b2]
      rfl
    have b4 : s4 = (n, .throws) := by
      show attempt _ s3 = _
      rw [b3]
      rfl
    rw [b4]
    refine .inl ⟨rfl, 0, by decide, ?_⟩
    show decBody F dec (.obj (d.top 0)) n = .ok n
    unfold decBody
    rw [opt_none hP (k := .name) (by rw [find_top']; simp)]
    simp only [Out.bind]
    rw [opt_none hP (k := .graphics) (by rw [find_top']; simp)]
    simp only [Out.bind]
    rw [opt_none hP (k := .T_base_to_world) (by rw [find_top']; simp)]
    simp only [Out.bind]
    rw [opt_none hP (k := .inertia_base) (by rw [find_top']; simp)]
    simp only [Out.bind]
    rw [opt_none hP (k := .rigid_bodies) (by rw [find_top']; simp)]
  · have b1 : s1 = (n, .ub) := a1
    have b2 : s2 = (n, .ub) := by
      show attempt _ s1 = _
      rw [b1]
      rfl
    have b3 : s3 = (n, .ub) := by
      show attempt _ s2 = _
      rw [b2]
      rfl
    have b4 : s4 = (n, .ub) := by
      show attempt _ s3 = _
      rw [b3]
      rfl
    rw [b4] at hu
    exact absurd rfl hu
  have b1 : s1 = (n1, .ok ()) := a1
  rcases attempt_cases (F.opt d .graphics (decodeVec (decGraphics F)) fun (n : Named) g => .ok { n with graphics := g }) n1 with
    ⟨n2, e2, a2⟩ | a2 | a2
  rotate_left
  · have b2 : s2 = (n1, .throws) := by
      show attempt _ s1 = _
      rw [b1]
      exact a2
    have b3 : s3 = (n1, .throws) := by
      show attempt _ s2 = _
      rw [b2]
      rfl
    have b4 : s4 = (n1, .throws) := by
      show attempt _ s3 = _
      rw [b3]
      rfl
    rw [b4]
    refine .inl ⟨rfl, 1, by decide, ?_⟩
    show decBody F dec (.obj (d.top 1)) n = .ok n1
    unfold decBody
    rw [opt_same hS hP (k := .name) (by rw [find_top']; simp) e1]
    simp only [Out.bind]
    rw [opt_none hP (k := .graphics) (by rw [find_top']; simp)]
    simp only [Out.bind]
    rw [opt_none hP (k := .T_base_to_world) (by rw [find_top']; simp)]
    simp only [Out.bind]
    rw [opt_none hP (k := .inertia_base) (by rw [find_top']; simp)]
    simp only [Out.bind]
    rw [opt_none hP (k := .rigid_bodies) (by rw [find_top']; simp)]
  · have b2 : s2 = (n1, .ub) := by
      show attempt _ s1 = _
      rw [b1]
      exact a2
    have b3 : s3 = (n1, .ub) := by
      show attempt _ s2 = _
      rw [b2]
      rfl
    have b4 : s4 = (n1, .ub) := by
      show attempt _ s3 = _
      rw [b3]
      rfl
    rw [b4] at hu
    exact absurd rfl hu
  have b2 : s2 = (n2, .ok ()) := by
    show attempt _ s1 = _
    rw [b1]
    exact a2
  rcases attempt_cases (F.opt d .T_base_to_world F.codec.decIso fun (n : Named) T => .ok { n with body := n.body.setBase T }) n2 with
    ⟨n3, e3, a3⟩ | a3 | a3
  rotate_left
  · have b3 : s3 = (n2, .throws) := by
      show attempt _ s2 = _
      rw [b2]
      exact a3
    have b4 : s4 = (n2, .throws) := by
      show attempt _ s3 = _
      rw [b3]
      rfl
    rw [b4]
    refine .inl ⟨rfl, 2, by decide, ?_⟩
    show decBody F dec (.obj (d.top 2)) n = .ok n2
    unfold decBody
    rw [opt_same hS hP (k := .name) (by rw [find_top']; simp) e1]
    simp only [Out.bind]
    rw [opt_same hS hP (k := .graphics) (by rw [find_top']; simp) e2]
    simp only [Out.bind]
    rw [opt_none hP (k := .T_base_to_world) (by rw [find_top']; simp)]
    simp only [Out.bind]
    rw [opt_none hP (k := .inertia_base) (by rw [find_top']; simp)]
    simp only [Out.bind]
    rw [opt_none hP (k := .rigid_bodies) (by rw [find_top']; simp)]
  · have b3 : s3 = (n2, .ub) := by
      show attempt _ s2 = _
      rw [b2]
      exact a3
    have b4 : s4 = (n2, .ub) := by
      show attempt _ s3 = _
      rw [b3]
      rfl
    rw [b4] at hu
    exact absurd rfl hu
  have b3 : s3 = (n3, .ok ()) := by
    show attempt _ s2 = _
    rw [b2]
    exact a3
  rcases attempt_cases (F.opt d .inertia_base (decInertia F) fun (n : Named) I => (n.body.setInertiaBase I).map fun b => { n with body := b }) n3 with
    ⟨n4, e4, a4⟩ | a4 | a4
  rotate_left
  · have b4 : s4 = (n3, .throws) := by
      show attempt _ s3 = _
      rw [b3]
      exact a4
    rw [b4]
    refine .inl ⟨rfl, 3, by decide, ?_⟩
    show decBody F dec (.obj (d.top 3)) n = .ok n3
    unfold decBody
    rw [opt_same hS hP (k := .name) (by rw [find_top']; simp) e1]
    simp only [Out.bind]
    rw [opt_same hS hP (k := .graphics) (by rw [find_top']; simp) e2]
    simp only [Out.bind]
    rw [opt_same hS hP (k := .T_base_to_world) (by rw [find_top']; simp) e3]
    simp only [Out.bind]
    rw [opt_none hP (k := .inertia_base) (by rw [find_top']; simp)]
    simp only [Out.bind]
    rw [opt_none hP (k := .rigid_bodies) (by rw [find_top']; simp)]
  · have b4 : s4 = (n3, .ub) := by
      show attempt _ s3 = _
      rw [b3]
      exact a4
    rw [b4] at hu
    exact absurd rfl hu
  have b4 : s4 = (n4, .ok ()) := by
    show attempt _ s3 = _
    rw [b3]
    exact a4
  rw [b4] at hu
  rw [b4]
  cases hg : F.get d .rigid_bodies with
  | throws =>
    refine .inl ⟨rfl, 4, le_rfl, ?_⟩
    show decBody F dec (.obj (d.top 4)) n = .ok n4
    unfold decBody
    rw [opt_same hS hP (k := .name) (by rw [find_top']; simp) e1]
    simp only [Out.bind]
    rw [opt_same hS hP (k := .graphics) (by rw [find_top']; simp) e2]
    simp only [Out.bind]
    rw [opt_same hS hP (k := .T_base_to_world) (by rw [find_top']; simp) e3]
    simp only [Out.bind]
    rw [opt_same hS hP (k := .inertia_base) (by rw [find_top']; simp) e4]
    simp only [Out.bind]
    rw [opt_none hP (k := .rigid_bodies) (by rw [find_top']; simp)]
  | ub =>
    rw [hg] at hu
    exact absurd rfl hu
  | ok r =>
    have hr := hS.get hg
    cases r with
    | none =>
      refine .inr (.inl ⟨rfl, hr.symm, ?_⟩)
      show decBody F dec (.obj (d.top 4)) n = .ok n4
      unfold decBody
      rw [opt_same hS hP (k := .name) (by rw [find_top']; simp) e1]
      simp only [Out.bind]
      rw [opt_same hS hP (k := .graphics) (by rw [find_top']; simp) e2]
      simp only [Out.bind]
      rw [opt_same hS hP (k := .T_base_to_world) (by rw [find_top']; simp) e3]
      simp only [Out.bind]
      rw [opt_same hS hP (k := .inertia_base) (by rw [find_top']; simp) e4]
      simp only [Out.bind]
      rw [opt_none hP (k := .rigid_bodies) (by rw [find_top']; simp)]
    | some v =>
      cases hi : F.items v with
      | throws =>
        simp only [Out.bind, hi]
        refine .inl ⟨trivial, 4, le_rfl, ?_⟩
        unfold decBody
        rw [opt_same hS hP (k := .name) (by rw [find_top']; simp) e1]
        simp only [Out.bind]
        rw [opt_same hS hP (k := .graphics) (by rw [find_top']; simp) e2]
        simp only [Out.bind]
        rw [opt_same hS hP (k := .T_base_to_world) (by rw [find_top']; simp) e3]
        simp only [Out.bind]
        rw [opt_same hS hP (k := .inertia_base) (by rw [find_top']; simp) e4]
        simp only [Out.bind]
        rw [opt_none hP (k := .rigid_bodies) (by rw [find_top']; simp)]
      | ub =>
        rw [hg] at hu
        simp only [Out.bind, hi] at hu
        exact absurd rfl hu
      | ok l =>
        simp only [Out.bind, hi]
        obtain ⟨i, k1, k2, k3, k4⟩ := readLinks_prefix (dec := dec) l n4
        have key : ∀ i, decBody F dec (d.links l i) n = decBodies dec (l.take i) n4 := by
          intro i
          rw [Doc.links]
          unfold decBody
          rw [opt_same hS hP (k := .name) (by rw [find_top]; simp [Doc.find]) e1]
          simp only [Out.bind]
          rw [opt_same hS hP (k := .graphics) (by rw [find_top]; simp [Doc.find]) e2]
          simp only [Out.bind]
          rw [opt_same hS hP (k := .T_base_to_world) (by rw [find_top]; simp [Doc.find]) e3]
          simp only [Out.bind]
          rw [opt_same hS hP (k := .inertia_base) (by rw [find_top]; simp [Doc.find]) e4]
          simp only [Out.bind]
          unfold Fmt.opt
          rw [hP.get, find_top]
          simp [Doc.find, Out.bind, hP.items]
        refine .inr (.inr ⟨v, l, i, k1, hr.symm, hi, (key i).trans k2, k3, fun h => ?_⟩)
        obtain ⟨h1, h2⟩ := k4 (by rw [h]; simp)
        exact ⟨h1, fun m hm => h2 m ((key (i + 1)).symm.trans hm)⟩

theorem Named.Extends.refl (n : Named) : n.Extends n := by constructor <;> simp

theorem Named.Extends.le {n m : Named} (h : n.Extends m) : n.body.dof ≤ m.body.dof := h.rbs.length_le

theorem Named.Extends.trans {a b c : Named} (h : a.Extends b) (k : b.Extends c) : a.Extends c := by
  have h1 := h.le
  have h2 := k.le
  have e : c.body.dof - a.body.dof = (b.body.dof - a.body.dof) + (c.body.dof - b.body.dof) := by omega
  exact ⟨h.rbs.trans k.rbs, h.tags.trans k.tags, by rw [k.q, h.q, e, List.replicate_add, List.append_assoc],
    by rw [k.dq, h.dq, e, List.replicate_add, List.append_assoc], k.g.trans h.g, k.load.trans h.load⟩

theorem attempt_extends {f : Named → Out Named} (hf : ∀ {n m}, f n = .ok m → n.Extends m)
    (s : Named × Out Unit) : s.1.Extends (attempt f s).1 := by
  obtain ⟨n, o⟩ := s
  cases o with
  | throws => exact .refl n
  | ub => exact .refl n
  | ok u =>
    rcases attempt_cases f n with ⟨m, h1, h2⟩ | h | h
    · show n.Extends (attempt f (n, .ok ())).1
      rw [h2]
      exact hf h1
    · show n.Extends (attempt f (n, .ok ())).1
      rw [h]
      exact .refl n
    · show n.Extends (attempt f (n, .ok ())).1
      rw [h]
      exact .refl n

theorem opt_extends {α : Type*} {k : Key} {g : Doc → Out α} {f : Named → α → Out Named}
    (hf : ∀ {n a m}, f n a = .ok m → n.Extends m) {n m : Named} (h : F.opt d k g f n = .ok m) : n.Extends m := by
  unfold Fmt.opt at h
  obtain ⟨r, -, h⟩ := Body.Out.bind_ok h
  cases r with
  | none => cases h; exact .refl n
  | some v =>
    obtain ⟨a, -, h⟩ := Body.Out.bind_ok h
    exact hf h

theorem addRigidBody_extends {n m : Named} {t : Tag} {rb : RB} {p : ℤ} (h : n.addRigidBody t rb p = .ok m) :
    n.Extends m := by
  unfold Named.addRigidBody at h
  cases e : n.body.addRigidBody rb p with
  | throws => rw [e] at h; cases h
  | ub => rw [e] at h; cases h
  | ok r =>
    rw [e] at h
    cases h
    unfold Body.addRigidBody at e
    extract_lets id rb' ancP at e
    split at e
    · cases e
    · cases e
      constructor <;> simp [Body.dof]

theorem readLinks_extends (l : List Doc) : ∀ s : Named × Out Unit, s.1.Extends (readLinks dec l s).1 := by
  induction l with
  | nil => exact fun s => .refl s.1
  | cons e l ih =>
    intro s
    refine .trans (attempt_extends (fun {n m} h => ?_) s) (ih _)
    obtain ⟨x, -, h⟩ := Body.Out.bind_ok h
    exact addRigidBody_extends h

theorem readBody_extends (d : Doc) (n : Named) : n.Extends (readBody F dec d n).1 := by
  unfold readBody
  extract_lets s1 s2 s3 s4
  have e : n.Extends s4.1 := by
    refine .trans (.trans (.trans (attempt_extends (opt_extends fun {n a m} h => ?_) (n, .ok ()))
      (attempt_extends (opt_extends fun {n a m} h => ?_) s1))
      (attempt_extends (opt_extends fun {n a m} h => ?_) s2)) (attempt_extends (opt_extends fun {n a m} h => ?_) s3)
    · cases h
      constructor <;> simp
    · cases h
      constructor <;> simp
    · cases h
      constructor <;> simp [Body.setBase, Body.dof]
    · unfold Body.setInertiaBase at h
      split at h
      · cases h
      · cases h
        constructor <;> simp [Body.dof]
  split
  · exact e.trans (readLinks_extends _ _)
  · exact e
  · exact e
  · exact e

/-- How many links were added. -/
theorem decBody_dof (hS : F.Strict C) {m : Named} (h : decBody F dec d n = .ok m) :
    (Doc.find .rigid_bodies d.entries = none → m.body.dof = n.body.dof) ∧
    ∀ l, Doc.find .rigid_bodies d.entries = some (.arr l) → m.body.dof = n.body.dof + l.length := by
  obtain ⟨n1, a1, -, -, -, -, -, -, a5⟩ := decBody_inv (E := ext0) hS h
  have e1 : n1.body.dof = n.body.dof := by unfold Body.dof; rw [a1]
  rcases a5 with ⟨e, rfl⟩ | ⟨v, l, e, hi, hb⟩
  · exact ⟨fun _ => e1, fun l hl => by rw [e] at hl; cases hl⟩
  · refine ⟨fun hl => (by rw [e] at hl; cases hl), fun l' hl => ?_⟩
    rw [e] at hl
    cases hl
    cases hS.items hi
    obtain ⟨xs, x1, -, x3⟩ := decBodies_inv hb
    rw [← e1]
    unfold Body.dof
    rw [x3.rbs, List.length_append, place_length, List.length_map, x1.length_eq]

theorem decBodies_take {l : List Doc} {i j : ℕ} (hij : i ≤ j) {n m : Named}
    (h : decBodies dec (l.take j) n = .ok m) : ∃ m', decBodies dec (l.take i) n = .ok m' := by
  induction l generalizing n i j with
  | nil => exact ⟨n, by simp [decBodies]⟩
  | cons e l ih =>
    cases i with
    | zero => exact ⟨n, rfl⟩
    | succ i =>
      obtain ⟨j, rfl⟩ : ∃ j', j = j' + 1 := ⟨j - 1, by omega⟩
      rw [List.take_succ_cons, decBodies] at h ⊢
      obtain ⟨x, x1, h⟩ := Body.Out.bind_ok h
      obtain ⟨m', x2, h⟩ := Body.Out.bind_ok h
      obtain ⟨m2, h2⟩ := ih (i := i) (by omega) h
      exact ⟨m2, by simp only [x1, Out.bind, x2, h2]⟩

/-! ## Properties -/

/-- C122: whether a document is accepted, and the body when it is, do not depend on whether it is read into
an existing body in place. -/
theorem C122_accepted (C : Codec) (d : Doc) (n m : Named) :
    ((readJson C d n).2 = .ok () ∧ (readJson C d n).1 = m ↔ fromJson C d n = .ok m) ∧
    ((readYaml C d n).2 = .ok () ∧ (readYaml C d n).1 = m ↔ fromYaml C d n = .ok m) := by
  have key : ∀ s : Named × Out Unit, s.2 = .ok () ∧ s.1 = m ↔ result s = .ok m := by
    rintro ⟨x, o⟩
    cases o <;> simp [result, Out.map, Out.bind]
  exact ⟨(key _).trans (by rw [readJson, readBody_result]; rfl),
    (key _).trans (by rw [readYaml, readBody_result]; rfl)⟩

/-- C122: a JSON document that is refused leaves the body as if a shorter document had been read: the first
few entries about the robot as a whole, or all of these and the first few links. -/
theorem C122_json_beginning (C : Codec) (d : Doc) (n : Named) (h : (readJson C d n).2 = .throws) :
    (∃ j ≤ 4, fromJson C (.obj (d.top j)) n = .ok (readJson C d n).1 ∧
      (readJson C d n).1.body.dof = n.body.dof) ∨
    ∃ v, ∃ i < v.listed.length, Doc.find .rigid_bodies d.entries = some v ∧
      fromJson C (d.links v.listed i) n = .ok (readJson C d n).1 ∧
      (readJson C d n).1.body.dof = n.body.dof + i ∧
      ∀ m, fromJson C (d.links v.listed (i + 1)) n ≠ .ok m := by
  have hu : (readBody (jsonFmt C) (jsonRigidBody C) d n).2 ≠ .ub := by
    rw [show (readBody (jsonFmt C) (jsonRigidBody C) d n).2 = .throws from h]
    simp
  have dofs : ∀ {l i m}, decBody (jsonFmt C) (jsonRigidBody C) (d.links l i) n = .ok m → i < l.length →
      m.body.dof = n.body.dof + i := by
    intro l i m h hi
    have := (decBody_dof (jsonFmt_strict C) h).2 (l.take i) (by
      show Doc.find _ (d.top 4 ++ _) = _
      rw [find_top]
      simp [Doc.find])
    rw [this, List.length_take, min_eq_left hi.le]
  rcases readBody_beginning (jsonFmt_strict C) (jsonFmt_plain C) d n hu with
    ⟨-, j, hj, h1⟩ | ⟨h1, -⟩ | ⟨v, l, i, -, h1, h2, h3, -, h5⟩
  · exact .inl ⟨j, hj, h1, (decBody_dof (jsonFmt_strict C) h1).1 (by
      show Doc.find _ (d.top j) = none
      rw [find_top', if_neg]
      exact fun hm => absurd (List.mem_of_mem_take hm) (by decide))⟩
  · rw [show (readBody (jsonFmt C) (jsonRigidBody C) d n).2 = .throws from h] at h1
    cases h1
  · have e : v.listed = l := by
      cases v <;> cases h2 <;> rfl
    subst e
    exact .inr ⟨v, i, (h5 h).1, h1, h3, dofs h3 (h5 h).1, (h5 h).2⟩

/-- C122: the same for YAML. -/
theorem C122_yaml_beginning (C : Codec) (d : Doc) (n : Named) (h : (readYaml C d n).2 = .throws) :
    (∃ j ≤ 4, fromYaml C (.obj (d.top j)) n = .ok (readYaml C d n).1 ∧
      (readYaml C d n).1.body.dof = n.body.dof) ∨
    ∃ l, ∃ i < l.length, Doc.find .rigid_bodies d.entries = some (.arr l) ∧
      fromYaml C (d.links l i) n = .ok (readYaml C d n).1 ∧
      (readYaml C d n).1.body.dof = n.body.dof + i ∧
      ∀ m, fromYaml C (d.links l (i + 1)) n ≠ .ok m := by
  have hu : (readBody (yamlFmt C) (yamlRigidBody C) d n).2 ≠ .ub := by
    rw [show (readBody (yamlFmt C) (yamlRigidBody C) d n).2 = .throws from h]
    simp
  have dofs : ∀ {l i m}, decBody (yamlFmt C) (yamlRigidBody C) (d.links l i) n = .ok m → i < l.length →
      m.body.dof = n.body.dof + i := by
    intro l i m h hi
    have := (decBody_dof (yamlFmt_strict C) h).2 (l.take i) (by
      show Doc.find _ (d.top 4 ++ _) = _
      rw [find_top]
      simp [Doc.find])
    rw [this, List.length_take, min_eq_left hi.le]
  rcases readBody_beginning (yamlFmt_strict C) (yamlFmt_plain C) d n hu with
    ⟨-, j, hj, h1⟩ | ⟨h1, -⟩ | ⟨v, l, i, -, h1, h2, h3, -, h5⟩
  · exact .inl ⟨j, hj, h1, (decBody_dof (yamlFmt_strict C) h1).1 (by
      show Doc.find _ (d.top j) = none
      rw [find_top', if_neg]
      exact fun hm => absurd (List.mem_of_mem_take hm) (by decide))⟩
  · rw [show (readBody (yamlFmt C) (yamlRigidBody C) d n).2 = .throws from h] at h1
    cases h1
  · have hl := (h5 h).1
    have e : v = .arr l := by
      revert h2
      show (match v with
        | .arr l => Out.ok l
        | .obj [] => .ok []
        | .obj _ => .throws
        | _ => .ok []) = _ → _
      split <;> intro h2 <;> cases h2
      · rfl
      · exact absurd hl (by simp)
      · exact absurd hl (by simp)
    subst e
    exact .inr ⟨l, i, hl, h1, h3, dofs h3 hl, (h5 h).2⟩

/-- C122: accepted or refused, the body is one that the other theorems are about. -/
theorem C122_legal (hR : C.Rigid) (h0 : Reach E n.body false) (hp : n.Proper) (d : Doc) :
    ((readJson C d n).2 ≠ .ub → (readJson C d n).1.Proper ∧ Reach E (readJson C d n).1.body false) ∧
    ((readYaml C d n).2 ≠ .ub → (readYaml C d n).1.Proper ∧ Reach E (readYaml C d n).1.body false) := by
  constructor
  · intro hu
    rcases readBody_beginning (jsonFmt_strict C) (jsonFmt_plain C) d n hu with
      ⟨-, j, -, h1⟩ | ⟨-, -, h1⟩ | ⟨v, l, i, -, -, -, h1, -⟩ <;>
      exact C77_json_proper hR h0 hp h1
  · intro hu
    rcases readBody_beginning (yamlFmt_strict C) (yamlFmt_plain C) d n hu with
      ⟨-, j, -, h1⟩ | ⟨-, -, h1⟩ | ⟨v, l, i, -, -, -, h1, -⟩ <;>
      exact C77_yaml_proper hR h0 hp h1

/-- C122: whatever the outcome, the links and joint state of before are there, at the same indices. -/
theorem C122_kept (C : Codec) (d : Doc) (n : Named) :
    n.Extends (readJson C d n).1 ∧ n.Extends (readYaml C d n).1 :=
  ⟨readBody_extends d n, readBody_extends d n⟩

/-- C122: "a refused document leaves the body as it was" holds when nothing can be read before the entry
that is refused: no entry about the robot as a whole, and the first link alone refused. -/
theorem C122_unchanged_partial (C : Codec) (d : Doc) (n : Named) (h : (readJson C d n).2 = .throws)
    (ht : ∀ k ∈ [Key.name, .graphics, .T_base_to_world, .inertia_base], Doc.find k d.entries = none)
    (hl : ∀ v, Doc.find .rigid_bodies d.entries = some v →
      ∀ m, fromJson C (.obj [(.rigid_bodies, .arr (v.listed.take 1))]) n ≠ .ok m) :
    (readJson C d n).1 = n := by
  have e : ∀ j, d.top j = [] := by
    intro j
    unfold Doc.top
    rw [List.filterMap_eq_nil_iff]
    intro k hk
    rw [ht k (List.mem_of_mem_take hk)]
    rfl
  have run : ∀ l, fromJson C (.obj [(.rigid_bodies, .arr l)]) n = decBodies (jsonRigidBody C) l n := fun _ => rfl
  rcases C122_json_beginning C d n h with ⟨j, -, h1, -⟩ | ⟨v, i, -, h1, h2, -⟩
  · rw [e] at h1
    have h0 : fromJson C (.obj []) n = .ok n := rfl
    rw [h0] at h1
    exact (Out.ok.inj h1).symm
  · rw [Doc.links, e, List.nil_append, run] at h2
    cases i with
    | zero =>
      have h0 : decBodies (jsonRigidBody C) (v.listed.take 0) n = .ok n := rfl
      rw [h0] at h2
      exact (Out.ok.inj h2).symm
    | succ i =>
      obtain ⟨m, hm⟩ := decBodies_take (i := 1) (by omega) h2
      exact absurd ((run _).trans hm) (hl v h1 m)

/-- C122: in general it does not: the links before the one that is refused have been added. -/
theorem C122_violated : ∃ (d : Doc) (n : Named), n.Proper ∧ Reach ext0 n.body false ∧ codec1.Rigid ∧
    (readJson codec1 d n).2 = .throws ∧ (readJson codec1 d n).1.body.dof = n.body.dof + 1 ∧
    (readYaml codec1 d n).2 = .throws ∧ (readYaml codec1 d n).1.body.dof = n.body.dof + 1 :=
  ⟨.obj [(.rigid_bodies, .arr [.obj [], .obj [(.joint, .obj [(.type, .str ['q'])])]])],
    Named.init cache0, named_init_proper cache0, .init cache0, codec1_rigid, rfl, rfl, rfl, rfl⟩

/-- The hypotheses of `C122_unchanged_partial`: a single link with a joint of an unknown type, read into the
witness arm. -/
example : ∃ d : Doc, (readJson codec1 d demoNamed).2 = .throws ∧
    (∀ k ∈ [Key.name, .graphics, .T_base_to_world, .inertia_base], Doc.find k d.entries = none) ∧
    ∀ v, Doc.find .rigid_bodies d.entries = some v →
      ∀ m, fromJson codec1 (.obj [(.rigid_bodies, .arr (v.listed.take 1))]) demoNamed ≠ .ok m := by
  refine ⟨.obj [(.rigid_bodies, .arr [.obj [(.joint, .obj [(.type, .str ['q'])])]])], rfl, ?_, ?_⟩
  · intro k hk
    simp only [List.mem_cons, List.not_mem_nil, or_false] at hk
    rcases hk with rfl | rfl | rfl | rfl <;> rfl
  · intro v hv m hm
    cases hv
    cases hm

end SpatialDyn
