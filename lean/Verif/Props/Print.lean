import Mathlib.Data.List.SplitOn
import Verif.Model.Print
import Verif.Props.Document

/-! # Property C141: what a printed robot tells -/

namespace SpatialDyn

/-! ## Specification -/

/-- How users write the type of a joint. -/
def typeWord : JType → String
  | .rx => "rx" | .ry => "ry" | .rz => "rz" | .px => "px" | .py => "py" | .pz => "pz"
  | .undefined => "undefined"

/-- What a line about a link says. -/
def linkLine (name : Str) (id parent : ℤ) (t : JType) : Str :=
  "RigidBody(name=\"".toList ++ name ++ "\", id=".toList ++ (toString id).toList ++
    ", id_parent=".toList ++ (toString parent).toList ++ ", joint=".toList ++ (typeWord t).toList ++
    ")".toList

/-- The words of a line: what stands between spaces. -/
def words (s : Str) : List Str := (s.splitOn ' ').filter fun w => !w.isEmpty

/-! ## Texts of numbers -/

theorem intText_eq (z : ℤ) : intText z = (toString z).toList := by
  cases z with
  | ofNat n =>
    show Nat.toDigits 10 n = (Nat.repr n).toList
    rw [Nat.toList_repr]
  | negSucc n =>
    show '-' :: Nat.toDigits 10 (n + 1) = ("-" ++ Nat.repr (n + 1)).toList
    rw [String.toList_append, Nat.toList_repr]
    rfl

theorem toDigits_inj {m n : ℕ} (h : Nat.toDigits 10 m = Nat.toDigits 10 n) : m = n := by
  rw [← Nat.ofDigitChars_ten_toDigits (n := m), h, Nat.ofDigitChars_ten_toDigits]

theorem digit_of {c : Char} {n : ℕ} (h : c ∈ Nat.toDigits 10 n) : c.isDigit = true :=
  Nat.isDigit_of_mem_toDigits (by norm_num) (by norm_num) h

theorem intText_inj {x y : ℤ} (h : intText x = intText y) : x = y := by
  have hd : ∀ m n : ℕ, Nat.toDigits 10 m ≠ '-' :: Nat.toDigits 10 n := by
    intro m n he
    have : '-' ∈ Nat.toDigits 10 m := by rw [he]; exact List.mem_cons_self
    exact absurd (digit_of this) (by decide)
  cases x with
  | ofNat m =>
    cases y with
    | ofNat n => exact congrArg _ (toDigits_inj h)
    | negSucc n => exact absurd h (hd _ _)
  | negSucc m =>
    cases y with
    | ofNat n => exact absurd h.symm (hd _ _)
    | negSucc n =>
      have := toDigits_inj (List.cons_injective.eq_iff.1 h)
      rw [Nat.succ_injective this]

/-- Digits and the minus sign are the only characters. -/
theorem intText_mem {z : ℤ} {c : Char} (h : c ∈ intText z) : c.isDigit = true ∨ c = '-' := by
  cases z with
  | ofNat n => exact Or.inl (digit_of h)
  | negSucc n =>
    rcases List.mem_cons.1 h with h | h
    · exact Or.inr h
    · exact Or.inl (digit_of h)

theorem intText_not {c : Char} (h1 : c.isDigit = false) (h2 : c ≠ '-') (z : ℤ) : c ∉ intText z := by
  intro h
  rcases intText_mem h with h | h
  · rw [h] at h1; cases h1
  · exact h2 h

/-! ## Cutting texts -/

/-- Texts cut at the last occurrence of a character. -/
theorem cut_last {α : Type*} {c : α} : ∀ {a a' x x' : List α}, c ∉ x → c ∉ x' →
    a ++ c :: x = a' ++ c :: x' → a = a' ∧ x = x'
  | [], [], _, _, _, _, h => ⟨rfl, (List.cons.inj h).2⟩
  | [], y :: a', x, x', hx, _, h => by
    have := (List.cons.inj h).2
    exact absurd (this ▸ (by simp : c ∈ a' ++ c :: x')) hx
  | y :: a, [], x, x', _, hx', h => by
    have := (List.cons.inj h).2
    exact absurd (this ▸ (by simp : c ∈ a ++ c :: x)) hx'
  | y :: a, z :: a', x, x', hx, hx', h => by
    obtain ⟨h1, h2⟩ := List.cons.inj h
    obtain ⟨e1, e2⟩ := cut_last hx hx' h2
    exact ⟨by rw [h1, e1], e2⟩

/-- Texts cut at the first occurrence of a character. -/
theorem cut_first {α : Type*} {c : α} : ∀ {a a' x x' : List α}, c ∉ a → c ∉ a' →
    a ++ c :: x = a' ++ c :: x' → a = a' ∧ x = x'
  | [], [], _, _, _, _, h => ⟨rfl, (List.cons.inj h).2⟩
  | [], y :: a', x, x', _, ha', h => by
    exact absurd ((List.cons.inj h).1 ▸ List.mem_cons_self) ha'
  | y :: a, [], x, x', ha, _, h => by
    exact absurd ((List.cons.inj h).1 ▸ List.mem_cons_self) ha
  | y :: a, z :: a', x, x', ha, ha', h => by
    obtain ⟨h1, h2⟩ := List.cons.inj h
    obtain ⟨e1, e2⟩ := cut_first (fun k => ha (List.mem_cons_of_mem _ k))
      (fun k => ha' (List.mem_cons_of_mem _ k)) h2
    exact ⟨by rw [h1, e1], e2⟩

theorem typeWord_name (t : JType) : t.name = (typeWord t).toList := by cases t <;> rfl

theorem name_inj {s t : JType} (h : s.name = t.name) : s = t := by
  revert h; cases s <;> cases t <;> decide

theorem name_plain (t : JType) : ',' ∉ t.name ∧ '"' ∉ t.name ∧ '\n' ∉ t.name := by
  cases t <;> decide

/-! ## Links -/

theorem linkText_eq (t : Tag) (rb : RB) :
    linkText t rb = linkLine t.name rb.id rb.idParent rb.joint.type := by
  unfold linkText linkLine
  rw [intText_eq, intText_eq, typeWord_name]

/-- Texts made of fixed pieces and four fields. -/
theorem link_shape {p0 p1 p2 p3 p4 n n' i i' p p' t t' : Str} (hi : ',' ∉ i) (hi' : ',' ∉ i')
    (hp : ',' ∉ p) (hp' : ',' ∉ p') (hq : '"' ∉ p1 ∧ '"' ∉ p2 ∧ '"' ∉ p3 ∧ '"' ∉ p4)
    (hx : '"' ∉ i ∧ '"' ∉ p ∧ '"' ∉ t) (hx' : '"' ∉ i' ∧ '"' ∉ p' ∧ '"' ∉ t')
    (h : p0 ++ n ++ ('"' :: p1) ++ i ++ (',' :: p2) ++ p ++ (',' :: p3) ++ t ++ p4 =
      p0 ++ n' ++ ('"' :: p1) ++ i' ++ (',' :: p2) ++ p' ++ (',' :: p3) ++ t' ++ p4) :
    n = n' ∧ i = i' ∧ p = p' ∧ t = t' := by
  simp only [List.append_assoc, List.cons_append] at h
  obtain ⟨q1, q2, q3, q4⟩ := hq
  obtain ⟨x1, x2, x3⟩ := hx
  obtain ⟨y1, y2, y3⟩ := hx'
  obtain ⟨e1, h⟩ := cut_last (by simp [*]) (by simp [*]) (List.append_cancel_left h)
  obtain ⟨e2, h⟩ := cut_first hi hi' (List.append_cancel_left h)
  obtain ⟨e3, h⟩ := cut_first hp hp' (List.append_cancel_left h)
  exact ⟨e1, e2, e3, List.append_cancel_right (List.append_cancel_left h)⟩

theorem id_split : "\", id=".toList = '"' :: ", id=".toList := by simp
theorem parent_split : ", id_parent=".toList = ',' :: " id_parent=".toList := by simp
theorem joint_split : ", joint=".toList = ',' :: " joint=".toList := by simp
theorem dof_split : "\", dof=".toList = '"' :: ", dof=".toList := by simp

/-- C141: the printed form of a link determines its name, number, parent and joint type, whatever
characters the name consists of. -/
theorem C141_link (t t' : Tag) (r r' : RB) : linkText t r = linkText t' r' ↔
    t.name = t'.name ∧ r.id = r'.id ∧ r.idParent = r'.idParent ∧ r.joint.type = r'.joint.type := by
  constructor
  · intro h
    unfold linkText at h
    rw [id_split, parent_split, joint_split] at h
    have hq := intText_not (c := '"') (by decide) (by decide)
    have hc := intText_not (c := ',') (by decide) (by decide)
    obtain ⟨e1, e2, e3, e4⟩ := link_shape (hc _) (hc _) (hc _) (hc _)
      ⟨by simp, by simp, by simp, by simp⟩ ⟨hq _, hq _, (name_plain _).2.1⟩
      ⟨hq _, hq _, (name_plain _).2.1⟩ h
    exact ⟨e1, intText_inj e2, intText_inj e3, name_inj e4⟩
  · rintro ⟨h1, h2, h3, h4⟩
    unfold linkText
    rw [h1, h2, h3, h4]

/-- C141: the same for `repr` of a link in Python. -/
theorem C141_link_repr (t t' : Tag) (r r' : RB) : linkRepr t r = linkRepr t' r' ↔
    t.name = t'.name ∧ r.id = r'.id ∧ r.idParent = r'.idParent ∧ r.joint.type = r'.joint.type := by
  unfold linkRepr
  rw [List.append_right_inj, C141_link]

theorem joint_shape {p0 p1 p3 p4 p5 p6 p7 p8 t a b c e f g k t' a' b' c' e' f' g' k' : Str}
    (ht : ',' ∉ t ∧ ',' ∉ t') (ha : ' ' ∉ a ∧ ' ' ∉ a') (hb : ']' ∉ b ∧ ']' ∉ b')
    (hc : ',' ∉ c ∧ ',' ∉ c') (he : ',' ∉ e ∧ ',' ∉ e') (hf : ',' ∉ f ∧ ',' ∉ f')
    (hg : ',' ∉ g ∧ ',' ∉ g')
    (h : p0 ++ t ++ (',' :: p1) ++ a ++ (' ' :: []) ++ b ++ (']' :: p3) ++ c ++ (',' :: p4) ++ e ++
      (',' :: p5) ++ f ++ (',' :: p6) ++ g ++ (',' :: p7) ++ k ++ p8 =
      p0 ++ t' ++ (',' :: p1) ++ a' ++ (' ' :: []) ++ b' ++ (']' :: p3) ++ c' ++ (',' :: p4) ++ e' ++
      (',' :: p5) ++ f' ++ (',' :: p6) ++ g' ++ (',' :: p7) ++ k' ++ p8) :
    t = t' ∧ a = a' ∧ b = b' ∧ c = c' ∧ e = e' ∧ f = f' ∧ g = g' ∧ k = k' := by
  simp only [List.append_assoc, List.cons_append, List.nil_append] at h
  obtain ⟨e1, h⟩ := cut_first ht.1 ht.2 (List.append_cancel_left h)
  obtain ⟨e2, h⟩ := cut_first ha.1 ha.2 (List.append_cancel_left h)
  obtain ⟨e3, h⟩ := cut_first hb.1 hb.2 h
  obtain ⟨e4, h⟩ := cut_first hc.1 hc.2 (List.append_cancel_left h)
  obtain ⟨e5, h⟩ := cut_first he.1 he.2 (List.append_cancel_left h)
  obtain ⟨e6, h⟩ := cut_first hf.1 hf.2 (List.append_cancel_left h)
  obtain ⟨e7, h⟩ := cut_first hg.1 hg.2 (List.append_cancel_left h)
  exact ⟨e1, e2, e3, e4, e5, e6, e7, List.append_cancel_right (List.append_cancel_left h)⟩

theorem joint_pieces : ", q_lim=[".toList = ',' :: " q_lim=[".toList ∧ " ".toList = ' ' :: [] ∧
    "], dq_max=".toList = ']' :: ", dq_max=".toList ∧ ", fq_max=".toList = ',' :: " fq_max=".toList ∧
    ", f_coulomb=".toList = ',' :: " f_coulomb=".toList ∧
    ", f_viscous=".toList = ',' :: " f_viscous=".toList ∧
    ", f_stiction=".toList = ',' :: " f_stiction=".toList := by
  refine ⟨?_, ?_, ?_, ?_, ?_, ?_, ?_⟩ <;> simp

/-- C141: the printed form of a joint determines its type and what is printed of its limits and friction
coefficients, if the texts of numbers contain no space, comma or bracket. -/
theorem C141_joint {num : Dbl → Str} (hn : ∀ x, ' ' ∉ num x ∧ ',' ∉ num x ∧ ']' ∉ num x)
    (j j' : Joint) : jointText num j = jointText num j' ↔
    j.type = j'.type ∧ num j.qMin = num j'.qMin ∧ num j.qMax = num j'.qMax ∧
    num j.dqMax = num j'.dqMax ∧ num j.fqMax = num j'.fqMax ∧ num j.fCoulomb = num j'.fCoulomb ∧
    num j.fViscous = num j'.fViscous ∧ num j.fStiction = num j'.fStiction := by
  constructor
  · intro h
    unfold jointText at h
    obtain ⟨k1, k2, k3, k4, k5, k6, k7⟩ := joint_pieces
    rw [k1, k2, k3, k4, k5, k6, k7] at h
    have hc : ∀ x y, ',' ∉ num x ∧ ',' ∉ num y := fun x y => ⟨(hn x).2.1, (hn y).2.1⟩
    obtain ⟨e1, e⟩ := joint_shape ⟨(name_plain _).1, (name_plain _).1⟩ ⟨(hn _).1, (hn _).1⟩
      ⟨(hn _).2.2, (hn _).2.2⟩ (hc _ _) (hc _ _) (hc _ _) (hc _ _) h
    exact ⟨name_inj e1, e⟩
  · rintro ⟨h1, h2, h3, h4, h5, h6, h7, h8⟩
    unfold jointText
    rw [h1, h2, h3, h4, h5, h6, h7, h8]

/-- C141: the same for `repr` of a joint in Python. -/
theorem C141_joint_repr {num : Dbl → Str} (hn : ∀ x, ' ' ∉ num x ∧ ',' ∉ num x ∧ ']' ∉ num x)
    (j j' : Joint) : jointRepr num j = jointRepr num j' ↔
    j.type = j'.type ∧ num j.qMin = num j'.qMin ∧ num j.qMax = num j'.qMax ∧
    num j.dqMax = num j'.dqMax ∧ num j.fqMax = num j'.fqMax ∧ num j.fCoulomb = num j'.fCoulomb ∧
    num j.fViscous = num j'.fViscous ∧ num j.fStiction = num j'.fStiction := by
  unfold jointRepr
  rw [List.append_right_inj, C141_joint hn]

theorem repr_shape {p0 p1 p2 n n' i i' : Str} (hq : '"' ∉ p1 ∧ '"' ∉ p2) (hx : '"' ∉ i ∧ '"' ∉ i')
    (h : p0 ++ n ++ ('"' :: p1) ++ i ++ p2 = p0 ++ n' ++ ('"' :: p1) ++ i' ++ p2) :
    n = n' ∧ i = i' := by
  simp only [List.append_assoc, List.cons_append] at h
  obtain ⟨q1, q2⟩ := hq
  obtain ⟨x1, x2⟩ := hx
  obtain ⟨e1, h⟩ := cut_last (by simp [*]) (by simp [*]) (List.append_cancel_left h)
  exact ⟨e1, List.append_cancel_right (List.append_cancel_left h)⟩

/-- C141: `repr` of a robot in Python determines its name and the number of its joints. -/
theorem C141_repr (n m : Named) :
    bodyRepr n = bodyRepr m ↔ n.name = m.name ∧ n.body.dof = m.body.dof := by
  constructor
  · intro h
    unfold bodyRepr at h
    rw [dof_split] at h
    have hq := intText_not (c := '"') (by decide) (by decide)
    obtain ⟨e1, e2⟩ := repr_shape ⟨by simp, by simp⟩ ⟨hq _, hq _⟩ h
    exact ⟨e1, by exact_mod_cast intText_inj e2⟩
  · rintro ⟨h1, h2⟩
    unfold bodyRepr
    rw [h1, h2]

/-! ## Robots -/

/-- The lines about the links. -/
def linkLines (first : Bool) : List (Tag × RB) → List Str
  | [] => []
  | x :: l => ((if first then "  rigid_bodies: ".toList else "                ".toList) ++
      linkText x.1 x.2) :: linkLines false l

theorem inter_cons (a : Str) {l : List Str} (h : l ≠ []) :
    ['\n'].intercalate (a :: l) = a ++ ['\n'] ++ ['\n'].intercalate l := by
  rw [List.intercalate_cons_of_ne_nil h]

theorem linksText_lines (f : Bool) (l : List (Tag × RB)) :
    linksText f l = ['\n'].intercalate (linkLines f l ++ [[]]) := by
  induction l generalizing f with
  | nil => rfl
  | cons x l ih =>
    rw [linksText, linkLines, ih, List.cons_append, inter_cons _ (by simp)]

theorem linkLines_length (f : Bool) (l : List (Tag × RB)) : (linkLines f l).length = l.length := by
  induction l generalizing f with
  | nil => rfl
  | cons x l ih => rw [linkLines, List.length_cons, ih, List.length_cons]

theorem linkLines_get (f : Bool) (l : List (Tag × RB)) (k : ℕ) (hk : k < l.length) :
    ∃ w, w.length = 16 ∧ (linkLines f l)[k]? = some (w ++ linkText l[k].1 l[k].2) := by
  induction l generalizing f k with
  | nil => exact absurd hk (Nat.not_lt_zero _)
  | cons x l ih =>
    cases k with
    | zero => exact ⟨_, by cases f <;> rfl, rfl⟩
    | succ k =>
      obtain ⟨w, h1, h2⟩ := ih false k (by simpa using hk)
      refine ⟨w, h1, ?_⟩
      rw [linkLines, List.getElem?_cons_succ, h2]
      rfl

/-- All lines of a printed robot. -/
def bodyLines (num : ℝ → Str) (n : Named) : List Str :=
  ("ArticulatedBody(name=\"".toList ++ n.name ++ "\", dof=".toList ++ intText n.body.dof ++ ")".toList) ::
  ("             q: ".toList ++ rowText num n.body.q) ::
  ("            dq: ".toList ++ rowText num n.body.dq) ::
  ("             g: ".toList ++ rowText num [n.body.g.x, n.body.g.y, n.body.g.z]) ::
  (linkLines true (n.tags.zip n.body.rbs) ++ [[]])

theorem bodyLines_get (num : ℝ → Str) (n : Named) (k : ℕ) :
    (bodyLines num n)[k + 4]? = (linkLines true (n.tags.zip n.body.rbs) ++ [[]])[k]? := rfl

theorem bodyText_lines (num : ℝ → Str) (n : Named) :
    bodyText num n = ['\n'].intercalate (bodyLines num n) := by
  unfold bodyText bodyLines
  rw [linksText_lines, inter_cons _ (by simp), inter_cons _ (by simp), inter_cons _ (by simp),
    inter_cons _ (by simp)]
  simp only [List.append_assoc]

theorem intercalate_plain {c : Char} (hc : c ≠ ' ') : ∀ l : List Str, (∀ s ∈ l, c ∉ s) →
    c ∉ [' '].intercalate l
  | [], _ => by simp
  | [a], h => by simpa using h a (by simp)
  | a :: b :: l, h => by
    rw [List.intercalate_cons_cons]
    have := intercalate_plain hc (b :: l) fun s hs => h s (List.mem_cons_of_mem _ hs)
    simp only [List.mem_append, List.mem_singleton, not_or]
    exact ⟨⟨h a List.mem_cons_self, hc⟩, this⟩

theorem rowText_plain {num : ℝ → Str} (hn : ∀ x, '\n' ∉ num x) (l : List ℝ) :
    '\n' ∉ rowText num l := by
  unfold rowText
  refine intercalate_plain (by decide) _ fun s hs => ?_
  obtain ⟨x, -, rfl⟩ := List.mem_map.1 hs
  rw [List.mem_append, List.mem_replicate]
  rintro (⟨-, h⟩ | h)
  · exact absurd h (by decide)
  · exact hn x h

theorem bodyLines_plain {num : ℝ → Str} (hn : ∀ x, '\n' ∉ num x) {n : Named} (h0 : '\n' ∉ n.name)
    (h1 : ∀ t ∈ n.tags, '\n' ∉ t.name) : ∀ l ∈ bodyLines num n, '\n' ∉ l := by
  have hi := intText_not (c := '\n') (by decide) (by decide)
  have hl : ∀ (f : Bool) (l : List (Tag × RB)), (∀ x ∈ l, '\n' ∉ x.1.name) →
      ∀ s ∈ linkLines f l, '\n' ∉ s := by
    intro f l
    induction l generalizing f with
    | nil => intro _ s hs; cases hs
    | cons x l ih =>
      intro hx s hs
      rcases List.mem_cons.1 hs with rfl | hs
      · have k1 := hx x List.mem_cons_self
        have k2 := (name_plain x.2.joint.type).2.2
        have k3 : '\n' ∉ linkText x.1 x.2 := by
          unfold linkText
          simp only [List.mem_append, not_or]
          refine ⟨⟨⟨⟨⟨⟨⟨⟨?_, k1⟩, ?_⟩, hi _⟩, ?_⟩, hi _⟩, ?_⟩, k2⟩, ?_⟩ <;> simp
        rw [List.mem_append, not_or]
        refine ⟨?_, k3⟩
        cases f <;> simp
      · exact ih false (fun y hy => hx y (List.mem_cons_of_mem _ hy)) s hs
  intro l hm
  unfold bodyLines at hm
  simp only [List.mem_cons, List.mem_append, List.not_mem_nil, or_false] at hm
  rcases hm with rfl | rfl | rfl | rfl | hm | rfl
  · simp only [List.mem_append, not_or]
    exact ⟨⟨⟨⟨by simp, h0⟩, by simp⟩, hi _⟩, by simp⟩
  all_goals try (rw [List.mem_append, not_or]; exact ⟨by simp, rowText_plain hn _⟩)
  · exact hl true _ (fun x hx => h1 _ (List.of_mem_zip hx).1) l hm
  · simp

theorem bodyText_split {num : ℝ → Str} (hn : ∀ x, '\n' ∉ num x) {n : Named} (h0 : '\n' ∉ n.name)
    (h1 : ∀ t ∈ n.tags, '\n' ∉ t.name) : (bodyText num n).splitOn '\n' = bodyLines num n := by
  rw [bodyText_lines]
  exact List.splitOn_intercalate _ (bodyLines_plain hn h0 h1) (by simp [bodyLines])

/-- C141: a printed robot has a line for its name and number of joints, three for its state, and one for
each link in order, which says the link's name, its number, the number of its parent and its joint type. -/
theorem C141_lines {E : Ext} {d : Bool} {num : ℝ → Str} (hn : ∀ x, '\n' ∉ num x) {n : Named}
    (hr : Reach E n.body d) (ht : n.tags.length = n.body.dof) (h0 : '\n' ∉ n.name)
    (h1 : ∀ t ∈ n.tags, '\n' ∉ t.name) :
    ((bodyText num n).splitOn '\n').length = n.body.dof + 5 ∧
    ((bodyText num n).splitOn '\n')[0]? = some ("ArticulatedBody(name=\"".toList ++ n.name ++
      "\", dof=".toList ++ (toString n.body.dof).toList ++ ")".toList) ∧
    ∀ k < n.body.dof, ∃ w, w.length = 16 ∧ ((bodyText num n).splitOn '\n')[4 + k]? =
      some (w ++ linkLine (n.tags.getD k {}).name k (n.body.rb k).idParent (n.body.rb k).joint.type) := by
  have hz : (n.tags.zip n.body.rbs).length = n.body.dof := by
    rw [List.length_zip, ht]; exact min_self _
  rw [bodyText_split hn h0 h1]
  refine ⟨?_, ?_, fun k hk => ?_⟩
  · simp only [bodyLines, List.length_cons, List.length_append, linkLines_length, hz, List.length_nil]
  · rw [bodyLines, List.getElem?_cons_zero, intText_eq]
    rfl
  · obtain ⟨w, h2, h3⟩ := linkLines_get true (n.tags.zip n.body.rbs) k (by rw [hz]; exact hk)
    refine ⟨w, h2, ?_⟩
    have e1 : (bodyLines num n)[4 + k]? = (linkLines true (n.tags.zip n.body.rbs) ++ [[]])[k]? := by
      rw [Nat.add_comm, bodyLines_get]
    rw [e1, List.getElem?_append_left (by rw [linkLines_length, hz]; exact hk), h3, linkText_eq]
    have hk1 : k < n.tags.length := by rw [ht]; exact hk
    have hk2 : k < n.body.rbs.length := hk
    have e2 : (n.tags.zip n.body.rbs)[k] = (n.tags.getD k {}, n.body.rb k) := by
      rw [List.getElem_zip]
      simp [Body.rb, List.getD, List.getElem?_eq_getElem hk1, List.getElem?_eq_getElem hk2]
    rw [e2]
    simp only
    rw [(hr.inv.tree.ids k hk).1]

theorem words_append (a b : Str) : words (a ++ ' ' :: b) = words a ++ words b := by
  unfold words
  rw [List.splitOn_append_cons_self, List.filter_append]

theorem words_word {a : Str} (h : ' ' ∉ a) (h0 : a ≠ []) : words a = [a] := by
  unfold words
  rw [List.splitOn_eq_singleton h]
  simp [h0]

theorem words_nil : words [] = [] := by
  unfold words
  rw [List.splitOn_nil]
  rfl

theorem words_pad (k : ℕ) (a : Str) : words (List.replicate k ' ' ++ a) = words a := by
  induction k with
  | zero => rfl
  | succ k ih =>
    have := words_append [] (List.replicate k ' ' ++ a)
    rw [List.nil_append, words_nil, List.nil_append, ih] at this
    exact this

theorem words_inter (l : List Str) : words ([' '].intercalate l) = (l.map words).flatten := by
  induction l with
  | nil => exact words_nil
  | cons a l ih =>
    cases l with
    | nil => simp
    | cons b l =>
      rw [List.intercalate_cons_cons, List.append_assoc, List.singleton_append, words_append, ih]
      rfl

theorem words_row {num : ℝ → Str} (hn : ∀ x, ' ' ∉ num x ∧ num x ≠ []) (l : List ℝ) :
    words (rowText num l) = l.map num := by
  unfold rowText
  simp only
  rw [words_inter, List.map_map]
  generalize (l.map fun x => (num x).length).foldl max 0 = w
  induction l with
  | nil => rfl
  | cons x l ih =>
    rw [List.map_cons, List.flatten_cons, ih]
    show words (List.replicate (w - (num x).length) ' ' ++ num x) ++ _ = _
    rw [words_pad, words_word (hn x).1 (hn x).2]
    rfl

theorem words_title (k : ℕ) {t r : Str} (ht : ' ' ∉ t) (h0 : t ≠ []) :
    words (List.replicate k ' ' ++ t ++ [' '] ++ r) = t :: words r := by
  rw [List.append_assoc, List.append_assoc, words_pad, List.singleton_append, words_append,
    words_word ht h0]
  rfl

/-- C141: the next three lines are the positions, the velocities and gravity, number by number. -/
theorem C141_state {num : ℝ → Str} (hn : ∀ x, '\n' ∉ num x ∧ ' ' ∉ num x ∧ num x ≠ []) {n : Named}
    (h0 : '\n' ∉ n.name) (h1 : ∀ t ∈ n.tags, '\n' ∉ t.name) :
    (((bodyText num n).splitOn '\n')[1]?).map words = some (['q', ':'] :: n.body.q.map num) ∧
    (((bodyText num n).splitOn '\n')[2]?).map words = some (['d', 'q', ':'] :: n.body.dq.map num) ∧
    (((bodyText num n).splitOn '\n')[3]?).map words =
      some [['g', ':'], num n.body.g.x, num n.body.g.y, num n.body.g.z] := by
  have hr := words_row (num := num) fun x => ⟨(hn x).2.1, (hn x).2.2⟩
  rw [bodyText_split (fun x => (hn x).1) h0 h1]
  have e1 : "             q: ".toList = List.replicate 13 ' ' ++ ['q', ':'] ++ [' '] := by simp
  have e2 : "            dq: ".toList = List.replicate 12 ' ' ++ ['d', 'q', ':'] ++ [' '] := by simp
  have e3 : "             g: ".toList = List.replicate 13 ' ' ++ ['g', ':'] ++ [' '] := by simp
  unfold bodyLines
  rw [List.getElem?_cons_succ, List.getElem?_cons_succ, List.getElem?_cons_succ, e1, e2, e3]
  refine ⟨?_, ?_, ?_⟩
  · rw [List.getElem?_cons_zero, Option.map_some, words_title _ (by decide) (by decide), hr]
  · rw [List.getElem?_cons_zero, Option.map_some, words_title _ (by decide) (by decide), hr]
  · rw [List.getElem?_cons_succ, List.getElem?_cons_succ, List.getElem?_cons_succ,
      List.getElem?_cons_zero, Option.map_some, words_title _ (by decide) (by decide), hr]
    rfl

/-- C141: robots that print alike have the same name, the same number of links, and for each link the same
name, parent and joint type, if no name contains a line break. -/
theorem C141_structure {E : Ext} {d d' : Bool} {num : ℝ → Str} (hn : ∀ x, '\n' ∉ num x) {n m : Named}
    (hr : Reach E n.body d) (hr' : Reach E m.body d') (ht : n.tags.length = n.body.dof)
    (ht' : m.tags.length = m.body.dof) (h0 : '\n' ∉ n.name) (h0' : '\n' ∉ m.name)
    (h1 : ∀ t ∈ n.tags, '\n' ∉ t.name) (h1' : ∀ t ∈ m.tags, '\n' ∉ t.name)
    (h : bodyText num n = bodyText num m) :
    n.name = m.name ∧ n.body.dof = m.body.dof ∧ ∀ k < n.body.dof,
      (n.tags.getD k {}).name = (m.tags.getD k {}).name ∧
      (n.body.rb k).idParent = (m.body.rb k).idParent ∧
      (n.body.rb k).joint.type = (m.body.rb k).joint.type := by
  obtain ⟨a1, a2, a3⟩ := C141_lines hn hr ht h0 h1
  obtain ⟨b1, b2, b3⟩ := C141_lines hn hr' ht' h0' h1'
  rw [h] at a1 a2 a3
  have hdof : n.body.dof = m.body.dof := by omega
  refine ⟨?_, hdof, fun k hk => ?_⟩
  · rw [a2, hdof] at b2
    exact List.append_cancel_left (List.append_cancel_right (List.append_cancel_right
      (List.append_cancel_right (Option.some.inj b2))))
  · obtain ⟨w, hw, h2⟩ := a3 k hk
    obtain ⟨w', hw', h3⟩ := b3 k (hdof ▸ hk)
    rw [h2] at h3
    have := (List.append_inj (Option.some.inj h3) (hw.trans hw'.symm)).2
    have key := (C141_link (n.tags.getD k {}) (m.tags.getD k {})
      { n.body.rb k with id := k } { m.body.rb k with id := k }).1 (by
        rw [linkText_eq, linkText_eq]; exact this)
    exact ⟨key.1, key.2.2.1, key.2.2.2⟩

theorem break_shape {h p n0 n1 n2 s0 s1 w : Str} :
    h ++ (p ++ n0 ++ s0) ++ ['\n'] ++ (w ++ (p ++ (n1 ++ (s0 ++ ['\n'] ++ w ++ p) ++ n2) ++ s1) ++ ['\n'] ++
      []) = h ++ (p ++ (n0 ++ (s0 ++ ['\n'] ++ w ++ p) ++ n1) ++ s0) ++ ['\n'] ++ (w ++ (p ++ n2 ++ s1) ++
      ['\n'] ++ []) := by
  simp only [List.append_assoc]

/-- What follows the name of a link. -/
def linkTail (rb : RB) : Str :=
  "\", id=".toList ++ (intText rb.id ++ (", id_parent=".toList ++ (intText rb.idParent ++
    (", joint=".toList ++ (rb.joint.type.name ++ ")".toList)))))

theorem linkText_tail (t : Tag) (rb : RB) :
    linkText t rb = "RigidBody(name=\"".toList ++ t.name ++ linkTail rb := by
  unfold linkText linkTail
  simp only [List.append_assoc]

/-- C141: with line breaks in names, different robots print alike, whatever their links and joints. -/
theorem C141_line_breaks (num : ℝ → Str) (n : Named) {x y : RB} (hn : n.body.rbs = [x, y]) :
    ∃ s s' : Str, s ≠ s' ∧ bodyText num { n with tags := [{ name := s }, { name := s' }] } =
      bodyText num { n with tags := [{ name := s' }, { name := s }] } := by
  refine ⟨[], [] ++ (linkTail x ++ ['\n'] ++ "                ".toList ++ "RigidBody(name=\"".toList) ++ [],
    by simp, ?_⟩
  unfold bodyText
  rw [hn]
  congr 1
  simp only [List.zip_cons_cons, List.zip_nil_left, linksText, linkText_tail, if_true,
    Bool.false_eq_true, if_false]
  exact break_shape

/-! ## Examples -/

/-- The hypotheses hold for the witness robot; a stream that writes every number as `x`. -/
example : (∃ d, Reach ext0 demoNamed.body d) ∧ demoNamed.tags.length = demoNamed.body.dof ∧
    '\n' ∉ demoNamed.name ∧ (∀ t ∈ demoNamed.tags, '\n' ∉ t.name) ∧ demoNamed.body.dof = 3 :=
  ⟨Body.demo_reach ext0, rfl, by simp [demoNamed], by simp [demoNamed], rfl⟩

/-- What is printed of the witness robot. -/
example : ((bodyText (fun _ => ['x']) demoNamed).splitOn '\n')[0]? =
      some "ArticulatedBody(name=\"arm\", dof=3)".toList ∧
    ((bodyText (fun _ => ['x']) demoNamed).splitOn '\n')[1]? = some "             q: x x x".toList := by
  rw [bodyText_split (fun _ => by simp) (by simp [demoNamed]) (by simp [demoNamed])]
  have i3 : intText 3 = ['3'] := by decide
  refine ⟨?_, ?_⟩
  · rw [bodyLines, List.getElem?_cons_zero, show ((demoNamed.body.dof : ℕ) : ℤ) = 3 from rfl, i3]
    simp [demoNamed]
  · rw [bodyLines, List.getElem?_cons_succ, List.getElem?_cons_zero,
      show demoNamed.body.q = [1, 2, 3] from rfl]
    simp [rowText, List.intercalate]

end SpatialDyn
