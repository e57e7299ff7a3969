import Verif.Lemmas.Calculus
import Mathlib.Analysis.SpecialFunctions.Trigonometric.Basic

/-! # Properties C06-C08: joints -/

namespace SpatialDyn

/-! ## C06 -/

/-- C06: one-parameter group. -/
theorem C06_joint_group (t : JType) (a b : ℝ) :
    t.Tjoint 0 = 1 ∧ t.Tjoint a * t.Tjoint b = t.Tjoint (a + b) ∧
      (t.Tjoint a).inv = t.Tjoint (-a) := by
  refine ⟨?_, ?_, ?_⟩
  · cases t <;> ext <;> simp [JType.Tjoint]
  · cases t <;> ext <;>
      simp [JType.Tjoint, Mat3.mulVec, Real.cos_add, Real.sin_add] <;> ring
  · cases t <;> ext <;> simp [JType.Tjoint, Mat3.T, Mat3.mulVec]

/-- C06: every joint transform is a proper rigid transform; prismatic joints never rotate and
revolute joints never translate. -/
theorem C06_joint_rigid (t : JType) (q : ℝ) :
    (t.Tjoint q).Valid ∧ (t.isPrismatic = true → (t.Tjoint q).R = 1) ∧
      (t.isRevolute = true → (t.Tjoint q).t = 0) := by
  refine ⟨t.Tjoint_valid q, ?_, ?_⟩ <;> cases t <;> simp [JType.isPrismatic, JType.isRevolute,
    JType.Tjoint]

/-- C06: the derivative of the joint transform.  Rotation block: `R' = [ω]× R`; translation:
`t' = v + ω × t`, where `(v, ω)` is the joint's motion subspace.  The subspace is fixed by the
joint's own motion. -/
theorem C06_joint_derivative (t : JType) (q : ℝ) :
    HasTwist t.Tjoint t.subspace q ∧ (t.Tjoint q).actM t.subspace = t.subspace :=
  ⟨t.Tjoint_twist q, t.Tjoint_subspace q⟩

/-- C06: the subspace is the unit axis named by the type: revolute types have zero linear part and
a unit angular part, prismatic types the reverse; an undefined joint has no motion at all. -/
theorem C06_subspace_unit (t : JType) :
    (t.isRevolute = true → t.subspace.lin = 0 ∧ t.subspace.ang.dot t.subspace.ang = 1) ∧
      (t.isPrismatic = true → t.subspace.ang = 0 ∧ t.subspace.lin.dot t.subspace.lin = 1) ∧
      (t = .undefined ↔ t.subspace = 0) ∧ (t = .undefined ↔ ∀ q, t.Tjoint q = 1) := by
  refine ⟨?_, ?_, ?_, ?_⟩
  · cases t <;> simp [JType.isRevolute, JType.subspace, Vec3.dot]
  · cases t <;> simp [JType.isPrismatic, JType.subspace, Vec3.dot]
  · cases t <;> simp [JType.subspace, Motion.ext_iff, Vec3.ext_iff]
  · constructor
    · rintro rfl q; rfl
    · intro h
      have hpi := h Real.pi
      have h1 := h 1
      cases t <;> simp [JType.Tjoint, Iso.ext_iff, Mat3.ext_iff, Vec3.ext_iff] at hpi h1 ⊢ <;>
        linarith

/-- C06: the kind of a joint is what its motion is: prismatic types are those that move without ever
rotating, revolute types those that move without ever translating. -/
theorem C06_kind (t : JType) :
    (t.isPrismatic = true ↔ t.subspace ≠ 0 ∧ ∀ q, (t.Tjoint q).R = 1) ∧
      (t.isRevolute = true ↔ t.subspace ≠ 0 ∧ ∀ q, (t.Tjoint q).t = 0) := by
  have hu := (C06_subspace_unit t).2.2.1
  refine ⟨⟨fun h => ⟨fun h0 => ?_, fun q => (C06_joint_rigid t q).2.1 h⟩, fun h => ?_⟩,
    ⟨fun h => ⟨fun h0 => ?_, fun q => (C06_joint_rigid t q).2.2 h⟩, fun h => ?_⟩⟩
  · rw [hu.2 h0] at h; simp [JType.isPrismatic] at h
  · have h1 := h.2 Real.pi
    have h2 : t ≠ .undefined := fun h3 => h.1 (hu.1 h3)
    cases t <;> simp [JType.Tjoint, JType.isPrismatic, Mat3.ext_iff] at h1 h2 ⊢ <;> linarith
  · rw [hu.2 h0] at h; simp [JType.isRevolute] at h
  · have h1 := h.2 1
    have h2 : t ≠ .undefined := fun h3 => h.1 (hu.1 h3)
    cases t <;> simp [JType.Tjoint, JType.isRevolute, Vec3.ext_iff] at h1 h2 ⊢

/-! ## C07 -/

/-- Specification of legal joint parameters, over extended doubles with IEEE comparisons. -/
structure LegalJoint (j : Joint) : Prop where
  limits : j.qMin.Le j.qMax
  dq : (Dbl.fin 0).Le j.dqMax
  fq : (Dbl.fin 0).Le j.fqMax
  coulomb : (Dbl.fin 0).Le j.fCoulomb
  viscous : (Dbl.fin 0).Le j.fViscous
  stiction : (Dbl.fin 0).Le j.fStiction

/-- The call has no NaN argument. -/
def Joint.Op.NoNaN : Joint.Op → Prop
  | .setType _ => True
  | .setQMin x | .setQMax x | .setDqMax x | .setFqMax x | .setFCoulomb x | .setFViscous x
  | .setFStiction x => x ≠ .nan
  | .setQLimits lo hi => lo ≠ .nan ∧ hi ≠ .nan

private theorem Dbl.le_of_not_lt {a b : Dbl} (ha : a ≠ .nan) (hb : b ≠ .nan) (h : ¬ b.Lt a) :
    a.Le b := by
  cases a <;> cases b <;> simp_all [Dbl.Lt, Dbl.Le]

private theorem Dbl.Le.ne_nan_left {a b : Dbl} (h : a.Le b) : a ≠ .nan := by
  rintro rfl; simp [Dbl.Le] at h

private theorem Dbl.Le.ne_nan_right {a b : Dbl} (h : a.Le b) : b ≠ .nan := by
  rintro rfl; cases a <;> simp [Dbl.Le] at h

/-- C07 (one step). -/
theorem C07_step (j : Joint) (o : Joint.Op) (hj : LegalJoint j) (ho : o.NoNaN) :
    LegalJoint (j.step o).joint := by
  have z : (Dbl.fin 0) ≠ .nan := by simp
  cases o <;> simp only [Joint.step, Joint.setType, Joint.setQMin, Joint.setQMax,
    Joint.setQLimits, Joint.setDqMax, Joint.setFqMax, Joint.setFCoulomb, Joint.setFViscous,
    Joint.setFStiction] <;> simp only [Joint.Op.NoNaN] at ho
  · exact ⟨hj.1, hj.2, hj.3, hj.4, hj.5, hj.6⟩
  all_goals
    split
    · exact hj
    · next h =>
      refine ⟨?_, ?_, ?_, ?_, ?_, ?_⟩ <;> first
        | exact hj.limits | exact hj.dq | exact hj.fq | exact hj.coulomb | exact hj.viscous
        | exact hj.stiction
        | exact Dbl.le_of_not_lt ho hj.limits.ne_nan_right h
        | exact Dbl.le_of_not_lt hj.limits.ne_nan_left ho h
        | exact Dbl.le_of_not_lt ho.1 ho.2 h
        | exact Dbl.le_of_not_lt z ho h

/-- C07: after any history of setter calls without NaN arguments, starting from a new joint, the
limits are ordered and the bounds and friction coefficients are nonnegative. -/
theorem C07_joint_limits_invariant (ops : List Joint.Op) (h : ∀ o ∈ ops, o.NoNaN) :
    LegalJoint (({} : Joint).run ops) := by
  have base : LegalJoint {} := by
    refine ⟨?_, ?_, ?_, ?_, ?_, ?_⟩ <;> simp [Dbl.Le]
  have : ∀ (ops : List Joint.Op) (j : Joint), LegalJoint j → (∀ o ∈ ops, o.NoNaN) →
      LegalJoint (j.run ops) := by
    intro ops
    induction ops with
    | nil => intro j hj _; exact hj
    | cons o os ih =>
      intro j hj ho
      exact ih _ (C07_step j o hj (ho o (by simp))) (fun o' ho' => ho o' (by simp [ho']))
  exact this ops _ base h

example : ∃ ops : List Joint.Op, (∀ o ∈ ops, o.NoNaN) ∧ ops.length = 2 :=
  ⟨[.setQMin (.fin (-1)), .setFViscous .pinf], by simp [Joint.Op.NoNaN], rfl⟩

/-- C07: a rejected call changes nothing, and an accepted call without exception stores exactly
its arguments and changes nothing else. -/
theorem C07_rejected_no_change (j : Joint) (o : Joint.Op) (h : (j.step o).threw = true) :
    (j.step o).joint = j := by
  cases o <;> simp only [Joint.step, Joint.setType, Joint.setQMin, Joint.setQMax,
    Joint.setQLimits, Joint.setDqMax, Joint.setFqMax, Joint.setFCoulomb, Joint.setFViscous,
    Joint.setFStiction] at h ⊢
  · simp at h
  all_goals
    split
    · rfl
    · next h' => simp [h'] at h

/-- The effect the documentation promises for an accepted setter call. -/
def Joint.write (j : Joint) : Joint.Op → Joint
  | .setType t => { j with type := t, subspace := t.subspace }
  | .setQMin x => { j with qMin := x }
  | .setQMax x => { j with qMax := x }
  | .setQLimits lo hi => { j with qMin := lo, qMax := hi }
  | .setDqMax x => { j with dqMax := x }
  | .setFqMax x => { j with fqMax := x }
  | .setFCoulomb x => { j with fCoulomb := x }
  | .setFViscous x => { j with fViscous := x }
  | .setFStiction x => { j with fStiction := x }

/-- When the documentation says a call must be rejected. -/
def Joint.Illegal (j : Joint) : Joint.Op → Prop
  | .setType _ => False
  | .setQMin x => j.qMax.Lt x
  | .setQMax x => x.Lt j.qMin
  | .setQLimits lo hi => hi.Lt lo
  | .setDqMax x | .setFqMax x | .setFCoulomb x | .setFViscous x | .setFStiction x => x.Lt (.fin 0)

/-- C07: a call throws exactly when it is illegal; otherwise it stores its arguments. -/
theorem C07_accept_iff (j : Joint) (o : Joint.Op) :
    ((j.step o).threw = true ↔ j.Illegal o) ∧ (¬ j.Illegal o → (j.step o).joint = j.write o) := by
  cases o <;> simp only [Joint.step, Joint.setType, Joint.setQMin, Joint.setQMax,
    Joint.setQLimits, Joint.setDqMax, Joint.setFqMax, Joint.setFCoulomb, Joint.setFViscous,
    Joint.setFStiction, Joint.Illegal, Joint.write]
  · simp
  all_goals
    split
    · next h => exact ⟨by simp [h], fun h' => absurd h h'⟩
    · next h => exact ⟨by simp [h], fun _ => rfl⟩

/-- C07: with NaN arguments the claim is false: `set_q_min(NaN)` is accepted and the limits are no
longer ordered, and `set_f_viscous(NaN)` is accepted. -/
theorem C07_nan_breaks_limits :
    ¬ LegalJoint (({} : Joint).run [.setQMin .nan]) ∧
      ¬ LegalJoint (({} : Joint).run [.setFViscous .nan]) ∧
      (({} : Joint).step (.setQMin .nan)).threw = false := by
  have a : ¬ (Dbl.pinf.Lt .nan) := by simp [Dbl.Lt]
  have b : ¬ (Dbl.nan.Lt (.fin 0)) := by simp [Dbl.Lt]
  refine ⟨fun h => ?_, fun h => ?_, ?_⟩
  · have := h.limits
    simp [Joint.run, Joint.step, Joint.setQMin, a, Dbl.Le] at this
  · have := h.viscous
    simp [Joint.run, Joint.step, Joint.setFViscous, b, Dbl.Le] at this
  · simp [Joint.step, Joint.setQMin, a]

/-- C07: the stored subspace always matches the stored type. -/
theorem C07_subspace_matches_type (ops : List Joint.Op) :
    (({} : Joint).run ops).subspace = (({} : Joint).run ops).type.subspace := by
  have : ∀ (ops : List Joint.Op) (j : Joint), j.subspace = j.type.subspace →
      (j.run ops).subspace = (j.run ops).type.subspace := by
    intro ops
    induction ops with
    | nil => intro j hj; exact hj
    | cons o os ih =>
      intro j hj
      refine ih _ ?_
      show (j.step o).joint.subspace = (j.step o).joint.type.subspace
      by_cases h : j.Illegal o
      · rw [C07_rejected_no_change j o ((C07_accept_iff j o).1.2 h)]; exact hj
      · rw [(C07_accept_iff j o).2 h]
        cases o <;> simp_all [Joint.write]
  exact this ops _ rfl

/-! ## C08 -/

/-- The seven documented names (joint.h 229-232). -/
def jointNames : List String := ["undefined", "rx", "ry", "rz", "px", "py", "pz"]

/-- ASCII case-insensitive equality. -/
def sameUpToCase (a b : List Char) : Prop := a.map Char.toLower = b.map Char.toLower

/-- C08: parsing the printed name returns the type, surrounded by any white space, in any
letter case. -/
theorem C08_joint_name_round_trip (t : JType) (s pre post : List Char)
    (hs : sameUpToCase s t.name) (hpre : ∀ c ∈ pre, isWs c = true)
    (hpost : post = [] ∨ ∃ c cs, post = c :: cs ∧ isWs c = true) :
    JType.parse (pre ++ s ++ post) = some t := by
  -- lower-casing never produces or removes white space
  have ws : ∀ c : Char, isWs c.toLower = false → isWs c = false := by
    intro c h
    by_cases hc : isWs c = true
    · have : c = ' ' ∨ c = '\t' ∨ c = '\n' ∨ c = '\r' ∨ c = '\x0b' ∨ c = '\x0c' := by
        simpa [isWs, or_assoc] using hc
      rcases this with rfl | rfl | rfl | rfl | rfl | rfl <;> revert h <;> decide
    · simpa using hc
  have hname : t.name.map Char.toLower = t.name := by cases t <;> decide
  have hnw : ∀ c ∈ t.name, isWs c = false := by cases t <;> decide
  have hne : t.name ≠ [] := by cases t <;> decide
  unfold sameUpToCase at hs
  rw [hname] at hs
  have hsw : ∀ c ∈ s, isWs c = false := by
    intro c hc
    apply ws
    apply hnw
    rw [← hs]
    exact List.mem_map_of_mem hc
  have hsne : s ≠ [] := by
    rintro rfl
    exact hne hs.symm
  have htok : token (pre ++ s ++ post) = s := by
    unfold token
    have h1 : (pre ++ s ++ post).dropWhile isWs = s ++ post := by
      rw [List.append_assoc, List.dropWhile_append_of_pos hpre]
      cases s with
      | nil => exact absurd rfl hsne
      | cons a as => simp [hsw a (by simp)]
    rw [h1, List.takeWhile_append_of_pos (by intro c hc; simp [hsw c hc])]
    rcases hpost with rfl | ⟨c, cs, rfl, hc⟩
    · simp
    · simp [hc]
  unfold JType.parse
  rw [htok, hs]
  cases t <;> decide

example : sameUpToCase ['R', 'x'] JType.rx.name ∧ isWs ' ' = true := by
  constructor
  · unfold sameUpToCase; decide
  · decide

/-- C08: printing is injective and never fails; a text whose first token is not, up to ASCII case,
one of the seven names is rejected. -/
theorem C08_joint_name_rejects (s : List Char) :
    JType.parse s = none ↔ ∀ n ∈ jointNames, ¬ sameUpToCase (token s) n.toList := by
  have key : ∀ (l : List Char), jtypeTable.lookup l = none ↔
      ∀ n ∈ jointNames, l ≠ (n.toList).map Char.toLower := by
    intro l
    simp [jtypeTable, jointNames, List.lookup_eq_none_iff]
    tauto
  unfold JType.parse sameUpToCase
  exact key _

/-- C08: printing distinguishes types. -/
theorem C08_joint_name_injective (a b : JType) (h : a.name = b.name) : a = b := by
  cases a <;> cases b <;> first | rfl | (exact absurd h (by decide))

end SpatialDyn
