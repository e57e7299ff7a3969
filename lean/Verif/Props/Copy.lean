import Verif.Lemmas.Store
import Verif.Lemmas.Demo

/-! # Properties C16, C50: copies, assignment, moves

Programs are lists of statements on any number of bodies, started from empty memory; caches live on a
heap and are owned through pointers. -/

namespace SpatialDyn

/-- The objects a statement may change. -/
def Cmd.writes : Cmd → List ℕ
  | .create h _ => [h]
  | .copy h _ => [h]
  | .move h s => [h, s]
  | .assign h _ => [h]
  | .destroy h => [h]
  | .call h _ => [h]

/-- Everything that can be learnt about object `h`: run any calls on it, then ask any query (`none` if
one of the calls is undefined behaviour). -/
noncomputable def Mem.observe (E : Ext) (junk : Cache) (m : Mem) (h : ℕ) (ops : List Op) (x : Query) :
    Option (Out Ans) :=
  (m.run E junk (ops.map (Cmd.call h))).map fun m' => m'.ask E junk h x

/-- `dof()` (`articulated_body.h:93`). -/
def Mem.dof (m : Mem) (h : ℕ) : Out ℕ := (m.get h).bind fun o => .ok o.dof

/-- The object exists and has not been moved from. -/
def Mem.Live (m : Mem) (h : ℕ) : Prop := ∃ o a, m.objs h = some o ∧ o.ptr = some a

namespace Mem
variable {E : Ext} {junk : Cache} {m m' : Mem}

theorem OK.body (hm : m.OK) {h : ℕ} (hl : m.Live h) : ∃ b, m.body h = some b := by
  obtain ⟨o, a, ho, ha⟩ := hl
  obtain ⟨c, hc⟩ := Option.isSome_iff_exists.1 (hm.live h o a ho ha).2.1
  exact ⟨_, body_eq.2 ⟨o, a, c, ho, ha, hc, rfl⟩⟩

theorem live_of_body {h : ℕ} {b : Body} (hb : m.body h = some b) : m.Live h := by
  obtain ⟨o, a, c, h1, h2, -⟩ := body_eq.1 hb
  exact ⟨o, a, h1, h2⟩

theorem observe_body (hm : m.OK) {h : ℕ} {b : Body} (hb : m.body h = some b) (ops : List Op)
    (x : Query) : m.observe E junk h ops x =
      (execAll E b ops).map fun b' => (x.run E b').map Prod.fst := by
  have h1 := run_calls (E := E) (junk := junk) ops hm hb
  unfold observe
  split at h1
  · rename_i b' hb'
    obtain ⟨m1, h2, h3, h4⟩ := h1
    rw [h2, hb', Option.map_some, Option.map_some, ask_body h4 h3]
  · rename_i hb'
    rw [h1, hb']
    rfl

theorem observe_ib (hm : m.OK) (hm' : m'.OK) {h h' : ℕ} {b : Body} {I : Inertia}
    (hb : m.body h = some b) (hb' : m'.body h' = some (b.withIB I)) (ops : List Op) (x : Query) :
    m'.observe E junk h' ops x = m.observe E junk h ops x := by
  rw [observe_body hm hb, observe_body hm' hb']
  obtain ⟨I', h1⟩ := execAll_ib E ops b I
  rw [h1]
  cases execAll E b ops with
  | none => rfl
  | some b' =>
    simp only [Option.map_some, Query.run_ib]
    cases x.run E b' <;> rfl

/-- Same contents of object `h`: nothing, the same object without cache, or the same body. -/
def SameAt (m m' : Mem) (h : ℕ) : Prop :=
  (m.objs h = none ∧ m'.objs h = none) ∨
  (∃ o, m.objs h = some o ∧ m'.objs h = some o ∧ o.ptr = none) ∨
  (∃ b, m.body h = some b ∧ m'.body h = some b)

theorem OK.sameAt_self (hm : m.OK) (h : ℕ) : m.SameAt m h := by
  cases ho : m.objs h with
  | none => exact .inl ⟨ho, ho⟩
  | some o =>
    cases hp : o.ptr with
    | none => exact .inr (.inl ⟨o, ho, ho, hp⟩)
    | some a =>
      obtain ⟨b, hb⟩ := hm.body ⟨o, a, ho, hp⟩
      exact .inr (.inr ⟨b, hb, hb⟩)

theorem SameAt.trans {m1 m2 m3 : Mem} {h : ℕ} (h1 : m1.SameAt m2 h) (h2 : m2.SameAt m3 h) :
    m1.SameAt m3 h := by
  rcases h1 with ⟨a, b⟩ | ⟨o, a, b, c⟩ | ⟨B, a, b⟩ <;>
    rcases h2 with ⟨a', b'⟩ | ⟨o', a', b', c'⟩ | ⟨B', a', b'⟩
  · exact .inl ⟨a, b'⟩
  · rw [b] at a'; cases a'
  · obtain ⟨o', _, ho', _⟩ := live_of_body a'
    rw [b] at ho'; cases ho'
  · rw [b] at a'; cases a'
  · rw [b] at a'; cases a'; exact .inr (.inl ⟨o, a, b', c⟩)
  · obtain ⟨o', _, ho', hp⟩ := live_of_body a'
    rw [b] at ho'; cases ho'; rw [c] at hp; cases hp
  · obtain ⟨o', _, ho', _⟩ := live_of_body b
    rw [a'] at ho'; cases ho'
  · obtain ⟨o'', _, ho', hp⟩ := live_of_body b
    rw [a'] at ho'; cases ho'; rw [c'] at hp; cases hp
  · rw [b] at a'; cases a'; exact .inr (.inr ⟨B, a, b'⟩)

/-- A statement changes only the objects it names. -/
theorem OK.step_other (hm : m.OK) {x : Cmd} (hs : m.step E junk x = .ok m') {h : ℕ}
    (hw : h ∉ x.writes) : m.SameAt m' h := by
  -- it is enough that the object and the contents of its cache are kept
  have key : m'.objs h = m.objs h →
      (∀ o a, m.objs h = some o → o.ptr = some a → m'.heap a = m.heap a) → m.SameAt m' h := by
    intro h1 h2
    cases ho : m.objs h with
    | none => exact .inl ⟨ho, by rw [h1, ho]⟩
    | some o =>
      cases hp : o.ptr with
      | none => exact .inr (.inl ⟨o, ho, by rw [h1, ho], hp⟩)
      | some a =>
        obtain ⟨b, hb⟩ := hm.body ⟨o, a, ho, hp⟩
        refine .inr (.inr ⟨b, hb, ?_⟩)
        obtain ⟨o', a', c, h3, h4, h5, h6⟩ := body_eq.1 hb
        exact body_eq.2 ⟨o', a', c, by rw [h1, h3], h4, by rw [h2 o' a' h3 h4, h5], h6⟩
  cases x with
  | create k c =>
    have hk : h ≠ k := by simpa [Cmd.writes] using hw
    simp only [Mem.step] at hs
    split at hs
    · cases hs
    · cases hs
      refine key (Function.update_of_ne hk _ _) fun o a h1 h2 => ?_
      exact Function.update_of_ne (by have := (hm.live h o a h1 h2).1; omega) _ _
  | copy k s =>
    have hk : h ≠ k := by simpa [Cmd.writes] using hw
    simp only [Mem.step] at hs
    split at hs
    · cases hs
    · obtain ⟨o, h1, hs⟩ := Body.Out.bind_ok hs
      obtain ⟨⟨a, c⟩, h2, hs⟩ := Body.Out.bind_ok hs
      cases hs
      refine key (Function.update_of_ne hk _ _) fun o a h1 h2 => ?_
      exact Function.update_of_ne (by have := (hm.live h o a h1 h2).1; omega) _ _
  | move k s =>
    have hk : h ≠ k ∧ h ≠ s := by simpa [Cmd.writes] using hw
    simp only [Mem.step] at hs
    split at hs
    · cases hs
    · obtain ⟨o, h1, hs⟩ := Body.Out.bind_ok hs
      cases hs
      refine key ?_ fun o a h1 h2 => rfl
      exact (Function.update_of_ne hk.2 _ _).trans (Function.update_of_ne hk.1 _ _)
  | assign k s =>
    have hk : h ≠ k := by simpa [Cmd.writes] using hw
    simp only [Mem.step] at hs
    obtain ⟨t, h0, hs⟩ := Body.Out.bind_ok hs
    obtain ⟨o, h1, hs⟩ := Body.Out.bind_ok hs
    obtain ⟨⟨a, c⟩, h2, hs⟩ := Body.Out.bind_ok hs
    cases hs
    have ht : m.objs k = some t := by
      unfold get at h0
      split at h0
      · cases h0
      · cases h0; assumption
    refine key ?_ fun o' a' h3 h4 => ?_
    · refine (Function.update_of_ne hk _ _).trans ?_
      cases t.ptr <;> rfl
    · have h8 := (hm.live h o' a' h3 h4).1
      cases hq : t.ptr with
      | none => exact Function.update_of_ne (by omega) _ _
      | some b =>
        simp only [put, alloc, free]
        rw [Function.update_of_ne, Function.update_of_ne (by omega)]
        rintro rfl
        exact hk (hm.uniq h k o' t a' h3 ht h4 hq)
  | destroy k =>
    have hk : h ≠ k := by simpa [Cmd.writes] using hw
    simp only [Mem.step] at hs
    obtain ⟨t, h0, hs⟩ := Body.Out.bind_ok hs
    cases hs
    have ht : m.objs k = some t := by
      unfold get at h0
      split at h0
      · cases h0
      · cases h0; assumption
    refine key ?_ fun o' a' h3 h4 => ?_
    · refine (Function.update_of_ne hk _ _).trans ?_
      cases t.ptr <;> rfl
    · cases hq : t.ptr with
      | none => rfl
      | some b =>
        refine Function.update_of_ne ?_ _ _
        rintro rfl
        exact hk (hm.uniq h k o' t a' h3 ht h4 hq)
  | call k op =>
    have hk : h ≠ k := by simpa [Cmd.writes] using hw
    have hs' := hs
    simp only [Mem.step] at hs
    obtain ⟨o, h1, hs⟩ := Body.Out.bind_ok hs
    have ho : m.objs k = some o := by
      unfold get at h1
      split at h1
      · cases h1
      · cases h1; assumption
    split at hs
    · obtain ⟨o', h2, hs⟩ := Body.Out.bind_ok hs
      cases hs
      exact key (Function.update_of_ne hk _ _) fun _ _ _ _ => rfl
    · rename_i a hp
      obtain ⟨b, hb⟩ := hm.body ⟨o, a, ho, hp⟩
      have h6 := call_body (E := E) (junk := junk) hm hb op
      split at h6
      · obtain ⟨m1, h7, -, -, h8⟩ := h6
        rw [hs'] at h7
        cases h7
        exact key (h8 h hk).1 (h8 h hk).2
      · rw [hs'] at h6; cases h6
      · rw [hs'] at h6; cases h6

theorem OK.run_other (l : List Cmd) (hm : m.OK) (hs : m.run E junk l = some m') {h : ℕ}
    (hw : ∀ x ∈ l, h ∉ x.writes) : m.SameAt m' h := by
  induction l generalizing m with
  | nil => cases hs; exact hm.sameAt_self h
  | cons x l ih =>
    obtain ⟨m1, h1, h2⟩ := Option.bind_eq_some_iff.1 hs
    have hw' : ∀ y ∈ l, h ∉ y.writes := fun y hy => hw y (List.mem_cons_of_mem _ hy)
    unfold exec at h1
    split at h1
    · rename_i h3
      cases h1
      exact (hm.step_other h3 (hw x (List.mem_cons_self ..))).trans (ih (hm.step h3) h2 hw')
    · cases h1
      exact ih hm h2 hw'
    · cases h1

theorem SameAt.observe (hm : m.OK) (hm' : m'.OK) {h : ℕ} (hh : m.SameAt m' h) (ops : List Op)
    (x : Query) : m'.observe E junk h ops x = m.observe E junk h ops x := by
  rcases hh with ⟨h1, h2⟩ | ⟨o, h1, h2, hp⟩ | ⟨b, h1, h2⟩
  · cases ops with
    | nil => simp [Mem.observe, run, ask, get, h1, h2, Out.bind]
    | cons op l => simp [Mem.observe, run, exec, step, get, h1, h2, Out.bind]
  · induction ops generalizing m m' o with
    | nil => simp [Mem.observe, run, ask, get, h1, h2, Out.bind, hp]
    | cons op l ih =>
      simp only [Mem.observe, List.map_cons, run, exec, step, get, h1, h2, Out.bind, hp]
      cases h3 : o.stepNull junk op with
      | throws => exact ih hm hm' o h1 h2 hp
      | ub => rfl
      | ok o' =>
        have e1 : m.step E junk (.call h op) = .ok (m.put h (some o')) := by
          simp only [step, get, h1, Out.bind, hp, h3]
        have e2 : m'.step E junk (.call h op) = .ok (m'.put h (some o')) := by
          simp only [step, get, h2, Out.bind, hp, h3]
        exact ih (hm.step e1) (hm'.step e2) o' (Function.update_self ..) (Function.update_self ..)
          (stepNull_ptr hp h3)
  · rw [observe_body hm h1, observe_body hm' h2]

end Mem

open Mem

variable {E : Ext} {junk : Cache} {m m' : Mem} {P : List Cmd}

/-! ## C16 -/

/-- C16: in every program, statements that do not name body `h` as a target (calls on other bodies,
copies of `h`, assignments from `h`, destruction of other bodies, …) change nothing that can be
learnt about `h`, however long they go on.  In particular a copy and its original are independent. -/
theorem C16_independent (hm : Mem.empty.run E junk P = some m) {l : List Cmd} {h : ℕ}
    (hl : ∀ x ∈ l, h ∉ x.writes) (hs : m.run E junk l = some m') (ops : List Op) (x : Query) :
    m'.observe E junk h ops x = m.observe E junk h ops x := by
  have hok := OK.run P OK.empty hm
  exact (hok.run_other l hs hl).observe hok (hok.run l hs) ops x

theorem body_copy (hok : m.OK) {h s : ℕ} (hs : m.step E junk (.copy h s) = .ok m') :
    ∃ b, m.body s = some b ∧ m'.body h = some (b.withIB defaultInertiaBase) := by
  simp only [Mem.step] at hs
  split at hs
  · cases hs
  · obtain ⟨o, h1, hs⟩ := Body.Out.bind_ok hs
    obtain ⟨⟨a, c⟩, h2, hs⟩ := Body.Out.bind_ok hs
    cases hs
    unfold Mem.get at h1
    split at h1
    · cases h1
    · rename_i ho
      cases h1
      unfold Mem.deref at h2
      split at h2
      · cases h2
      · rename_i a' hp
        split at h2
        · cases h2
        · rename_i c' hc
          cases h2
          refine ⟨o.body c, body_eq.2 ⟨o, a, c, ho, hp, hc, rfl⟩, body_eq.2
            ⟨{ o with ptr := some m.next, inertiaBase := defaultInertiaBase }, m.next, c,
              Function.update_self .., rfl, Function.update_self .., rfl⟩⟩

/-- C16 (for every query of the model; `inertia_base()` is missing, see `C16_violated`): a copy answers
every query like the original, after any further calls made on it as on the original. -/
theorem C16_copy_answers_partial (hm : Mem.empty.run E junk P = some m) {h s : ℕ}
    (hs : m.step E junk (.copy h s) = .ok m') (ops : List Op) (x : Query) :
    m'.observe E junk h ops x = m.observe E junk s ops x := by
  have hok := OK.run P OK.empty hm
  obtain ⟨b, h1, h2⟩ := body_copy hok hs
  exact observe_ib hok (hok.step hs) h1 h2 ops x

/-- C16: copying a live body to a new object is never undefined behaviour and never throws. -/
theorem C16_copy_defined (hm : Mem.empty.run E junk P = some m) {h s : ℕ} (hl : m.Live s)
    (hh : m.objs h = none) : ∃ m', m.step E junk (.copy h s) = .ok m' := by
  have hok := OK.run P OK.empty hm
  obtain ⟨o, a, ho, ha⟩ := hl
  obtain ⟨c, hc⟩ := Option.isSome_iff_exists.1 (hok.live s o a ho ha).2.1
  exact ⟨_, by simp only [Mem.step, hh, Mem.get, ho, Out.bind, Mem.deref, ha, hc]; rfl⟩

theorem body_assign (hok : m.OK) {h s : ℕ} (hs : m.step E junk (.assign h s) = .ok m') :
    ∃ b I, m.body s = some b ∧ m'.body h = some (b.withIB I) ∧ m.inertiaBase h = .ok I := by
  simp only [Mem.step] at hs
  obtain ⟨t, h0, hs⟩ := Body.Out.bind_ok hs
  obtain ⟨o, h1, hs⟩ := Body.Out.bind_ok hs
  obtain ⟨⟨a, c⟩, h2, hs⟩ := Body.Out.bind_ok hs
  cases hs
  have hib : m.inertiaBase h = .ok t.inertiaBase := by
    unfold Mem.inertiaBase; rw [h0]; rfl
  have ht : m.objs h = some t := by
    unfold Mem.get at h0
    split at h0
    · cases h0
    · cases h0; assumption
  unfold Mem.get at h1
  split at h1
  · cases h1
  · rename_i ho
    cases h1
    unfold Mem.deref at h2
    split at h2
    · cases h2
    · rename_i a' hp
      split at h2
      · cases h2
      · rename_i c' hc
        cases h2
        refine ⟨o.body c, t.inertiaBase, body_eq.2 ⟨o, a, c, ho, hp, hc, rfl⟩, body_eq.2
          ⟨{ o with ptr := some m.next, inertiaBase := t.inertiaBase }, m.next, c,
            Function.update_self .., rfl, ?_, rfl⟩, hib⟩
        cases hq : t.ptr with
        | none => exact Function.update_self ..
        | some a'' =>
          have := (hok.live h t a'' ht hq).1
          exact (Function.update_of_ne (by omega) _ _).trans (Function.update_self ..)

/-- C16 for assignment (same restriction): afterwards the target answers like the source, whatever it
held before; assigning a body to itself changes none of its answers. -/
theorem C16_assign_answers_partial (hm : Mem.empty.run E junk P = some m) {h s : ℕ}
    (hs : m.step E junk (.assign h s) = .ok m') (ops : List Op) (x : Query) :
    m'.observe E junk h ops x = m.observe E junk s ops x := by
  have hok := OK.run P OK.empty hm
  obtain ⟨b, I, h1, h2, -⟩ := body_assign hok hs
  exact observe_ib hok (hok.step hs) h1 h2 ops x

/-- C16 is violated for `inertia_base()`: for every body with a base inertia other than the default, a
copy has the default one instead. -/
theorem C16_violated {h s : ℕ} (hs : m.step E junk (.copy h s) = .ok m') :
    m'.inertiaBase h = .ok ⟨1, 0, 0⟩ := by
  simp only [Mem.step] at hs
  split at hs
  · cases hs
  · obtain ⟨o, h1, hs⟩ := Body.Out.bind_ok hs
    obtain ⟨⟨a, c⟩, h2, hs⟩ := Body.Out.bind_ok hs
    cases hs
    simp [Mem.inertiaBase, Mem.get, Mem.put, Mem.alloc, Out.bind, defaultInertiaBase]

/-- A program: build the witness body as object 0, give it a 2 kg base, copy it to 1. -/
noncomputable def copyProgram : List Cmd :=
  .create 0 cache0 :: (Body.demoOps ++ [Op.setInertiaBase ⟨2, 0, 0⟩]).map (Cmd.call 0)

/-- The witness body with a heavier base. -/
noncomputable def heavyDemo : Body := Body.demo.withIB (Inertia.ofFlat 2 0 (Inertia.flat ⟨2, 0, 0⟩))

theorem copyProgram_run (E : Ext) (junk : Cache) :
    ∃ m, Mem.empty.run E junk copyProgram = some m ∧ m.OK ∧ m.body 0 = some heavyDemo ∧
      m.objs 1 = none := by
  let m0 : Mem := (Mem.empty.alloc (Body.init cache0).c).put 0
    (some (Obj.ofBody (some 0) (Body.init cache0)))
  have h0 : Mem.empty.step E junk (.create 0 cache0) = .ok m0 := rfl
  have hok := OK.empty.step h0
  have hb : m0.body 0 = some (Body.init cache0) := rfl
  have h1 := run_calls (E := E) (junk := junk) (Body.demoOps ++ [Op.setInertiaBase ⟨2, 0, 0⟩]) hok hb
  have h2 : execAll E (Body.init cache0) (Body.demoOps ++ [Op.setInertiaBase ⟨2, 0, 0⟩]) =
      some heavyDemo := by
    rw [Body.exec_append, Body.demo_exec]
    have : ¬ ((2 : ℝ) < 0) := by norm_num
    simp [execAll, Op.exec, Op.step, Body.setInertiaBase, this, heavyDemo]
  rw [h2] at h1
  obtain ⟨m, h3, h4, h5⟩ := h1
  refine ⟨m, ?_, h5, h4, ?_⟩
  · show (Mem.exec E junk _ _).bind _ = _
    simp only [Mem.exec, h0, Option.bind_some]
    exact h3
  · have h6 := hok.run_other _ h3 (h := 1) (by
      intro x hx
      obtain ⟨op, -, rfl⟩ := List.mem_map.1 hx
      simp [Cmd.writes])
    rcases h6 with ⟨-, h⟩ | ⟨o, h, -⟩ | ⟨b, h, -⟩
    · exact h
    · cases h
    · cases h

/-- Witness for C16: the program runs, its copy is defined and answers the queries of the original,
but the copy says its base weighs 1 kg while the original says 2 kg. -/
theorem C16_violated_witness (E : Ext) (junk : Cache) :
    ∃ m m', Mem.empty.run E junk copyProgram = some m ∧
    m.step E junk (.copy 1 0) = .ok m' ∧ m'.Live 0 ∧ m'.Live 1 ∧
    m'.inertiaBase 1 = .ok ⟨1, 0, 0⟩ ∧ (∃ I, m'.inertiaBase 0 = .ok I ∧ I.mass = 2) := by
  obtain ⟨m, h1, h2, h3, h4⟩ := copyProgram_run E junk
  obtain ⟨m', h5⟩ := C16_copy_defined (E := E) (junk := junk) h1 (live_of_body h3) h4
  obtain ⟨b, -, h6⟩ := body_copy h2 h5
  have h7 : m.SameAt m' 0 := h2.step_other h5 (by simp [Cmd.writes])
  have h8 : m'.body 0 = some heavyDemo := by
    rcases h7 with ⟨h, -⟩ | ⟨o, h, -, hp⟩ | ⟨b, h, h'⟩
    · obtain ⟨o, a, ho, -⟩ := live_of_body h3
      rw [h] at ho; cases ho
    · obtain ⟨o, a, ho, hp'⟩ := live_of_body h3
      rw [h] at ho; cases ho; rw [hp] at hp'; cases hp'
    · rw [h3] at h; cases h; exact h'
  refine ⟨m, m', h1, h5, live_of_body h8, live_of_body h6, C16_violated h5, ?_⟩
  obtain ⟨o, a, c, ho, ha, hc, e⟩ := body_eq.1 h8
  refine ⟨o.inertiaBase, by simp [Mem.inertiaBase, Mem.get, ho, Out.bind], ?_⟩
  have : o.inertiaBase = heavyDemo.inertiaBase := by rw [← e]; rfl
  rw [this]
  rfl

/-! ## C50 -/

theorem move_objs {h s : ℕ} (hs : m.step E junk (.move h s) = .ok m') :
    ∃ o, m.objs s = some o ∧ h ≠ s ∧ m'.objs s = some o.husk ∧
      m'.objs h = some { o with inertiaBase := defaultInertiaBase } ∧ m'.heap = m.heap ∧
      m.objs h = none := by
  simp only [Mem.step] at hs
  split at hs
  · cases hs
  · rename_i hh
    obtain ⟨o, h1, hs⟩ := Body.Out.bind_ok hs
    cases hs
    have ho : m.objs s = some o := by
      unfold Mem.get at h1
      split at h1
      · cases h1
      · cases h1; assumption
    have hne : h ≠ s := by rintro rfl; rw [hh] at ho; cases ho
    exact ⟨o, ho, hne, Function.update_self .., (Function.update_of_ne hne _ _).trans
      (Function.update_self ..), rfl, hh⟩

/-- C50: the body moved to answers every query as the source did before the move. -/
theorem C50_moved_to (hm : Mem.empty.run E junk P = some m) {h s : ℕ} (hl : m.Live s)
    (hs : m.step E junk (.move h s) = .ok m') (ops : List Op) (x : Query) :
    m'.observe E junk h ops x = m.observe E junk s ops x := by
  have hok := OK.run P OK.empty hm
  obtain ⟨o, h1, h2, h3, h4, h5, -⟩ := move_objs hs
  obtain ⟨b, hb⟩ := hok.body hl
  refine observe_ib hok (hok.step hs) hb (I := defaultInertiaBase) ?_ ops x
  obtain ⟨o', a, c, ho, ha, hc, rfl⟩ := body_eq.1 hb
  rw [h1] at ho
  cases ho
  exact body_eq.2 ⟨{ o with inertiaBase := defaultInertiaBase }, a, c, h4, ha, by rw [h5, hc], rfl⟩

/-- The one harmless query on a moved-from body: `Position` / `Orientation` with an explicit `q` at
link `-dof - 1` (the base). -/
def Query.AtBase (d : ℕ) : Query → Prop
  | .positionQ _ i _ => i = -d - 1
  | .orientationQ _ i => i = -d - 1
  | _ => False

/-- C50: a moved-from body keeps its `dof()`, but every query on it is undefined behaviour (if it had
at least one rigid body), as are the load calls, integration, `set_q` / `set_dq` with a vector of
size `dof()`, copying it and assigning from it. -/
theorem C50_moved_from {h s : ℕ} (hs : m.step E junk (.move h s) = .ok m') {d : ℕ}
    (hd : m.dof s = .ok d) (h0 : 0 < d) :
    m'.dof s = .ok d ∧
    (∀ x : Query, ¬ x.AtBase d → m'.ask E junk s x = .ub) ∧
    (∀ x : Query, ¬ x.AtBase d → m'.step E junk (.call s (.query x)) = .ub) ∧
    (∀ I i, m'.step E junk (.call s (.addLoad I i)) = .ub ∧
      m'.step E junk (.call s (.replaceLoad I i)) = .ub ∧
      m'.step E junk (.call s (.clearLoad i)) = .ub) ∧
    (∀ t dt f o, m'.step E junk (.call s (.integrate t dt f o)) = .ub) ∧
    (∀ t dt f o, m'.step E junk (.call s (.discreteIntegrate t dt f o)) = .ub) ∧
    (∀ q : List ℝ, m'.step E junk (.call s (.setQ q)) = (if q.length = d then .ub else .throws) ∧
      m'.step E junk (.call s (.setDq q)) = (if q.length = d then .ub else .throws)) ∧
    (∀ k, m'.step E junk (.copy k s) = .ub) ∧ (∀ k, m'.step E junk (.assign k s) = .ub) := by
  obtain ⟨o, h1, h2, h3, h4, h5, -⟩ := move_objs hs
  have hod : o.dof = d := by
    simp only [Mem.dof, Mem.get, h1, Out.bind] at hd
    cases hd
    rfl
  have hod' : o.husk.dof = d := hod
  have hnil : o.husk.rbs = [] := rfl
  have hask : ∀ x : Query, ¬ x.AtBase d → o.husk.askNull junk x = .ub := by
    intro x hx
    have hacc : ∀ {α : Type} (i : ℤ), o.husk.access ([] : List α) i = .ub := by
      intro α i
      unfold Obj.access
      rw [if_neg]
      simp only [List.length_nil]
      intro h
      omega
    have hacc1 : ∀ i, o.husk.access o.husk.rbs i = .ub := fun i => hacc i
    have hacc2 : ∀ i, o.husk.access o.husk.anc i = .ub := fun i => hacc i
    have hacc3 : ∀ i, o.husk.access o.husk.sub i = .ub := fun i => hacc i
    cases x <;> simp only [Obj.askNull, hacc1, hacc2, hacc3, Out.bind]
    case positionQ u i y =>
      rw [if_neg]
      intro hr
      apply hx
      simp only [Query.AtBase]
      unfold Obj.resolve at hr
      rw [hod'] at hr
      split at hr <;> omega
    case orientationQ u i =>
      rw [if_neg]
      intro hr
      apply hx
      simp only [Query.AtBase]
      unfold Obj.resolve at hr
      rw [hod'] at hr
      split at hr <;> omega
    case friction t c e =>
      rw [if_neg]
      rw [hnil, hod']
      simp only [List.length_nil]
      omega
  have hp : o.husk.ptr = none := rfl
  have hlen : o.husk.rbs.length < o.husk.dof := by rw [hnil, hod']; exact h0
  refine ⟨?_, ?_, ?_, ?_, ?_, ?_, ?_, ?_, ?_⟩
  · simp only [Mem.dof, Mem.get, h3, Out.bind, hod']
  · intro x hx
    simp only [Mem.ask, Mem.get, h3, Out.bind, hp, hask x hx]
  · intro x hx
    simp only [Mem.step, Mem.get, h3, Out.bind, hp, Obj.stepNull, hask x hx, Out.map]
  · intro I i
    simp only [Mem.step, Mem.get, h3, Out.bind, hp, Obj.stepNull, and_self]
  · intro t dt f o'
    simp only [Mem.step, Mem.get, h3, Out.bind, hp, Obj.stepNull]
  · intro t dt f o'
    simp only [Mem.step, Mem.get, h3, Out.bind, hp, Obj.stepNull]
  · intro q
    simp only [Mem.step, Mem.get, h3, Out.bind, hp, Obj.stepNull, hod', ne_eq]
    by_cases hq : q.length = d
    · have hlen' : o.husk.rbs.length < d := by rw [← hod']; exact hlen
      simp [hq, hlen']
    · simp [hq]
  · intro k
    simp only [Mem.step]
    cases m'.objs k with
    | some _ => rfl
    | none => simp only [Mem.get, h3, Out.bind, Mem.deref, hp]
  · intro k
    simp only [Mem.step, Mem.get]
    cases m'.objs k with
    | none => rfl
    | some _ => simp only [h3, Out.bind, Mem.deref, hp]

/-- C50: assigning a live body to any existing object, moved-from or not, is defined and gives back
full function: the target then answers every query, after any calls, like the source. -/
theorem C50_assign_restores (hm : Mem.empty.run E junk P = some m) {h s : ℕ} (hl : m.Live s)
    (hh : (m.objs h).isSome) : ∃ m', m.step E junk (.assign h s) = .ok m' ∧ m'.Live h ∧
      ∀ ops x, m'.observe E junk h ops x = m.observe E junk s ops x := by
  have hok := OK.run P OK.empty hm
  obtain ⟨o, a, ho, ha⟩ := hl
  obtain ⟨c, hc⟩ := Option.isSome_iff_exists.1 (hok.live s o a ho ha).2.1
  obtain ⟨t, ht⟩ := Option.isSome_iff_exists.1 hh
  have h1 : ∃ m', m.step E junk (.assign h s) = .ok m' :=
    ⟨_, by simp only [Mem.step, Mem.get, ho, ht, Out.bind, Mem.deref, ha, hc]; rfl⟩
  obtain ⟨m', h1⟩ := h1
  refine ⟨m', h1, ?_, fun ops x => C16_assign_answers_partial hm h1 ops x⟩
  obtain ⟨b, I, -, h2, -⟩ := body_assign hok h1
  exact live_of_body h2

/-- Witness for C50: the witness body is moved to a new object, leaving an unusable source with three
degrees of freedom, which is then assigned back. -/
example (E : Ext) (junk : Cache) : ∃ m m' m'', Mem.empty.run E junk copyProgram = some m ∧
    m.step E junk (.move 1 0) = .ok m' ∧ m'.dof 0 = .ok 3 ∧ m'.ask E junk 0 .gravity = .ub ∧
    m'.step E junk (.assign 0 1) = .ok m'' ∧ m''.Live 0 ∧
    ∀ x, m''.observe E junk 0 [] x = m.observe E junk 0 [] x := by
  obtain ⟨m, h1, h2, h3, h4⟩ := copyProgram_run E junk
  obtain ⟨o, a, ho, ha⟩ := live_of_body h3
  have h5 : ∃ m', m.step E junk (.move 1 0) = .ok m' :=
    ⟨_, by simp only [Mem.step, h4, Mem.get, ho, Out.bind]; rfl⟩
  obtain ⟨m', h5⟩ := h5
  have hd : m.dof 0 = .ok 3 := by
    obtain ⟨o', a', c, ho', ha', hc, e⟩ := body_eq.1 h3
    rw [ho] at ho'
    cases ho'
    have h6 := (h2.live 0 o a ho ha).2.2
    have : o.rbs = heavyDemo.rbs := by rw [← e]; rfl
    simp only [Mem.dof, Mem.get, ho, Out.bind, h6, this]
    rfl
  obtain ⟨h6, h7, -⟩ := C50_moved_from (E := E) (junk := junk) h5 hd (by norm_num)
  have hrun : Mem.empty.run E junk (copyProgram ++ [.move 1 0]) = some m' := by
    have happ : ∀ (l : List Cmd) (n : Mem), n.run E junk (l ++ [.move 1 0]) =
        (n.run E junk l).bind fun n' => n'.run E junk [.move 1 0] := by
      intro l
      induction l with
      | nil => intro n; rfl
      | cons x l ih =>
        intro n
        simp only [List.cons_append, Mem.run]
        cases n.exec E junk x with
        | none => rfl
        | some n' => exact ih n'
    rw [happ, h1]
    simp [Mem.run, Mem.exec, h5]
  obtain ⟨o1, g1, g2, g3, g4, g5, -⟩ := move_objs h5
  rw [ho] at g1
  cases g1
  obtain ⟨m'', h8, h9, h10⟩ := C50_assign_restores (E := E) (junk := junk) (h := 0) (s := 1) hrun
    ⟨_, a, g4, ha⟩ (by rw [g3]; rfl)
  refine ⟨m, m', m'', h1, h5, h6, h7 _ (by simp [Query.AtBase]), h8, h9, fun x => ?_⟩
  rw [h10, C50_moved_to h1 ⟨o, a, ho, ha⟩ h5]

end SpatialDyn
