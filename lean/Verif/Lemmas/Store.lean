import Verif.Model.Store
import Verif.Lemmas.InertiaBase

/-! Unique ownership of caches, and calls on one object seen as calls on a body. -/

namespace SpatialDyn
namespace Mem

/-- Every object owns its cache alone, the cache is alive, and `dof_` counts the rigid bodies. -/
structure OK (m : Mem) : Prop where
  live : ∀ h o a, m.objs h = some o → o.ptr = some a →
    a < m.next ∧ (m.heap a).isSome ∧ o.dof = o.rbs.length
  uniq : ∀ h h' o o' a, m.objs h = some o → m.objs h' = some o' → o.ptr = some a →
    o'.ptr = some a → h = h'

theorem OK.empty : Mem.empty.OK := by
  constructor
  · intro _ _ _ h; cases h
  · intro _ _ _ _ _ h; cases h

/-- The body of a live object. -/
def body (m : Mem) (h : ℕ) : Option Body :=
  (m.objs h).bind fun o => o.ptr.bind fun a => (m.heap a).map o.body

theorem body_eq {m : Mem} {h : ℕ} {b : Body} : m.body h = some b ↔
    ∃ o a c, m.objs h = some o ∧ o.ptr = some a ∧ m.heap a = some c ∧ o.body c = b := by
  unfold body
  constructor
  · intro hb
    obtain ⟨o, ho, hb⟩ := Option.bind_eq_some_iff.1 hb
    obtain ⟨a, ha, hb⟩ := Option.bind_eq_some_iff.1 hb
    obtain ⟨c, hc, hb⟩ := Option.map_eq_some_iff.1 hb
    exact ⟨o, a, c, ho, ha, hc, hb⟩
  · rintro ⟨o, a, c, ho, ha, hc, rfl⟩
    simp [ho, ha, hc]

theorem _root_.SpatialDyn.Obj.body_ofBody (a : Option ℕ) (b : Body) : (Obj.ofBody a b).body b.c = b :=
  rfl

/-- Replace or create the object `h` with a cache at the fresh address. -/
theorem OK.fresh {m m' : Mem} (hm : m.OK) {h : ℕ} {o : Obj} (hn : m'.next = m.next + 1)
    (ho : ∀ k, m'.objs k = if k = h then some o else m.objs k) (hp : o.ptr = some m.next)
    (hd : o.dof = o.rbs.length) (hh : (m'.heap m.next).isSome)
    (hk : ∀ k o' a, k ≠ h → m.objs k = some o' → o'.ptr = some a → (m'.heap a) = m.heap a) :
    m'.OK := by
  constructor
  · intro k o' a h1 h2
    rw [ho] at h1
    split at h1
    · cases h1
      rw [hp] at h2
      cases h2
      exact ⟨by omega, hh, hd⟩
    · rename_i hne
      obtain ⟨h3, h4, h5⟩ := hm.live k o' a h1 h2
      exact ⟨by omega, by rw [hk k o' a hne h1 h2]; exact h4, h5⟩
  · intro k k' o1 o2 a h1 h2 h3 h4
    rw [ho] at h1 h2
    split at h1 <;> split at h2
    · rename_i e1 e2; rw [e1, e2]
    · cases h1
      rw [hp] at h3
      cases h3
      have := (hm.live k' o2 _ h2 h4).1
      omega
    · cases h2
      rw [hp] at h4
      cases h4
      have := (hm.live k o1 _ h1 h3).1
      omega
    · exact hm.uniq k k' o1 o2 a h1 h2 h3 h4

/-- A live call in terms of the body. -/
theorem call_body {E : Ext} {junk : Cache} {m : Mem} (hm : m.OK) {h : ℕ} {b : Body}
    (hb : m.body h = some b) (op : Op) :
    match op.step E b with
    | .ok b' => ∃ m', m.step E junk (.call h op) = .ok m' ∧ m'.body h = some b' ∧ m'.OK ∧
        ∀ k, k ≠ h → m'.objs k = m.objs k ∧
          ∀ o a, m.objs k = some o → o.ptr = some a → m'.heap a = m.heap a
    | .throws => m.step E junk (.call h op) = .throws
    | .ub => m.step E junk (.call h op) = .ub := by
  obtain ⟨o, a, c, ho, ha, hc, rfl⟩ := body_eq.1 hb
  obtain ⟨h1, h2, h3⟩ := hm.live h o a ho ha
  have hs : m.step E junk (.call h op) = (op.step E (o.body c)).bind fun b =>
      .ok ({ m with heap := Function.update m.heap a (some b.c) }.put h
        (some (Obj.ofBody (some a) b))) := by
    simp only [step, get, ho, Out.bind, ha, callLive, deref, hc, h3, ne_eq, not_true_eq_false,
      if_false]
  rw [hs]
  cases hop : op.step E (o.body c) with
  | throws => rfl
  | ub => rfl
  | ok b' =>
    have hother : ∀ k o' a', k ≠ h → m.objs k = some o' → o'.ptr = some a' → a' ≠ a := by
      intro k o' a' hk h5 h6 e
      subst e
      exact hk (hm.uniq k h o' o a' h5 ho h6 ha)
    refine ⟨_, rfl, ?_, ⟨?_, ?_⟩, ?_⟩
    · exact body_eq.2 ⟨Obj.ofBody (some a) b', a, b'.c, Function.update_self .., rfl,
        Function.update_self .., rfl⟩
    · intro k o' a' h4 h5
      by_cases hk : k = h
      · subst hk
        simp only [put, Function.update_self, Option.some.injEq] at h4
        subst h4
        cases h5
        exact ⟨h1, by simp [put], rfl⟩
      · simp only [put, Function.update_of_ne hk] at h4
        obtain ⟨h6, h7, h8⟩ := hm.live k o' a' h4 h5
        refine ⟨h6, ?_, h8⟩
        simp only [put, Function.update_of_ne (hother k o' a' hk h4 h5)]
        exact h7
    · intro k k' o1 o2 a' h4 h5 h6 h7
      by_cases hk : k = h <;> by_cases hk' : k' = h
      · rw [hk, hk']
      · subst hk
        simp only [put, Function.update_self, Function.update_of_ne hk', Option.some.injEq] at h4 h5
        subst h4
        cases h6
        exact absurd rfl (hother k' o2 _ hk' h5 h7)
      · subst hk'
        simp only [put, Function.update_self, Function.update_of_ne hk, Option.some.injEq] at h4 h5
        subst h5
        cases h7
        exact absurd rfl (hother k o1 _ hk h4 h6)
      · simp only [put, Function.update_of_ne hk, Function.update_of_ne hk'] at h4 h5
        exact hm.uniq k k' o1 o2 a' h4 h5 h6 h7
    · intro k hk
      refine ⟨Function.update_of_ne hk _ _, fun o' a' h4 h5 => ?_⟩
      exact Function.update_of_ne (hother k o' a' hk h4 h5) _ _

theorem run_calls {E : Ext} {junk : Cache} (ops : List Op) {m : Mem} (hm : m.OK) {h : ℕ} {b : Body}
    (hb : m.body h = some b) :
    match execAll E b ops with
    | some b' => ∃ m', m.run E junk (ops.map (Cmd.call h)) = some m' ∧ m'.body h = some b' ∧ m'.OK
    | none => m.run E junk (ops.map (Cmd.call h)) = none := by
  induction ops generalizing m b with
  | nil => exact ⟨m, rfl, hb, hm⟩
  | cons op l ih =>
    have h1 := call_body (E := E) (junk := junk) hm hb op
    simp only [execAll, List.map_cons, run, Op.exec, exec]
    cases hs : op.step E b with
    | ok b' =>
      rw [hs] at h1
      obtain ⟨m', h2, h3, h4, -⟩ := h1
      simp only [h2, Option.bind_some]
      exact ih h4 h3
    | throws =>
      rw [hs] at h1
      simp only at h1
      simp only [h1, Option.bind_some]
      exact ih hm hb
    | ub =>
      rw [hs] at h1
      simp only at h1
      simp only [h1, Option.bind_none]

theorem ask_body {E : Ext} {junk : Cache} {m : Mem} (hm : m.OK) {h : ℕ} {b : Body}
    (hb : m.body h = some b) (x : Query) : m.ask E junk h x = (x.run E b).map Prod.fst := by
  obtain ⟨o, a, c, ho, ha, hc, rfl⟩ := body_eq.1 hb
  obtain ⟨-, -, h3⟩ := hm.live h o a ho ha
  simp only [ask, get, ho, Out.bind, ha, deref, hc, h3, ne_eq, not_true_eq_false, if_false]

theorem execAll_ib (E : Ext) (ops : List Op) (b : Body) (I : Inertia) :
    ∃ I', execAll E (b.withIB I) ops = (execAll E b ops).map (Body.withIB I') := by
  induction ops generalizing b I with
  | nil => exact ⟨I, rfl⟩
  | cons op l ih =>
    obtain ⟨I1, h1⟩ := Op.step_ib E b I op
    simp only [execAll, Op.exec, h1]
    cases op.step E b with
    | ok b' => exact ih b' I1
    | throws => exact ih b I
    | ub => exact ⟨I, rfl⟩

theorem stepNull_ptr {o o' : Obj} {c : Cache} {op : Op} (hp : o.ptr = none)
    (h : o.stepNull c op = .ok o') : o'.ptr = none := by
  cases op <;> simp only [Obj.stepNull] at h
  case addRigidBody rb p =>
    obtain ⟨r, -, rfl⟩ := Body.Out.map_ok h
    rfl
  case query x =>
    obtain ⟨r, -, rfl⟩ := Body.Out.map_ok h
    exact hp
  all_goals first
    | cases h; exact hp
    | (split at h
       · cases h
       · first
         | (cases h; exact hp)
         | (split at h
            · cases h
            · cases h; exact hp))
    | cases h

/-- Every statement keeps ownership unique. -/
theorem OK.step {E : Ext} {junk : Cache} {m m' : Mem} (hm : m.OK) {x : Cmd}
    (hs : m.step E junk x = .ok m') : m'.OK := by
  cases x with
  | create h c =>
    simp only [Mem.step] at hs
    split at hs
    · cases hs
    · cases hs
      refine hm.fresh (h := h) (o := Obj.ofBody (some m.next) (Body.init c)) rfl (fun k => ?_) rfl rfl ?_
        (fun k o' a hk h1 h2 => ?_)
      · simp only [put, alloc, Function.update_apply]
      · simp [put, alloc]
      · simp only [put, alloc]
        exact Function.update_of_ne (by have := (hm.live k o' a h1 h2).1; omega) _ _
  | copy h s =>
    simp only [Mem.step] at hs
    split at hs
    · cases hs
    · obtain ⟨o, h1, hs⟩ := Body.Out.bind_ok hs
      obtain ⟨⟨a, c⟩, h2, hs⟩ := Body.Out.bind_ok hs
      cases hs
      unfold get at h1
      split at h1
      · cases h1
      · rename_i ho
        cases h1
        unfold deref at h2
        split at h2
        · cases h2
        · rename_i hp
          obtain ⟨h5, h6, h7⟩ := hm.live s o _ ho hp
          refine hm.fresh (h := h) (o := { o with ptr := some m.next, inertiaBase := defaultInertiaBase })
            rfl (fun k => ?_) rfl h7 ?_ (fun k o' a hk h1 h2 => ?_)
          · simp only [put, alloc, Function.update_apply]
          · simp [put, alloc]
          · simp only [put, alloc]
            exact Function.update_of_ne (by have := (hm.live k o' a h1 h2).1; omega) _ _
  | assign h s =>
    simp only [Mem.step] at hs
    obtain ⟨t, h0, hs⟩ := Body.Out.bind_ok hs
    obtain ⟨o, h1, hs⟩ := Body.Out.bind_ok hs
    obtain ⟨⟨a, c⟩, h2, hs⟩ := Body.Out.bind_ok hs
    cases hs
    unfold get at h1 h0
    split at h0
    · cases h0
    · rename_i t' ht
      cases h0
      split at h1
      · cases h1
      · rename_i ho
        cases h1
        unfold deref at h2
        split at h2
        · cases h2
        · rename_i hp
          obtain ⟨h5, h6, h7⟩ := hm.live s o _ ho hp
          have hne : ∀ a', t.ptr = some a' → a' < m.next := fun a' ha' => (hm.live h t a' ht ha').1
          refine hm.fresh (h := h) (o := { o with ptr := some m.next, inertiaBase := t.inertiaBase })
            ?_ (fun k => ?_) rfl h7 ?_ (fun k o' a hk h1 h2 => ?_)
          · cases t.ptr <;> rfl
          · cases t.ptr <;> simp only [put, alloc, free, Function.update_apply]
          · cases hq : t.ptr with
            | none => simp [put, alloc, free]
            | some a' =>
              have := hne a' hq
              simp only [put, alloc, free]
              rw [Function.update_of_ne (by omega), Function.update_self]
              rfl
          · have h8 := (hm.live k o' a h1 h2).1
            cases hq : t.ptr with
            | none =>
              simp only [put, alloc, free]
              exact Function.update_of_ne (by omega) _ _
            | some a' =>
              simp only [put, alloc, free]
              rw [Function.update_of_ne, Function.update_of_ne (by omega)]
              rintro rfl
              exact hk (hm.uniq k h o' t a h1 ht h2 hq)
  | move h s =>
    simp only [Mem.step] at hs
    split at hs
    · cases hs
    · rename_i hh
      obtain ⟨o, h1, hs⟩ := Body.Out.bind_ok hs
      cases hs
      unfold get at h1
      split at h1
      · cases h1
      · rename_i ho
        cases h1
        have hsh : h ≠ s := by rintro rfl; rw [hh] at ho; cases ho
        have hobj : ∀ k o', ((m.put h (some { o with inertiaBase := defaultInertiaBase })).put s
            (some o.husk)).objs k = some o' → o'.ptr = none ∨
              (k = h ∧ o'.ptr = o.ptr ∧ o'.dof = o.dof ∧ o'.rbs = o.rbs) ∨
              (k ≠ s ∧ m.objs k = some o') := by
          intro k o' hk
          simp only [put] at hk
          by_cases h1 : k = s
          · subst h1
            rw [Function.update_self] at hk
            cases hk
            exact .inl rfl
          · rw [Function.update_of_ne h1] at hk
            by_cases h2 : k = h
            · subst h2
              rw [Function.update_self] at hk
              cases hk
              exact .inr (.inl ⟨rfl, rfl, rfl, rfl⟩)
            · rw [Function.update_of_ne h2] at hk
              exact .inr (.inr ⟨h1, hk⟩)
        constructor
        · intro k o' a h2 h3
          rcases hobj k o' h2 with h4 | ⟨rfl, h4, h5, h6⟩ | ⟨-, h4⟩
          · rw [h4] at h3; cases h3
          · rw [h4] at h3
            obtain ⟨h7, h8, h9⟩ := hm.live s o a ho h3
            exact ⟨h7, h8, by rw [h5, h6, h9]⟩
          · exact hm.live k o' a h4 h3
        · intro k k' o1 o2 a h2 h3 h4 h5
          rcases hobj k o1 h2 with h6 | ⟨rfl, h6, -⟩ | ⟨hk, h6⟩
          · rw [h6] at h4; cases h4
          · rcases hobj k' o2 h3 with h7 | ⟨rfl, -⟩ | ⟨hk', h7⟩
            · rw [h7] at h5; cases h5
            · rfl
            · rw [h6] at h4
              exact absurd (hm.uniq k' s o2 o a h7 ho h5 h4) hk'
          · rcases hobj k' o2 h3 with h7 | ⟨rfl, h7, -⟩ | ⟨hk', h7⟩
            · rw [h7] at h5; cases h5
            · rw [h7] at h5
              exact absurd (hm.uniq k s o1 o a h6 ho h4 h5) hk
            · exact hm.uniq k k' o1 o2 a h6 h7 h4 h5
  | destroy h =>
    simp only [Mem.step] at hs
    obtain ⟨o, h1, hs⟩ := Body.Out.bind_ok hs
    cases hs
    unfold get at h1
    split at h1
    · cases h1
    · rename_i ho
      cases h1
      have hobj : ∀ k o', ((m.free o.ptr).put h none).objs k = some o' →
          k ≠ h ∧ m.objs k = some o' := by
        intro k o' hk
        by_cases h1 : k = h
        · subst h1; simp [put] at hk
        · simp only [put, Function.update_of_ne h1] at hk
          refine ⟨h1, ?_⟩
          cases hq : o.ptr <;> (rw [hq] at hk; exact hk)
      constructor
      · intro k o' a h2 h3
        obtain ⟨hk, h4⟩ := hobj k o' h2
        obtain ⟨h5, h6, h7⟩ := hm.live k o' a h4 h3
        cases hq : o.ptr with
        | none => exact ⟨h5, h6, h7⟩
        | some a' =>
          refine ⟨h5, ?_, h7⟩
          simp only [put, free]
          rw [Function.update_of_ne]
          · exact h6
          · rintro rfl
            exact hk (hm.uniq k h o' o a h4 ho h3 hq)
      · intro k k' o1 o2 a h2 h3 h4 h5
        exact hm.uniq k k' o1 o2 a (hobj k o1 h2).2 (hobj k' o2 h3).2 h4 h5
  | call h op =>
    have hs' := hs
    simp only [Mem.step] at hs
    obtain ⟨o, h1, hs⟩ := Body.Out.bind_ok hs
    unfold get at h1
    split at h1
    · cases h1
    · rename_i ho
      cases h1
      split at hs
      · rename_i hp
        obtain ⟨o', h2, hs⟩ := Body.Out.bind_ok hs
        cases hs
        have hp' := stepNull_ptr hp h2
        have hobj : ∀ k o1, o1.ptr ≠ none → (m.put h (some o')).objs k = some o1 →
            m.objs k = some o1 := by
          intro k o1 h3 h4
          by_cases hk : k = h
          · subst hk
            simp only [put, Function.update_self, Option.some.injEq] at h4
            subst h4
            exact absurd hp' h3
          · simpa only [put, Function.update_of_ne hk] using h4
        constructor
        · intro k o1 a h3 h4
          exact hm.live k o1 a (hobj k o1 (by rw [h4]; simp) h3) h4
        · intro k k' o1 o2 a h3 h4 h5 h6
          exact hm.uniq k k' o1 o2 a (hobj k o1 (by rw [h5]; simp) h3)
            (hobj k' o2 (by rw [h6]; simp) h4) h5 h6
      · rename_i a hp
        obtain ⟨h3, h4, h5⟩ := hm.live h o a ho hp
        obtain ⟨c, hc⟩ := Option.isSome_iff_exists.1 h4
        have h6 := call_body (E := E) (junk := junk) hm (body_eq.2 ⟨o, a, c, ho, hp, hc, rfl⟩) op
        split at h6
        · obtain ⟨m1, h7, -, h8, -⟩ := h6
          rw [hs'] at h7
          cases h7
          exact h8
        · rw [hs'] at h6; cases h6
        · rw [hs'] at h6; cases h6

theorem OK.run {E : Ext} {junk : Cache} (l : List Cmd) {m m' : Mem} (hm : m.OK)
    (hs : m.run E junk l = some m') : m'.OK := by
  induction l generalizing m with
  | nil => cases hs; exact hm
  | cons x l ih =>
    obtain ⟨m1, h1, h2⟩ := Option.bind_eq_some_iff.1 hs
    refine ih ?_ h2
    unfold exec at h1
    split at h1
    · cases h1; exact hm.step (by assumption)
    · cases h1; exact hm
    · cases h1

end Mem
end SpatialDyn
