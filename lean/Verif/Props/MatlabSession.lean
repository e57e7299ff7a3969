import Verif.Lemmas.MatlabSession
import Verif.Lemmas.Steps
import Verif.Props.UrdfWitness

/-!
# C93, C94: MATLAB variables and the robots they refer to
-/

namespace SpatialDyn
namespace Mex

open Function Body

variable {E : Ext} {C : Ctl} {X : UrdfExt} {A : Alloc} {strict : Prop} {m : ℕ → ℕ} {w : World} {s : Session}

theorem step_delete {x a : ℕ} (hx : s.vars x = some a) (h0 : a ≠ 0) :
    s.step E C X A (.delete x) = match s.heap a with
      | none => .ub
      | some _ => .ok (none, { s with heap := update s.heap a none, time := s.time + 1 }) := by
  obtain ⟨a, rfl⟩ := Nat.exists_eq_succ_of_ne_zero h0
  simp only [Session.step, hx]
  cases s.heap a.succ <;> rfl

theorem step_call {x a : ℕ} (hx : s.vars x = some a) (h0 : a ≠ 0) (f : Fn) (args : List Val) :
    s.step E C X A (.call x f args) = match s.heap a with
      | none => .ub
      | some b => (f.run E C b s.ik args).bind fun r => .ok (r.1.1,
        { s with heap := update s.heap a (some r.1.2), ik := r.2, time := s.time + 1 }) := by
  obtain ⟨a, rfl⟩ := Nat.exists_eq_succ_of_ne_zero h0
  simp only [Session.step, hx]
  cases s.heap a.succ <;> rfl

/-- One command in the session and in the world it stands for. -/
theorem Rep.step (h : Rep strict m w s) (hA : strict → ∀ t h, t ≠ 0 → h t = none → A.addr t h = t) (c : Cmd) :
    match w.step E C X c with
    | .ok r => ∃ t m', s.step E C X A c = .ok (r.1, t) ∧ Rep strict m' r.2 t
    | .throws => s.step E C X A c = .throws
    | .ub => strict → (∀ x a, c = .handle x a → a = 0) → s.step E C X A c = .ub := by
  have ht := h.tick
  cases c with
  | load x doc c =>
    cases hl : loadModel X c doc with
    | ok n =>
      simp only [World.step, Session.step, hl, Out.bind]
      have hroom := A.unused (s.time + 1) s.heap h.room
      refine ⟨_, _, rfl, h.load n.body x (A.notNull (s.time + 1) s.heap) hroom (Nat.le_succ _) fun hs => ?_⟩
      have hfree : s.heap (s.time + 1) = none := by
        by_contra hc
        obtain ⟨b, hb⟩ := Option.ne_none_iff_exists'.1 hc
        obtain ⟨k, hk, e⟩ := h.only _ b hb
        have := h.old hs k (World.robot_lt hk)
        omega
      rw [hA hs _ _ (Nat.succ_ne_zero _) hfree]
      omega
    | throws => simp only [World.step, Session.step, hl, Out.bind]
    | ub =>
      simp [World.step, Session.step, hl, Out.bind]
  | handle x a =>
    unfold World.step Session.step
    by_cases e : a = 0
    · subst e
      exact ⟨_, m, rfl, ht.setVar x (r := .null) (by simp)⟩
    · dsimp only
      rw [if_neg e]
      exact fun _ hc => absurd (hc x a rfl) e
  | assign x y =>
    unfold World.step Session.step
    dsimp only
    have hy := h.vars y
    cases e : w.vars y with
    | none => rw [e] at hy; rw [hy]; rfl
    | some r =>
      rw [e] at hy
      rw [hy]
      exact ⟨_, m, rfl, ht.setVar x fun k hk => h.refs y k (by rw [e, hk])⟩
  | clear x => exact ⟨_, m, rfl, ht.clear x⟩
  | delete x =>
    have hx := h.vars x
    cases e : w.vars x with
    | none =>
      rw [e] at hx
      simp only [World.step, Session.step, e, hx, Option.map_none]
    | some r =>
      rw [e] at hx
      cases r with
      | null =>
        simp only [World.step, Session.step, e, hx, Option.map_some, Ref.addr]
        exact ⟨_, m, rfl, ht⟩
      | robot k =>
        have hk := h.refs x k e
        rw [step_delete (a := m k) hx (h.notNull k hk)]
        cases hr : w.robot k with
        | none =>
          simp only [World.step, e, hr]
          intro hs _
          rw [h.dead hs k hk hr]
        | some b =>
          simp only [World.step, e, hr]
          refine ⟨_, m, ?_, ht.write hr none w.ik⟩
          rw [h.live k b hr, ← h.ik]
  | call x f args =>
    have hx := h.vars x
    cases e : w.vars x with
    | none =>
      rw [e] at hx
      simp only [World.step, Session.step, e, hx, Option.map_none]
    | some r =>
      rw [e] at hx
      cases r with
      | null =>
        simp only [World.step, Session.step, e, hx, Option.map_some, Ref.addr]
        exact ⟨_, m, rfl, ht⟩
      | robot k =>
        have hk := h.refs x k e
        rw [step_call (a := m k) hx (h.notNull k hk)]
        cases hr : w.robot k with
        | none =>
          simp only [World.step, e, hr]
          intro hs _
          rw [h.dead hs k hk hr]
        | some b =>
          simp only [World.step, e, hr]
          rw [h.live k b hr, h.ik]
          dsimp only
          cases f.run E C b w.ik args with
          | ok r => exact ⟨_, m, rfl, ht.write hr (some r.1.2) r.2⟩
          | throws => rfl
          | ub => intro _ _; rfl

/-- A program in the session and in the world it stands for. -/
theorem Rep.run (hA : strict → ∀ t h, t ≠ 0 → h t = none → A.addr t h = t) (l : List Cmd) : ∀ {m w s},
    Rep strict m w s →
    match w.run E C X l with
    | .ok r => ∃ t m', s.run E C X A l = .ok (r.1, t) ∧ Rep strict m' r.2 t
    | .throws => s.run E C X A l = .throws
    | .ub => strict → NoHandles l → s.run E C X A l = .ub := by
  induction l with
  | nil => intro m w s h; exact ⟨s, m, rfl, h⟩
  | cons c l ih =>
    intro m w s h
    have h1 := h.step (E := E) (C := C) (X := X) hA c
    unfold World.run Session.run
    cases e : w.step E C X c with
    | throws => rw [e] at h1; rw [h1]; rfl
    | ub =>
      rw [e] at h1
      intro hs hl
      rw [h1 hs fun x a e' => hl x a (e' ▸ List.mem_cons_self)]
      rfl
    | ok r =>
      rw [e] at h1
      obtain ⟨t, m', h2, h3⟩ := h1
      rw [h2]
      have h4 := ih h3
      simp only [Out.bind]
      cases e' : r.2.run E C X l with
      | throws => rw [e'] at h4; rw [h4]
      | ub =>
        rw [e'] at h4
        intro hs hl
        rw [h4 hs fun x a hx => hl x a (List.mem_cons_of_mem _ hx)]
      | ok r' =>
        rw [e'] at h4
        obtain ⟨t', m'', h5, h6⟩ := h4
        exact ⟨t', m'', by rw [h5], h6⟩

theorem rep_init (strict : Prop) : Rep strict id World.init Session.init :=
  ⟨fun _ => rfl, fun _ _ h => (nomatch h), fun _ h => (nomatch h), fun _ _ h => by simp [World.robot, World.init] at h,
    fun _ _ _ _ h => by simp [World.robot, World.init] at h, fun _ _ h => (nomatch h), rfl,
    fun _ _ h => (nomatch h), fun _ _ h => (nomatch h)⟩

/-- An allocator that uses no address twice. -/
noncomputable def Alloc.never : Alloc where
  addr t h := open Classical in
    if t ≠ 0 ∧ h t = none then t else if hf : ∃ a ≠ 0, h a = none then hf.choose else 1
  notNull t h := by
    beta_reduce
    split_ifs with h1 h2
    · exact h1.1
    · exact h2.choose_spec.1
    · exact one_ne_zero
  unused t h hf := by
    beta_reduce
    split_ifs with h1
    · exact h1.2
    · exact hf.choose_spec.2

/-- An allocator that takes the first free address. -/
noncomputable def Alloc.first : Alloc where
  addr _ h := open Classical in if hf : ∃ a, a ≠ 0 ∧ h a = none then Nat.find hf else 1
  notNull t h := by
    classical
    beta_reduce
    split_ifs with h1
    · exact (Nat.find_spec h1).1
    · exact one_ne_zero
  unused t h hf := by
    classical
    beta_reduce
    rw [dif_pos hf]
    exact (Nat.find_spec hf).2

/-! ## C93 -/

/-- C93: a program that does not use deleted robots behaves as if every load made a new robot to which
the variables refer, at whatever addresses the robots are: the outputs are the same, and every variable
gives access to its robot. -/
theorem C93_meaning (A : Alloc) {l : List Cmd} {o : List (Option Arr)} (hr : World.init.run E C X l = .ok (o, w)) :
    ∃ s, Session.init.run E C X A l = .ok (o, s) ∧ ∀ x k b, w.vars x = some (.robot k) →
      w.robot k = some b → ∃ a, s.vars x = some a ∧ s.heap a = some b := by
  have h := Rep.run (E := E) (C := C) (X := X) (A := A) (strict := False) (fun h => h.elim) l (rep_init False)
  rw [hr] at h
  obtain ⟨s, m, h1, h2⟩ := h
  refine ⟨s, h1, fun x k b hx hk => ⟨m k, ?_, h2.live k b hk⟩⟩
  have := h2.vars x
  rw [hx] at this
  exact this

/-- C93: a program that is refused with an error is refused at whatever addresses the robots are. -/
theorem C93_error (A : Alloc) {l : List Cmd} (hr : World.init.run E C X l = .throws) :
    Session.init.run E C X A l = .throws := by
  have h := Rep.run (E := E) (C := C) (X := X) (A := A) (strict := False) (fun h => h.elim) l (rep_init False)
  rwa [hr] at h

/-- C93: for programs that make up no addresses this is the exact condition: a program is safe for all
placements in memory if and only if it has a meaning. -/
theorem C93_exact {l : List Cmd} (hl : NoHandles l) :
    (∀ A, Session.init.run E C X A l ≠ .ub) ↔ World.init.run E C X l ≠ .ub := by
  constructor
  · intro h hu
    have h1 := Rep.run (E := E) (C := C) (X := X) (A := .never) (strict := True)
      (fun _ t h h0 h1 => if_pos ⟨h0, h1⟩) l (rep_init True)
    rw [hu] at h1
    exact h _ (h1 trivial hl)
  · intro h A hu
    cases e : World.init.run E C X l with
    | ok r =>
      obtain ⟨s, hs, -⟩ := C93_meaning A (w := r.2) (o := r.1) e
      rw [hu] at hs
      cases hs
    | throws =>
      have := C93_error A e
      rw [hu] at this
      cases this
    | ub => exact h e

/-- C93: after `y = x` a call with `y` is a call with `x`: the same answer and the same effect. -/
theorem C93_shared {x y : ℕ} {r : Option Arr × Session} (hs : s.step E C X A (.assign y x) = .ok r) (f : Fn)
    (args : List Val) : r.2.step E C X A (.call y f args) = r.2.step E C X A (.call x f args) := by
  unfold Session.step at hs
  dsimp only at hs
  cases e : s.vars x with
  | none => rw [e] at hs; cases hs
  | some a =>
    rw [e] at hs
    cases hs
    have h1 : update s.vars y (some a) y = some a := update_self ..
    have h2 : update s.vars y (some a) x = some a := by
      by_cases h : x = y
      · rw [h]; exact update_self ..
      · rw [update_of_ne h, e]
    simp only [Session.step, h1, h2]

/-- C93: a call changes no robot but its own. -/
theorem C93_others {x : ℕ} {f : Fn} {args : List Val} {r : Option Arr × Session}
    (hs : s.step E C X A (.call x f args) = .ok r) : r.2.vars = s.vars ∧
      ∀ a, s.vars x ≠ some a → r.2.heap a = s.heap a := by
  cases e : s.vars x with
  | none =>
    simp only [Session.step, e] at hs
    cases hs
  | some a =>
    by_cases h0 : a = 0
    · subst h0
      simp only [Session.step, e] at hs
      cases hs
      exact ⟨rfl, fun _ _ => rfl⟩
    · rw [step_call e h0] at hs
      cases hb : s.heap a with
      | none => rw [hb] at hs; cases hs
      | some b =>
        rw [hb] at hs
        obtain ⟨t, -, hs⟩ := Out.bind_ok hs
        cases hs
        exact ⟨rfl, fun a' ha => update_of_ne (fun e' => ha (by rw [e'])) _ _⟩

/-! ## C94 -/

/-- C94 as one would expect it: a call with a robot that was deleted is refused. -/
def Claim94 (E : Ext) (C : Ctl) (X : UrdfExt) (A : Alloc) : Prop := ∀ (s t : Session) (x : ℕ) (o : Option Arr),
  s.step E C X A (.delete x) = .ok (o, t) → ∀ f args, t.step E C X A (.call x f args) ≠ .ub

/-- C94: after the deletion of a robot, calls with any variable that refers to it, and deleting it again,
are undefined behaviour. -/
theorem C94_deleted_violated {x a : ℕ} {b : Body} (hx : s.vars x = some a) (h0 : a ≠ 0)
    (hb : s.heap a = some b) : ∃ t, s.step E C X A (.delete x) = .ok (none, t) ∧ ∀ y, s.vars y = some a →
      t.step E C X A (.delete y) = .ub ∧ ∀ f args, t.step E C X A (.call y f args) = .ub := by
  refine ⟨{ s with heap := update s.heap a none, time := s.time + 1 }, ?_, fun y hy => ?_⟩
  · rw [step_delete hx h0, hb]
  · have hn : update s.heap a none a = none := update_self ..
    refine ⟨?_, fun f args => ?_⟩
    · rw [step_delete (s := { s with heap := update s.heap a none, time := s.time + 1 }) hy h0]
      dsimp only
      rw [hn]
    · rw [step_call (s := { s with heap := update s.heap a none, time := s.time + 1 }) hy h0]
      dsimp only
      rw [hn]

theorem C94_violated (E : Ext) (C : Ctl) (X : UrdfExt) (A : Alloc) (b : Body) : ¬ Claim94 E C X A := by
  intro h
  obtain ⟨t, h1, h2⟩ := C94_deleted_violated (E := E) (C := C) (X := X) (A := A) (x := 0) (a := 1) (b := b)
    (s := ⟨fun _ => some 1, fun _ => some b, none, 0⟩) rfl one_ne_zero rfl
  exact h _ t 0 none h1 .inertia [] ((h2 0 rfl).2 _ _)

/-- C94: an address may be used again: then the variable of a deleted robot controls another robot. -/
theorem C94_reuse_violated {d1 d2 : Option (List Xml)} {c1 c2 : Cache} {n1 n2 : Named}
    (h1 : loadModel X c1 d1 = .ok n1) (h2 : loadModel X c2 d2 = .ok n2) :
    ∃ s, Session.init.run E C X .first [.load 0 d1 c1, .delete 0, .load 1 d2 c2] = .ok ([none, none, none], s) ∧
      ∀ f args, s.step E C X .first (.call 0 f args) = s.step E C X .first (.call 1 f args) ∧
        s.step E C X .first (.call 0 f args) = (f.run E C n2.body none args).bind fun r => .ok (r.1.1,
          { s with heap := update s.heap 1 (some r.1.2), ik := r.2, time := s.time + 1 }) := by
  have hfirst : ∀ t, Alloc.first.addr t (fun _ => none) = 1 := by
    intro t
    classical
    have hex : ∃ a, a ≠ 0 ∧ (fun _ => none : Heap) a = none := ⟨1, one_ne_zero, rfl⟩
    show (if hf : ∃ a, a ≠ 0 ∧ (fun _ => none : Heap) a = none then Nat.find hf else 1) = 1
    rw [dif_pos hex, Nat.find_eq_iff]
    exact ⟨⟨one_ne_zero, rfl⟩, fun n hn hc => hc.1 (by omega)⟩
  have hupd : update (update (fun _ => none : Heap) 1 (some n1.body)) 1 none = fun _ => none := by
    funext a
    by_cases e : a = 1
    · subst e; simp
    · simp [update_of_ne e]
  have e1 : Session.init.step E C X .first (.load 0 d1 c1) = .ok (none,
      ⟨update (fun _ => none) 0 (some 1), update (fun _ => none) 1 (some n1.body), none, 1⟩) := by
    simp only [Session.step, Session.init, h1, Out.bind, hfirst]
  have e2 : Session.step E C X .first ⟨update (fun _ => none) 0 (some 1),
      update (fun _ => none) 1 (some n1.body), none, 1⟩ (.delete 0) = .ok (none,
      ⟨update (fun _ => none) 0 (some 1), fun _ => none, none, 2⟩) := by
    rw [step_delete (a := 1) (by simp) one_ne_zero]
    simp only [update_self]
    rw [hupd]
  have e3 : Session.step E C X .first ⟨update (fun _ => none) 0 (some 1), fun _ => none, none, 2⟩
      (.load 1 d2 c2) = .ok (none, ⟨update (update (fun _ => none) 0 (some 1)) 1 (some 1),
        update (fun _ => none) 1 (some n2.body), none, 3⟩) := by
    simp only [Session.step, h2, Out.bind, hfirst]
  refine ⟨⟨update (update (fun _ => none) 0 (some 1)) 1 (some 1),
    update (fun _ => none) 1 (some n2.body), none, 3⟩, ?_, fun f args => ⟨?_, ?_⟩⟩
  rotate_left
  · rw [step_call (a := 1) (by simp) one_ne_zero, step_call (a := 1) (by simp) one_ne_zero]
  · rw [step_call (a := 1) (by simp) one_ne_zero]
    simp only [update_self]
  · simp only [Session.run, e1, e2, e3, Out.bind]

theorem World.step_robots {c : Cmd} {r : Option Arr × World} (hs : w.step E C X c = .ok r)
    (hc : ∀ x, c ≠ .delete x) (hw : ∀ k < w.robots.length, ∃ b, w.robot k = some b) :
    r.2.robots.length = w.robots.length + loads [c] ∧ ∀ k < r.2.robots.length, ∃ b, r.2.robot k = some b := by
  cases c with
  | load x doc c =>
    obtain ⟨n, -, hs⟩ := Out.bind_ok hs
    cases hs
    refine ⟨by simp [loads], fun k hk => ?_⟩
    have hr : ∀ v, (⟨v, w.robots ++ [some n.body], w.ik⟩ : World).robot k =
      if k = w.robots.length then some n.body else w.robot k := fun v => robot_append
    rw [hr]
    by_cases e : k = w.robots.length
    · exact ⟨_, if_pos e⟩
    · rw [if_neg e]
      refine hw k ?_
      simp only [List.length_append, List.length_cons, List.length_nil] at hk
      omega
  | handle x a =>
    simp only [World.step] at hs
    split at hs <;> cases hs
    exact ⟨rfl, hw⟩
  | assign x y =>
    simp only [World.step] at hs
    split at hs <;> cases hs
    exact ⟨rfl, hw⟩
  | clear x => cases hs; exact ⟨rfl, hw⟩
  | delete x => exact absurd rfl (hc x)
  | call x f args =>
    simp only [World.step] at hs
    split at hs
    · cases hs
    · cases hs; exact ⟨rfl, hw⟩
    · split at hs
      · cases hs
      · rename_i k _ _ b hk
        obtain ⟨t, -, hs⟩ := Out.bind_ok hs
        cases hs
        have hl : (w.robots.set k (some t.1.2)).length = w.robots.length := List.length_set
        refine ⟨hl, fun j hj => ?_⟩
        have hr : (⟨w.vars, w.robots.set k (some t.1.2), t.2⟩ : World).robot j =
          if j = k then some t.1.2 else w.robot j := robot_set (World.robot_lt hk)
        rw [hr]
        by_cases e : j = k
        · exact ⟨_, if_pos e⟩
        · rw [if_neg e]
          exact hw j (by rw [← hl]; exact hj)

theorem World.run_robots (l : List Cmd) : ∀ {w : World} {r : List (Option Arr) × World},
    w.run E C X l = .ok r → NoDeletes l → (∀ k < w.robots.length, ∃ b, w.robot k = some b) →
    r.2.robots.length = w.robots.length + loads l ∧ ∀ k < r.2.robots.length, ∃ b, r.2.robot k = some b := by
  induction l with
  | nil => intro w r hr _ hw; cases hr; exact ⟨rfl, hw⟩
  | cons c l ih =>
    intro w r hr hd hw
    obtain ⟨t, ht, hr⟩ := Out.bind_ok hr
    obtain ⟨u, hu, hr⟩ := Out.bind_ok hr
    cases hr
    obtain ⟨h1, h2⟩ := World.step_robots ht (fun x e => hd x (e ▸ List.mem_cons_self)) hw
    obtain ⟨h3, h4⟩ := ih hu (fun x hx => hd x (List.mem_cons_of_mem _ hx)) h2
    refine ⟨?_, h4⟩
    dsimp only
    have : loads (c :: l) = loads [c] + loads l := by
      unfold loads
      rw [← List.countP_append]
      rfl
    rw [h3, h1, this]
    ring

/-- C94: robots that are not deleted stay in memory, also when no variable refers to them any more: after
a program without deletions there are as many bodies in memory as there were loads, whatever variables
were cleared or overwritten. -/
theorem C94_leak_violated (A : Alloc) {l : List Cmd} {o : List (Option Arr)} (hd : NoDeletes l)
    (hr : World.init.run E C X l = .ok (o, w)) :
    ∃ s, Session.init.run E C X A l = .ok (o, s) ∧ {a | s.heap a ≠ none}.ncard = loads l := by
  have h := Rep.run (E := E) (C := C) (X := X) (A := A) (strict := False) (fun h => h.elim) l (rep_init False)
  rw [hr] at h
  obtain ⟨s, m, h1, h2⟩ := h
  refine ⟨s, h1, ?_⟩
  obtain ⟨h3, h4⟩ := World.run_robots l hr hd fun k hk => (nomatch hk)
  have h3 : w.robots.length = loads l := by simpa [World.init] using h3
  have e : {a | s.heap a ≠ none} = m '' (Finset.range w.robots.length : Set ℕ) := by
    ext a
    simp only [Set.mem_ofPred_eq, Set.mem_image, Finset.coe_range, Set.mem_Iio]
    constructor
    · intro ha
      obtain ⟨b, hb⟩ := Option.ne_none_iff_exists'.1 ha
      obtain ⟨k, hk, rfl⟩ := h2.only a b hb
      exact ⟨k, World.robot_lt hk, rfl⟩
    · rintro ⟨k, hk, rfl⟩
      obtain ⟨b, hb⟩ := h4 k hk
      rw [h2.live k b hb]
      exact Option.some_ne_none _
  rw [e, Set.InjOn.ncard_image, Set.ncard_coe_finset, Finset.card_range, h3]
  intro j hj k hk e
  simp only [Finset.coe_range, Set.mem_Iio] at hj hk
  obtain ⟨b, hb⟩ := h4 j hj
  obtain ⟨c, hc⟩ := h4 k hk
  exact h2.inj j k b c hb hc e

/-- C94: a program that deletes every robot it loads leaves nothing in memory. -/
theorem C94_freed (A : Alloc) {l : List Cmd} {o : List (Option Arr)} (hr : World.init.run E C X l = .ok (o, w))
    (hd : ∀ k, w.robot k = none) :
    ∃ s, Session.init.run E C X A l = .ok (o, s) ∧ ∀ a, s.heap a = none := by
  have h := Rep.run (E := E) (C := C) (X := X) (A := A) (strict := False) (fun h => h.elim) l (rep_init False)
  rw [hr] at h
  obtain ⟨s, m, h1, h2⟩ := h
  refine ⟨s, h1, fun a => ?_⟩
  by_contra hc
  obtain ⟨b, hb⟩ := Option.ne_none_iff_exists'.1 hc
  obtain ⟨k, hk, -⟩ := h2.only a b hb
  rw [hd k] at hk
  cases hk

/-! ## Witnesses -/

/-- Load an arm, make a second reference, ask it for gravity, delete the robot: the answer has one entry
for each joint, and nothing is left in memory. -/
example (C : Ctl) (A : Alloc) (c : Cache) : ∃ (n : Named) (s : Session),
    loadModel xnum c (some [(armOf none (some vz)).xml]) = .ok n ∧
    Session.init.run ext0 C xnum A [.load 0 (some [(armOf none (some vz)).xml]) c, .assign 1 0,
      .call 1 .gravity [], .delete 0] =
        .ok ([none, none, some ⟨[n.body.dof], n.body.gravity.1⟩, none], s) ∧ ∀ a, s.heap a = none := by
  obtain ⟨P, car, hL⟩ := (C46_layout (armOf_sound none (some vz)) (armOf_root _ _)).1
  obtain ⟨I, J, G, -, h⟩ := C46_loaded (path := []) ext0 (armOf_sound none (some vz)) (by simp [armOf])
    (armOf_root _ _) hL (top := [(armOf none (some vz)).xml]) rfl c
  obtain ⟨n, h1, -, -⟩ := h true
  have hw : World.init.run ext0 C xnum [.load 0 (some [(armOf none (some vz)).xml]) c, .assign 1 0,
      .call 1 .gravity [], .delete 0] = .ok ([none, none, some ⟨[n.body.dof], n.body.gravity.1⟩, none],
        ⟨update (update (fun _ => none) 0 (some (.robot 0))) 1 (some (.robot 0)), [none], none⟩) := by
    simp [World.run, World.step, World.init, World.robot, h1, Out.bind, Fn.run, Mex.gravity]
  obtain ⟨s, hs, h0⟩ := C94_freed A hw fun k => by
    rcases k with _ | k <;> simp [World.robot]
  exact ⟨n, s, h1, hs, h0⟩

/-- Forgetting the robot instead of deleting it leaves it in memory. -/
example (C : Ctl) (A : Alloc) (c : Cache) : ∃ s, Session.init.run ext0 C xnum A
    [.load 0 (some [(armOf none (some vz)).xml]) c, .clear 0] = .ok ([none, none], s) ∧
      {a | s.heap a ≠ none}.ncard = 1 := by
  obtain ⟨P, car, hL⟩ := (C46_layout (armOf_sound none (some vz)) (armOf_root _ _)).1
  obtain ⟨I, J, G, -, h⟩ := C46_loaded (path := []) ext0 (armOf_sound none (some vz)) (by simp [armOf])
    (armOf_root _ _) hL (top := [(armOf none (some vz)).xml]) rfl c
  obtain ⟨n, h1, -, -⟩ := h true
  refine C94_leak_violated A (w := ⟨update (update (fun _ => none) 0 (some (.robot 0))) 0 none,
    [some n.body], none⟩) (fun x => by simp) ?_
  simp [World.run, World.step, World.init, h1, Out.bind]

end Mex
end SpatialDyn
