import Verif.Lemmas.ThreadsRace
import Verif.Props.Cache

/-!
# C130: one body used by several threads

The library has no locks.  A body that only one thread uses behaves as if that thread were alone; a
body that several threads look at does so if the queries have been made before.  Queries that are
`const` in the C++ signatures, made for the first time or needing scratch space, are data races.
-/

namespace SpatialDyn
open Prog Body
variable {E : Ext} {ι : Type} [DecidableEq ι]

/-- The accesses of a thread, made with nobody else around, are the calls: same outcomes, same
bodies afterwards. -/
theorem C130_alone (cs : List (ℕ × Op)) (s : ℕ → Body) :
    ((thread E cs).run fleet s).1 = (calls E cs s).1 ∧
    (.ub ∉ (calls E cs s).1 → ((thread E cs).run fleet s).2 = (calls E cs s).2) :=
  run_thread E cs s

/-- Threads that each have bodies of their own, and look at shared bodies only by queries that were
made there before: no interleaving has a data race; a thread that has come to its end has got the
outcomes it would have got alone and left its own bodies as it would have left them alone; the shared
bodies do not change; and no thread is ever kept from going on to its end. -/
theorem C130_shared {prog : ι → List (ℕ × Op)} {own : ι → Set ℕ} {shared : Set ℕ} {s : ℕ → Body}
    (hd : ∀ i j, i ≠ j → ∀ k ∈ own i, k ∉ own j) (hs : ∀ i, ∀ k ∈ own i, k ∉ shared)
    (hp : ∀ i, ∀ c ∈ prog i, c.1 ∈ own i ∨
      c.1 ∈ shared ∧ ∃ y, c.2 = .query y ∧ (s c.1).Ready E y) :
    ¬ Races fleet s (fun i => thread E (prog i)) ∧
    ∀ c, Interleaves fleet (s, fun i => thread E (prog i)) c →
      (∀ i out, c.2 i = .ret out → out = (calls E (prog i) s).1 ∧
        (.ub ∉ out → ∀ k ∈ own i, c.1 k = (calls E (prog i) s).2 k)) ∧
      (∀ k ∈ shared, c.1 k = s k) ∧
      ∀ i, ∃ d out, Interleaves fleet c d ∧ d.2 i = .ret out := by
  have hw : ∀ i, (thread E (prog i)).Within fleet {p | p.1 ∈ shared} {p | p.1 ∈ own i} s :=
    fun i => within_thread E (hs i) _ (fun c hc => (hp i c hc).imp id fun ⟨h, y, e, hy⟩ =>
      ⟨h, y, e, hy.warm⟩) fun _ _ => rfl
  have hdj : ∀ i j, i ≠ j → ∀ l ∈ {p : ℕ × Cell | p.1 ∈ own i},
      ¬(l ∈ {p : ℕ × Cell | p.1 ∈ shared} ∨ l ∈ {p : ℕ × Cell | p.1 ∈ own j}) := by
    rintro i j hij l hl (h | h)
    · exact hs i _ hl h
    · exact hd i j hij _ hl h
  refine ⟨no_race fleet_sound hdj hw, fun c hc => ⟨fun i out ho => ?_, fun k hk => ?_,
    fun i => finishes c i⟩⟩
  · obtain ⟨h1, h2⟩ := answer fleet_sound hdj hw hc ho
    obtain ⟨r1, r2⟩ := run_thread E (prog i) s
    refine ⟨h1.trans r1, fun hu k hk => ?_⟩
    rw [h1, r1] at hu
    rw [← r2 hu]
    exact ext_cells fun l => h2 (k, l) hk
  · exact ext_cells fun l => (interleave fleet_sound hdj hw hc).2 (k, l) fun i hi => hs i k hi hk

/-- Body 0 answered `Gravity` and one Jacobian and is now shared; every thread asks it for both again,
and moves a body of its own in between. -/
example : ∃ (prog : ℕ → List (ℕ × Op)) (own : ℕ → Set ℕ) (shared : Set ℕ) (s : ℕ → Body),
    (∀ i j, i ≠ j → ∀ k ∈ own i, k ∉ own j) ∧ (∀ i, ∀ k ∈ own i, k ∉ shared) ∧
    (∀ i, ∀ c ∈ prog i, c.1 ∈ own i ∨
      c.1 ∈ shared ∧ ∃ y, c.2 = .query y ∧ (s c.1).Ready E y) ∧
    ∀ i, prog i = [(0, .query .gravity), (i + 1, .setQ [4, 5, 6]),
      (i + 1, .query (.inverseDynamics (fun _ => 1) (fun _ => none) ⟨true, true, false, 0⟩)),
      (0, .query (.jacobian 2 ⟨1, 0, 0⟩))] ∧ (s (i + 1)).dof = 3 := by
  have he : ∃ b, execAll E demo ([Query.gravity, .jacobian 2 ⟨1, 0, 0⟩].map Op.query) = some b := by
    have : demo.gravity.2.index 2 = .ok 2 := (index_shape (BProg.shape_gravity demo) 2).trans rfl
    obtain ⟨r, hr⟩ : ∃ r, Query.run E demo.gravity.2 (.jacobian 2 ⟨1, 0, 0⟩) = .ok r := by
      show ∃ r, ((demo.gravity.2.jacobian 2 ⟨1, 0, 0⟩).map _) = .ok r
      rw [BProg.jacobian_eq, this]
      exact ⟨_, rfl⟩
    refine ⟨r.2, ?_⟩
    show (some demo.gravity.2).bind _ = _
    simp only [Option.bind_some, List.map_cons, List.map_nil, execAll, Op.exec, Op.step, hr]
    rfl
  obtain ⟨b, hb⟩ := he
  have hr : ∀ y ∈ [Query.gravity, .jacobian 2 ⟨1, 0, 0⟩], b.Ready E y := fun y hy =>
    Or.inr ⟨demo, false, _, 2, ⟨1, 0, 0⟩, ⟨0, 0, fun _ _ => 0⟩, 0, demo_reach_clean E, by
      intro w hw
      simp only [List.mem_cons, List.not_mem_nil, or_false] at hw
      rcases hw with rfl | rfl
      · trivial
      · exact ⟨rfl, rfl⟩, hb, hy⟩
  refine ⟨_, fun i => {i + 1}, {0}, fun k => if k = 0 then b else demo, ?_, ?_, ?_,
    fun i => ⟨rfl, rfl⟩⟩
  · rintro i j hij k rfl h
    exact hij (by simpa using h)
  · rintro i k rfl h
    simp at h
  · intro i c hc
    simp only [List.mem_cons, List.not_mem_nil, or_false] at hc
    rcases hc with rfl | rfl | rfl | rfl
    · exact Or.inr ⟨rfl, _, rfl, hr _ (by simp)⟩
    · exact Or.inl rfl
    · exact Or.inl rfl
    · exact Or.inr ⟨rfl, _, rfl, hr _ (by simp)⟩

/-- Two threads that make the same call on a body race if the call, made alone, would change any
member of the body, its cache included. -/
theorem C130_same_call_violated {s : ℕ → Body}
    {ps : ι → Prog (ℕ × Cell) (fun p => p.2.Val) (List (Out (Option Ans)))} {i j : ι} (hij : i ≠ j)
    {k : ℕ} {op : Op} {ci cj : List (ℕ × Op)} (hi : ps i = thread E ((k, op) :: ci))
    (hj : ps j = thread E ((k, op) :: cj)) (hu : (op.outcome E (s k)).1 ≠ .ub)
    (h : (op.outcome E (s k)).2 ≠ s k) : Races fleet s ps :=
  race_same hij hi hj fun hs => h (((BProg.run_op E op (s k)).2 hu).symm.trans hs.run)

/-- `InverseDynamics` with the same options in two threads is a data race, whatever the body, the
accelerations and the external forces, and however often it has been called before. -/
theorem C130_inverseDynamics_violated {s : ℕ → Body}
    {ps : ι → Prog (ℕ × Cell) (fun p => p.2.Val) (List (Out (Option Ans)))} {i j : ι} (hij : i ≠ j)
    {k : ℕ} {u u' : ℕ → ℝ} {f f' : FExt} {o : IDOpts} {ci cj : List (ℕ × Op)}
    (hi : ps i = thread E ((k, .query (.inverseDynamics u f o)) :: ci))
    (hj : ps j = thread E ((k, .query (.inverseDynamics u' f' o)) :: cj)) : Races fleet s ps := by
  obtain ⟨l, h⟩ := BProg.race_id u u' f f' o (s k)
  exact race_of hij hi hj (((h.mono fun t ht => (ht.bind _).andThen _).bind _).andThen _)

/-- So is `ForwardDynamics`. -/
theorem C130_forwardDynamics_violated {s : ℕ → Body}
    {ps : ι → Prog (ℕ × Cell) (fun p => p.2.Val) (List (Out (Option Ans)))} {i j : ι} (hij : i ≠ j)
    {k : ℕ} {u u' : ℕ → ℝ} {f f' : FExt} {o : FDOpts} {ci cj : List (ℕ × Op)}
    (hi : ps i = thread E ((k, .query (.forwardDynamics u f o)) :: ci))
    (hj : ps j = thread E ((k, .query (.forwardDynamics u' f' o)) :: cj)) : Races fleet s ps := by
  obtain ⟨l, h⟩ := BProg.race_id (fun _ => 0) (fun _ => 0) f f' ⟨o.gravity, o.cc, false, 0.01⟩ (s k)
  exact race_of hij hi hj
    ((((h.mono fun t ht => ((ht.bind _).bind _).andThen _).bind _).bind _).andThen _)

/-- So is `ExternalTorques`, even without external forces. -/
theorem C130_externalTorques_violated {s : ℕ → Body}
    {ps : ι → Prog (ℕ × Cell) (fun p => p.2.Val) (List (Out (Option Ans)))} {i j : ι} (hij : i ≠ j)
    {k : ℕ} {f f' : FExt} {ci cj : List (ℕ × Op)}
    (hi : ps i = thread E ((k, .query (.externalTorques f)) :: ci))
    (hj : ps j = thread E ((k, .query (.externalTorques f')) :: cj)) : Races fleet s ps :=
  race_of hij hi hj (l := .fG) ((((BProg.toWrite_ext f (s k)).mono fun t _ =>
    ((BProg.toWrite_ext f' t).access.bind _).andThen _).bind _).andThen _)

/-- Jacobians of two points, or of two links, in two threads are a data race, whatever the cache
holds. -/
theorem C130_jacobian_violated {s : ℕ → Body}
    {ps : ι → Prog (ℕ × Cell) (fun p => p.2.Val) (List (Out (Option Ans)))} {i j : ι} (hij : i ≠ j)
    {k : ℕ} {l l' : ℤ} {m m' : ℕ} {x x' : Vec3} {ci cj : List (ℕ × Op)}
    (hm : (s k).index l = .ok m) (hm' : (s k).index l' = .ok m') (hne : ¬(m = m' ∧ x = x'))
    (hi : ps i = thread E ((k, .query (.jacobian l x)) :: ci))
    (hj : ps j = thread E ((k, .query (.jacobian l' x')) :: cj)) : Races fleet s ps := by
  have key : ∀ {l l' : ℤ} {m m' : ℕ} {x x' : Vec3}, (s k).index l = .ok m →
      (s k).index l' = .ok m' →
      ¬((s k).c.jacDone = true ∧ (s k).c.jacLink = m ∧ (s k).c.jacOffset = x) →
      BProg.ToWrite (fun t => BProg.ToAccess .J (BProg.ofOp E (.query (.jacobian l' x'))) t) .J
        (BProg.ofOp E (.query (.jacobian l x))) (s k) := by
    intro l l' m m' x x' hm hm' hmiss
    refine (BProg.toWrite_andThen (a := m) (by rw [BProg.run_index, hm]) ?_).andThen _
    rw [BProg.run_index]
    refine (((BProg.toWrite_jac hmiss).mono fun t ht => ?_).bind _)
    refine (BProg.toAccess_andThen (a := m')
      (by rw [BProg.run_index, index_shape ht, hm']) ?_).andThen _
    exact (BProg.toAccess_jac ..).bind _
  by_cases h : (s k).c.jacDone = true ∧ (s k).c.jacLink = m ∧ (s k).c.jacOffset = x
  · refine race_of (Ne.symm hij) hj hi (key hm' hm fun h' => hne ⟨?_, ?_⟩)
    · exact h.2.1.symm.trans h'.2.1
    · exact h.2.2.symm.trans h'.2.2
  · exact race_of hij hi hj (key hm hm' h)

/-- Changing the joint positions in one thread and asking for a position in another is a data race. -/
theorem C130_setter_violated {s : ℕ → Body}
    {ps : ι → Prog (ℕ × Cell) (fun p => p.2.Val) (List (Out (Option Ans)))} {i j : ι} (hij : i ≠ j)
    {k : ℕ} {q : List ℝ} {l : ℤ} {m : ℕ} {x : Vec3} {ci cj : List (ℕ × Op)}
    (hq : q.length = (s k).dof) (hne : (s k).q ≠ q) (hm : (s k).index l = .ok m)
    (hi : ps i = thread E ((k, .setQ q) :: ci))
    (hj : ps j = thread E ((k, .query (.position l x)) :: cj)) : Races fleet s ps := by
  refine race_of hij hi hj (l := .flag .tw) (((BProg.toWrite_setQ hq hne).mono fun t ht => ?_).andThen _)
  exact (BProg.toAccess_tw (by rw [index_shape ht, hm])).andThen _

/-- Queries that have not been made since the joint positions were last changed: two threads making
the same one race. -/
theorem C130_first_time_violated {b₀ : Body} {q : List ℝ} {s : ℕ → Body}
    {ps : ι → Prog (ℕ × Cell) (fun p => p.2.Val) (List (Out (Option Ans)))} {i j : ι} (hij : i ≠ j)
    {k : ℕ} {y : Query} {ci cj : List (ℕ × Op)} (hne : b₀.q ≠ q) (hq : b₀.setQ q = .ok (s k))
    (hy : match y with
      | .tToParent l | .tToWorld l | .position l _ | .orientation l | .jacobian l _
      | .compositeInertia l => ∃ m, (s k).index l = .ok m
      | .centrifugalCoriolis | .gravity | .inertia | .inertiaInverse | .inertiaInverseAba => True
      | _ => False)
    (hi : ps i = thread E ((k, .query y) :: ci)) (hj : ps j = thread E ((k, .query y) :: cj)) :
    Races fleet s ps := by
  have hs : s k = { b₀ with q := q, c := b₀.c.clearQ } := by
    unfold setQ at hq
    split at hq
    · cases hq
    · exact (Out.ok.inj hq).symm
  have go : ∀ {a : Ans} {d : Body}, y.run E (s k) = .ok (a, d) → d ≠ s k → Races fleet s ps := by
    intro a d hr hd
    refine C130_same_call_violated hij hi hj ?_ ?_
    · unfold Op.outcome; simp only [hr]; exact fun h => by cases h
    · unfold Op.outcome; simp only [hr]; exact hd
  have tw : (s k).touchTw ≠ s k := fun h => by
    have := touchTw_done (s k)
    rw [h, hs] at this; cases this
  have tp : (s k).touchTp ≠ s k := fun h => by
    have : (s k).touchTp.c.tpDone = true := rfl
    rw [h, hs] at this; cases this
  cases y with
  | tToParent l => obtain ⟨m, hm⟩ := hy; exact go (by show ((s k).tToParent l).map _ = _; unfold tToParent; rw [hm]; rfl) tp
  | tToWorld l => obtain ⟨m, hm⟩ := hy; exact go (by show ((s k).tToWorld l).map _ = _; unfold tToWorld; rw [hm]; rfl) tw
  | position l x => obtain ⟨m, hm⟩ := hy; exact go (by show ((s k).position l x).map _ = _; unfold position; rw [hm]; rfl) tw
  | orientation l => obtain ⟨m, hm⟩ := hy; exact go (by show ((s k).orientation l).map _ = _; unfold orientation; rw [hm]; rfl) tw
  | jacobian l x =>
    obtain ⟨m, hm⟩ := hy
    have hf : ¬((s k).c.jacDone = true ∧ (s k).c.jacLink = m ∧ (s k).c.jacOffset = x) := by
      rw [hs]; rintro ⟨h, -⟩; cases h
    refine go (by
      show ((s k).jacobian l x).map _ = _
      unfold jacobian; rw [hm]; simp only [Out.bind]; rw [if_neg hf]; rfl) fun h => ?_
    have := congrArg (fun b : Body => b.c.jacDone) h
    rw [hs] at this; cases this
  | centrifugalCoriolis =>
    exact go rfl fun h => by
      have := (keeps_cc (i := 0) (x := 0) (J := ⟨0, 0, fun _ _ => 0⟩) (e := 0) (s k)).2
      rw [h, hs] at this; cases this
  | gravity =>
    exact go rfl fun h => by
      have := (keeps_gravity (i := 0) (x := 0) (J := ⟨0, 0, fun _ _ => 0⟩) (e := 0) (s k)).2
      rw [h, hs] at this; cases this
  | inertia =>
    exact go rfl fun h => by
      have := (keeps_inertia (i := 0) (x := 0) (J := ⟨0, 0, fun _ _ => 0⟩) (e := 0) (s k)).2
      rw [h, hs] at this; cases this
  | compositeInertia l =>
    obtain ⟨m, hm⟩ := hy
    exact go (by show ((s k).compositeInertia l).map _ = _; unfold compositeInertia; rw [hm]; rfl)
      fun h => by
        have := (keeps_inertia (i := 0) (x := 0) (J := ⟨0, 0, fun _ _ => 0⟩) (e := 0) (s k)).2
        rw [h, hs] at this; cases this
  | inertiaInverse =>
    exact go rfl fun h => by
      have := (keeps_inertiaInverse (i := 0) (x := 0) (J := ⟨0, 0, fun _ _ => 0⟩) (e := 0) (s k)).2
      rw [h, hs] at this; cases this
  | inertiaInverseAba =>
    exact go rfl fun h => by
      have := (keeps_inertiaInverseAba (i := 0) (x := 0) (J := ⟨0, 0, fun _ _ => 0⟩) (e := 0)
        (s k)).2
      rw [h, hs] at this; cases this
  | _ => exact hy.elim

/-- What a race on the Jacobian can do even where accesses are interleaved one by one: both threads
get the Jacobian that one of them asked for. -/
theorem C130_swapped_violated {b₀ : Body} {q : List ℝ} {s : ℕ → Body}
    {ps : ι → Prog (ℕ × Cell) (fun p => p.2.Val) (List (Out (Option Ans)))} {i j : ι} (hij : i ≠ j)
    {k : ℕ} {l l' : ℤ} {m m' : ℕ} {x x' : Vec3} (hq : b₀.q ≠ q) (hs : b₀.setQ q = .ok (s k))
    (hm : (s k).index l = .ok m) (hm' : (s k).index l' = .ok m') (hne : ¬(m = m' ∧ x = x'))
    (hi : ps i = thread E [(k, .query (.jacobian l x))])
    (hj : ps j = thread E [(k, .query (.jacobian l' x'))]) :
    ∃ c out, Interleaves fleet (s, ps) c ∧ c.2 i = .ret out ∧ c.2 j = .ret out ∧
      out = (calls E [(k, .query (.jacobian l' x'))] s).1 := by
  have hb : s k = { b₀ with q := q, c := b₀.c.clearQ } := by
    unfold setQ at hs
    split at hs
    · cases hs
    · exact (Out.ok.inj hs).symm
  have miss : ∀ n (z : Vec3), ¬((s k).c.jacDone = true ∧ (s k).c.jacLink = n ∧
      (s k).c.jacOffset = z) := by
    rw [hb]; rintro n z ⟨h, -⟩; cases h
  have one : ∀ {op : Op} {w : ℕ → Body} {a : Option Ans} {u : Body},
      (BProg.ofOp E op).run memory (w k) = (.ok a, u) →
      (thread E [(k, op)]).run fleet w = ([.ok a], Function.update w k u) := by
    intro op w a u h
    have e : (thread E [(k, op)]).run fleet w = _ := run_bind ..
    rw [BProg.run_on, h] at e
    exact e
  generalize ht : ((BProg.jacobian m x).run memory (s k)).2 = t
  obtain ⟨e1, e2, e3, e4, e5, e6⟩ : t.shape = (s k).shape ∧ t.viewTw = (s k).viewTw ∧
      t.c.jacDone = true ∧ t.c.jacLink = m ∧ t.c.jacOffset = x ∧ t.touchTw = t := by
    have hd := touchTw_done (s k)
    subst ht
    rw [BProg.run_jacobian, if_neg (miss m x)]
    refine ⟨BProg.shape_touchTw _, ?_, rfl, rfl, rfl, ?_⟩
    · show viewTw _ = _
      unfold viewTw
      rw [if_pos hd]
      unfold touchTw
      rw [hb]; rfl
    · exact if_pos hd
  have miss' : ¬(t.c.jacDone = true ∧ t.c.jacLink = m' ∧ t.c.jacOffset = x') := by
    rw [e4, e5]; exact fun h => hne h.2
  generalize hu : (BProg.jacobian m' x').run memory t = r
  obtain ⟨f1, f2, f3⟩ : r.1 = ((BProg.jacobian m' x').run memory (s k)).1 ∧ r.2.c.J = r.1 ∧
      r.2.shape = (s k).shape := by
    subst hu
    rw [BProg.run_jacobian, BProg.run_jacobian, if_neg miss', if_neg (miss m' x')]
    refine ⟨?_, rfl, (BProg.shape_touchTw t).trans e1⟩
    simp only [e2]
    rw [show t.anc = (s k).anc from congrArg Shape.anc e1]
    unfold jacLoop
    rw [show t.rb = (s k).rb by unfold rb; rw [show t.rbs = (s k).rbs from congrArg Shape.rbs e1]]
  have dt : t.dof = (s k).dof := by
    unfold dof; rw [show t.rbs = (s k).rbs from congrArg Shape.rbs e1]
  have dr : r.2.dof = (s k).dof := by
    unfold dof; rw [show r.2.rbs = (s k).rbs from congrArg Shape.rbs f3]
  -- thread `i` up to its last look at the cache
  have g0 := BProg.gets_jac_op (E := E) hm (miss m x)
  rw [ht] at g0
  have g1 := (BProg.gets_on g0 k (s := s) rfl).bind fun r => match r with
      | .ub => .ret [.ub]
      | r => (thread E []).bind fun rs => .ret (r :: rs)
  -- thread `j` altogether
  have r2 := BProg.run_jac_op (E := E) (x := x') ((index_shape e1 l').trans hm')
  rw [hu, dt] at r2
  have g2 := Gets.all (M := fleet) (thread E [(k, .query (.jacobian l' x'))]) (Function.update s k t)
  rw [one (by rw [Function.update_self]; exact r2), Function.update_idem] at g2
  -- thread `i` to its end
  have g3 := Gets.all (M := fleet) ((BProg.on k BProg.jacLast).bind fun r => match r with
      | .ub => .ret [.ub]
      | r => (thread E []).bind fun rs => .ret (r :: rs)) (Function.update s k r.2)
  rw [run_bind, BProg.run_on, Function.update_self, BProg.run_jacLast, dr, f2,
    Function.update_idem] at g3
  have m1 := g1.moves (i := i) (c := (s, ps)) hi .start
  have m2 := g2.moves (i := j) (by rw [Function.update_of_ne (Ne.symm hij), hj]) m1
  have m3 := g3.moves (i := i) (by rw [Function.update_of_ne hij, Function.update_self]) m2
  refine ⟨_, _, m3, Function.update_self .., ?_, ?_⟩
  · show Function.update _ i _ j = _
    rw [Function.update_of_ne (Ne.symm hij), Function.update_self]
    rfl
  · rw [← (run_thread E _ s).1, one (BProg.run_jac_op hm'), f1]
    rfl

/-- The branching body after `set_q`, and the Jacobians of two of its links: both threads can get the
second, which is not what the first asked for. -/
example (E : Ext) : ∃ b : Body, demo.q ≠ [0, 0, 0] ∧ demo.setQ [0, 0, 0] = .ok b ∧
    b.index 0 = .ok 0 ∧ b.index (-1) = .ok 2 ∧ ∃ c out, Interleaves fleet
      ((fun _ => b), fun i : Bool => thread E [(0, .query (.jacobian (if i then 0 else -1) 0))]) c ∧
      c.2 true = .ret out ∧ c.2 false = .ret out ∧
      out ≠ (calls E [(0, .query (.jacobian 0 0))] fun _ => b).1 := by
  have hne : demo.q ≠ [0, 0, 0] := by
    intro h
    have := (List.cons.inj h).1
    norm_num at this
  have hs : demo.setQ [0, 0, 0] = .ok { demo with q := [0, 0, 0], c := demo.c.clearQ } := by
    unfold setQ
    rw [if_neg (by show ¬ 3 ≠ 3; simp), if_neg hne]
  refine ⟨_, hne, hs, rfl, rfl, ?_⟩
  generalize hb : ({ demo with q := [0, 0, 0], c := demo.c.clearQ } : Body) = b at hs
  have hinv : Inv E b := by
    refine ((demo_reach_clean E).step (.setQ [0, 0, 0]) trivial ?_).inv
    simp only [Op.exec, Op.step, hs]
  have h0 : b.index 0 = .ok 0 := by subst hb; rfl
  have h2 : b.index (-1) = .ok 2 := by subst hb; rfl
  have hd : b.dof = 3 := by subst hb; rfl
  have hj : b.c.jacDone = false := by subst hb; rfl
  obtain ⟨c, out, hc, h3, h4, h5⟩ := C130_swapped_violated (E := E) (s := fun _ => b) (k := 0)
    (ps := fun i : Bool => thread E [(0, .query (.jacobian (if i then 0 else -1) 0))])
    (i := true) (j := false) (by simp) (x := 0) (x' := 0) hne hs h0 h2
    (by simp) rfl rfl
  refine ⟨c, out, hc, h3, h4, fun h => ?_⟩
  rw [h5, ← (run_thread E _ _).1, ← (run_thread E _ _).1] at h
  have one : ∀ {i : ℤ} {k : ℕ}, b.index i = .ok k →
      ((thread E [(0, .query (.jacobian i 0))]).run fleet fun _ => b).1 =
        [.ok (some (.cols (take b.dof ((BProg.jacobian k 0).run memory b).1)))] := by
    intro i k hi
    have e : (thread E [(0, .query (.jacobian i 0))]).run fleet (fun _ => b) = _ := run_bind ..
    rw [BProg.run_on, BProg.run_jac_op hi] at e
    rw [e]; rfl
  rw [one h0, one h2, BProg.run_jacobian, BProg.run_jacobian, hd] at h
  simp only [hj, Bool.false_eq_true, false_and, if_false] at h
  have hl := Ans.cols.inj (Option.some.inj (Out.ok.inj (List.cons.inj h).1))
  have hcol := congrArg (fun l : List Motion => (l.getD 2 0).ang) hl
  have ha0 : b.anc.getD 0 [] = [0] := by subst hb; rfl
  have ha2 : b.anc.getD 2 [] = [0, 2] := by subst hb; rfl
  have hS : (b.rb 2).joint.subspace = ⟨0, ⟨1, 0, 0⟩⟩ := by subst hb; rfl
  rw [ha0, ha2] at hcol
  simp [take, List.range_succ, jacLoop, Function.update] at hcol
  rw [hS] at hcol
  have hR : (b.viewTw 2).R.IsRot := by
    rw [hinv.viewTw 2 (by rw [hd]; norm_num)]
    exact hinv.rigid.freshTw hinv.tree 2 (by rw [hd]; norm_num)
  have h1 := hR.T_mulVec ⟨1, 0, 0⟩
  rw [show (b.viewTw 2).R.mulVec ⟨1, 0, 0⟩ = 0 from hcol] at h1
  have h6 := congrArg Vec3.x h1
  simp [Mat3.mulVec] at h6

end SpatialDyn
