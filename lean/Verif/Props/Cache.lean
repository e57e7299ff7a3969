import Verif.Lemmas.Rebuild
import Verif.Lemmas.Pose

/-!
# C14, C15: cached answers

`Reach E b d`: `b` is reached by some history of calls, of any length and order, that moves the base
only when no query has been answered since the last change of `q` (and that calls the
operational-space articulated-body functions, which ignore loads, only without loads).
`Query.Core` are the kinematics and joint-space queries.
-/

namespace SpatialDyn
open Body

/-- C14: two bodies with equal observable state answer every core query alike, whatever calls and
queries led to them. -/
theorem C14_history_independent {E : Ext} {b b' : Body} {d d' : Bool} (h : Reach E b d)
    (h' : Reach E b' d') (ho : b.ObsEq b') (hs : b.fresh.SymI) (hm : b.fresh.PosMass) (x : Query)
    (hx : x.Core) : (x.run E b).map Prod.fst = (x.run E b').map Prod.fst :=
  Query.core_ans h.inv h'.inv ho hs hm x hx

/-- C54 (partial: the history calls the operational-space articulated-body functions only on bodies
without loads, see `C54_violated`): `ForwardDynamicsAba` depends on the observable state only. -/
theorem C54_history_independent_partial {E : Ext} {b b' : Body} {d d' : Bool} (h : Reach E b d)
    (h' : Reach E b' d') (ho : b.ObsEq b') (hs : b.fresh.SymI) (hm : b.fresh.PosMass) (tau : ℕ → ℝ)
    (fext : FExt) (o : FDOpts) :
    ((Query.forwardDynamicsAba tau fext o).run E b).map Prod.fst =
      ((Query.forwardDynamicsAba tau fext o).run E b').map Prod.fst :=
  C14_history_independent h h' ho hs hm _ trivial

/-- C14: a body with any history answers as one newly constructed with the same bodies, state,
gravity, loads and base pose, on which no query was ever made. -/
theorem C14_as_freshly_constructed {E : Ext} {b : Body} {d : Bool} (h : Reach E b d)
    (hs : b.fresh.SymI) (hm : b.fresh.PosMass) (c : Cache) :
    ∃ setup b0, (∀ op ∈ setup, op.Setup) ∧ execAll E (Body.init c) setup = some b0 ∧ b.ObsEq b0 ∧
      ∀ x : Query, x.Core → (x.run E b).map Prod.fst = (x.run E b0).map Prod.fst := by
  obtain ⟨b', d', ⟨⟨l, hl, hx⟩, hr⟩, ho⟩ := Reach.setup h c
  exact ⟨l, b', hl, hx, ho, fun x hc => C14_history_independent h hr ho hs hm x hc⟩

/-- C14: any number of queries in between does not change the answer to a core query. -/
theorem C14_queries_commute {E : Ext} {b b' : Body} {d : Bool} (h : Reach E b d)
    (hs : b.fresh.SymI) (hm : b.fresh.PosMass) (ys : List Query)
    (hl : ∀ y ∈ ys, (Op.query y).Safe b d) (he : execAll E b (ys.map .query) = some b') (x : Query) (hx : x.Core) :
    (x.run E b').map Prod.fst = (x.run E b).map Prod.fst := by
  have key : ∀ (ys : List Query), (∀ y ∈ ys, (Op.query y).Safe b d) → ∀ {b1 : Body} {d1 : Bool},
      Reach E b1 d1 → b.ObsEq b1 → execAll E b1 (ys.map .query) = some b' → ∃ d', Reach E b' d' ∧ b.ObsEq b' := by
    intro ys
    induction ys with
    | nil => intro _ b1 d1 hr ho he; cases he; exact ⟨_, hr, ho⟩
    | cons y ys ih =>
      intro hl b1 d1 hr ho he
      simp only [List.map_cons, execAll] at he
      obtain ⟨b2, h2, h3⟩ := Option.bind_eq_some_iff.1 he
      have hsafe : (Op.query y).Safe b1 d1 := by
        have hy := hl y (List.mem_cons_self ..)
        cases y <;> first | trivial | (intro k; rw [← ho.load]; exact hy k)
      refine ih (fun y h => hl y (List.mem_cons_of_mem _ h)) (hr.step _ hsafe h2) ?_ h3
      rcases Out.exec_cases h2 with h4 | ⟨-, rfl⟩
      · obtain ⟨r, hr', rfl⟩ := Out.map_ok h4
        have := y.run_same hr'
        unfold Same at this
        rw [this]
        exact ⟨ho.rbs, ho.q, ho.dq, ho.g, ho.load, ho.T0, ho.anc, ho.sub⟩
      · exact ho
  obtain ⟨d', hr, ho⟩ := key ys hl h ⟨rfl, rfl, rfl, rfl, rfl, rfl, rfl, rfl⟩ he
  exact (C14_history_independent h hr ho hs hm x hx).symm

/-- Without queries nothing is cached. -/
theorem reach_setup {E : Ext} : ∀ (h : List Op) {b b' : Body}, Reach E b false →
    (∀ op ∈ h, op.Setup ∧ op.RigidArg) → execAll E b h = some b' → Reach E b' false
  | [], _, _, hr, _, hs => by cases hs; exact hr
  | op :: l, b, b', hr, ho, hs => by
    unfold execAll at hs
    obtain ⟨b1, h1, h2⟩ := Option.bind_eq_some_iff.1 hs
    obtain ⟨h3, h4⟩ := ho op (List.mem_cons_self ..)
    have hsafe : op.Safe b false := by
      cases op <;> first | exact ⟨h4, rfl⟩ | trivial
    have h5 := hr.step op hsafe h1
    have hd : op.dirty b b1 false = false := by
      cases op <;> first | (simp [Op.dirty]; done) | exact h3.elim
    rw [hd] at h5
    exact reach_setup l h5 (fun o h => ho o (List.mem_cons_of_mem _ h)) h2

theorem demo_reach_clean (E : Ext) : Reach E demo false := by
  refine reach_setup demoOps (Reach.init cache0) ?_ (demo_exec E)
  intro op hop
  simp only [demoOps, List.mem_cons, List.not_mem_nil, or_false] at hop
  rcases hop with rfl | rfl | rfl | rfl | rfl <;> constructor <;>
    first | trivial | exact quarterTurn_valid

/-- The hypotheses hold for the branching body `demo` after it answered a query. -/
example : ∃ b d, Reach ext0 b d ∧ b.dof = 3 ∧ b.c.crbaDone = true ∧ demo.ObsEq b ∧
    b.fresh.SymI ∧ b.fresh.PosMass := by
  have hs := (inertia_run (demo_inv ext0)).1
  have h1 := (demo_reach_clean ext0).step (b' := (demo.inertia).2) (.query .inertia) trivial (by
    simp [Op.exec, Op.step, Query.run, Out.map, Out.bind])
  refine ⟨_, _, h1, hs.dof_eq, ?_, ?_, ?_, ?_⟩
  · unfold Body.inertia
    split
    · assumption
    · rfl
  · obtain ⟨c', e, -⟩ := hs
    rw [e]
    exact ⟨rfl, rfl, rfl, rfl, rfl, rfl, rfl, rfl⟩
  · rw [hs.fresh_eq]; exact demo_phys.symI
  · rw [hs.fresh_eq]; exact demo_phys.posMass

/-! ## C15 -/

/-- C15 (partial: only when no query has been answered since `q` last changed): after
`set_T_base_to_world(T)` the world pose of every link is `T` times its pose in the base frame. -/
theorem C15_base_honoured_partial {E : Ext} {b : Body} (h : Reach E b false) {T : Iso}
    (hT : T.Valid) {i : ℤ} {k : ℕ} (hi : b.LinkIdx i k) {X : Iso} (hX : b.LinkPose b.pos k X) :
    ((b.setBase T).tToWorld i).map Prod.fst = .ok (T * X) := by
  have h1 := h.step (b' := b.setBase T) (.setBase T) ⟨hT, rfl⟩ rfl
  have hk : (b.setBase T).index i = .ok k := (show (b.setBase T).LinkIdx i k from hi).index
  have hX' : (b.setBase T).LinkPose (b.setBase T).pos k X := by
    clear hi hk
    have : ∀ j Y, b.LinkPose b.pos j Y → (b.setBase T).LinkPose b.pos j Y := by
      intro j Y hY
      induction hY with
      | root hr => exact .root (b := b.setBase T) hr
      | link hp _ ih => exact .link (b := b.setBase T) hp ih
    exact this k X hX
  unfold Body.tToWorld
  rw [hk]
  show Out.ok _ = _
  rw [h1.inv.viewTw k hi.1, hX'.freshTw h1.inv.tree hi.1]
  rfl

/-- C15 (partial, same restriction): after moving the base every core query is answered as by any
other body with the same observable state. -/
theorem C15_all_queries_partial {E : Ext} {b b' : Body} {d' : Bool} (h : Reach E b false) {T : Iso}
    (hT : T.Valid) (h' : Reach E b' d') (ho : (b.setBase T).ObsEq b')
    (hs : (b.setBase T).fresh.SymI) (hm : (b.setBase T).fresh.PosMass) (x : Query) (hx : x.Core) :
    (x.run E (b.setBase T)).map Prod.fst = (x.run E b').map Prod.fst :=
  C14_history_independent (h.step (.setBase T) ⟨hT, rfl⟩ rfl) h' ho hs hm x hx

/-- Negation of C15, for every body: once a world pose has been asked for, moving the base has no
effect on the world poses reported afterwards, whatever the new base pose. -/
theorem C15_stale_after_query (b : Body) (i : ℤ) (X : Iso) (b1 : Body)
    (h : b.tToWorld i = .ok (X, b1)) (T : Iso) :
    ((b1.setBase T).tToWorld i).map Prod.fst = .ok X := by
  unfold Body.tToWorld at h ⊢
  obtain ⟨k, hk, h2⟩ := Out.bind_ok h
  cases h2
  have hd : ((b.touchTw).setBase T).index i = .ok k := by
    rw [← hk]
    unfold touchTw
    split <;> rfl
  rw [hd]
  show Out.ok _ = _
  congr 1
  show ((b.touchTw).setBase T).viewTw k = _
  unfold touchTw
  split
  · next ht => simp [viewTw, setBase, ht]
  · next ht => simp [viewTw, setBase, ht]

/-- Negation of C15, concrete: on `demo`, moving the base one metre up after a query leaves the pose
of the root link where it was. -/
theorem C15_violated : ∃ (b b1 b2 : Body) (T X : Iso), Reach ext0 b false ∧ T.Valid ∧
    b.LinkPose b.pos 0 X ∧ execAll ext0 b [.query (.tToWorld 0), .setBase T] = some b1 ∧
    b1.tToWorld 0 = .ok (X, b2) ∧ b1.T0 = T ∧ T * X ≠ X := by
  have hp : demo.LinkPose demo.pos 0 (quarterTurn * JType.rz.Tjoint 1) :=
    .root (b := demo) (u := demo.pos) (i := 0) (by simp [rb, demo])
  have hv : demo.viewTw 0 = quarterTurn * JType.rz.Tjoint 1 := by
    rw [(demo_inv ext0).viewTw 0 (by simp [dof, demo]),
      hp.freshTw (demo_inv ext0).tree (by simp [dof, demo])]
    exact one_mul _
  have hq : demo.tToWorld 0 = .ok (quarterTurn * JType.rz.Tjoint 1, demo.touchTw) := by
    unfold Body.tToWorld
    rw [show demo.index 0 = .ok 0 from index_ofNat (b := demo) (k := 0) (by simp [dof, demo])]
    show Out.ok _ = _
    rw [hv]
  have h2 := C15_stale_after_query demo 0 _ _ hq ⟨1, ⟨0, 0, 1⟩⟩
  obtain ⟨⟨X, b2⟩, h3, h4⟩ := Out.map_ok h2
  refine ⟨demo, demo.touchTw.setBase ⟨1, ⟨0, 0, 1⟩⟩, b2, ⟨1, ⟨0, 0, 1⟩⟩, _, demo_reach_clean ext0,
    Mat3.isRot_one, hp, ?_, ?_, rfl, ?_⟩
  · simp [execAll, Op.exec, Op.step, Query.run, hq, Out.map, Out.bind]
  · rw [h3]
    simp only at h4
    rw [h4]
  · intro h
    have := congrArg (fun T : Iso => T.t.z) h
    simp [Iso.mul_t] at this

/-- C15: after any history whatever with rigid transforms, including base motions at any time, a
`set_q` that changes the configuration makes every core answer depend on the current state only. -/
theorem C15_set_q_recovers {E : Ext} {c : Cache} {h : List Op} {b b1 b' : Body} {d' : Bool}
    {q : List ℝ} (hh : ∀ op ∈ h, op.RigidArg) (hb : execAll E (Body.init c) h = some b)
    (hq : b.setQ q = .ok b1) (hne : q ≠ b.q) (h' : Reach E b' d') (ho : b1.ObsEq b')
    (hs : b1.fresh.SymI) (hm : b1.fresh.PosMass) (x : Query) (hx : x.Core) :
    (x.run E b1).map Prod.fst = (x.run E b').map Prod.fst := by
  have ht : b.Tree := execAll_tree h (tree_init c) hb
  have hr : b.Rigid := execAll_rigid h (tree_init c)
    ⟨Iso.valid_one, fun i hi => absurd hi (Nat.not_lt_zero i)⟩ hh hb
  have hi : Inv E b1 := by
    unfold Body.setQ at hq
    split at hq
    · cases hq
    · next hl =>
      rw [if_neg (fun e => hne e.symm)] at hq
      cases hq
      exact ⟨⟨not_not.1 hl, ht.ldq, ht.lanc, ht.lsub, ht.ids, ht.anc_mem,
        ht.anc_sorted, ht.sub_mem, ht.sub_sorted⟩, ⟨hr.base, hr.link⟩,
        CohC.of_clear b.c.clear_clearQ _⟩
  exact Query.core_ans hi h'.inv ho hs hm x hx

theorem physPD_congr {b b' : Body} (h1 : b'.rbs = b.rbs) (h2 : b'.load = b.load)
    (h : b.fresh.PhysPD) : b'.fresh.PhysPD := by
  have hI : b'.fresh.Itot = b.fresh.Itot := by
    funext i
    unfold Sys.Itot Body.fresh sysWith Body.rb
    simp only [h1, h2]
  intro i hi
  rw [hI]
  exact h i (by rw [show b.fresh.n = b'.fresh.n from (congrArg List.length h1).symm]; exact hi)

/-- The hypotheses of `C15_set_q_recovers` hold: the base of `demo` is moved after a query and then
the configuration changes. -/
example : ∃ (h : List Op) (b b1 : Body), (∀ op ∈ h, op.RigidArg) ∧
    execAll ext0 (Body.init cache0) h = some b ∧ b.T0.t.z = 1 ∧ b.c.twDone = true ∧
    b.setQ [0, 0, 0] = .ok b1 ∧ [0, 0, 0] ≠ b.q ∧ b1.fresh.SymI ∧ b1.fresh.PosMass := by
  have hi : demo.index 0 = .ok 0 := index_ofNat (b := demo) (k := 0) (by simp [dof, demo])
  have hne : ¬([0, 0, 0] : List ℝ) = [1, 2, 3] := by simp
  have hc : demo.touchTw.c.twDone = true := by
    unfold touchTw
    split
    · assumption
    · rfl
  have hq : demo.touchTw.q = [1, 2, 3] ∧ demo.touchTw.rbs = demo.rbs ∧
      demo.touchTw.load = demo.load := by
    unfold touchTw
    split <;> exact ⟨rfl, rfl, rfl⟩
  refine ⟨demoOps ++ [.query (.tToWorld 0), .setBase ⟨1, ⟨0, 0, 1⟩⟩],
    demo.touchTw.setBase ⟨1, ⟨0, 0, 1⟩⟩,
    { demo.touchTw.setBase ⟨1, ⟨0, 0, 1⟩⟩ with q := [0, 0, 0], c := demo.touchTw.c.clearQ },
    ?_, ?_, rfl, hc, ?_, ?_, ?_, ?_⟩
  · intro op hop
    simp only [demoOps, List.cons_append, List.nil_append, List.mem_cons, List.not_mem_nil,
      or_false] at hop
    rcases hop with rfl | rfl | rfl | rfl | rfl | rfl | rfl <;>
      first | trivial | exact quarterTurn_valid | exact Mat3.isRot_one
  · rw [exec_append, demo_exec]
    simp [execAll, Op.exec, Op.step, Query.run, Body.tToWorld, hi, Out.map, Out.bind]
  · unfold Body.setQ
    rw [if_neg (by
      show ¬ (3 ≠ demo.touchTw.rbs.length)
      rw [hq.2.1]; simp [demo]), if_neg (by
      show ¬ demo.touchTw.q = _
      rw [hq.1]; exact fun h => hne h.symm)]
    rfl
  · show ¬ _ = demo.touchTw.q
    rw [hq.1]; exact hne
  · refine Sys.PhysPD.symI (physPD_congr (b := demo) ?_ ?_ demo_phys)
    · exact hq.2.1
    · exact hq.2.2
  · refine Sys.PhysPD.posMass (physPD_congr (b := demo) ?_ ?_ demo_phys)
    · exact hq.2.1
    · exact hq.2.2

end SpatialDyn
