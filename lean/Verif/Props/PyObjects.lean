import Verif.Lemmas.PyObjects
import Verif.Props.OpsAbaWitness
import Verif.Props.Joint

/-!
# C97, C98, C99: objects handed out by the Python module

`PyReach E b d`: `b` is reached by a Python program of any length that mixes calls and assignments to
the links and loads of the body, where poses, inertias, joint types and loads are assigned only while
no query has been answered since the last change of `q`.
-/

namespace SpatialDyn
open Body

/-! ## C97: assignments to the links of a body -/

/-- C97 (partial: links are changed only while no query has been answered since `q` last changed,
except for limits and friction, which may be changed at any time; see `C97_stale` and
`C97_violated`): the answers depend on the current links and state only. -/
theorem C97_edit_honoured_partial {E : Ext} {b b' : Body} {d d' : Bool} (h : PyReach E b d)
    (h' : PyReach E b' d') (ho : b.ObsEq b') (hs : b.fresh.SymI) (hm : b.fresh.PosMass) (x : Query)
    (hx : x.Core) : (x.run E b).map Prod.fst = (x.run E b').map Prod.fst :=
  Query.core_ans h.inv h'.inv ho hs hm x hx

/-- C97 (partial, same restriction): a body whose links were changed in place answers as one newly
constructed from the changed links. -/
theorem C97_as_constructed_partial {E : Ext} {b : Body} {d : Bool} (h : PyReach E b d)
    (hs : b.fresh.SymI) (hm : b.fresh.PosMass) (c : Cache) :
    ∃ setup b0, (∀ op ∈ setup, op.Setup) ∧ execAll E (Body.init c) setup = some b0 ∧ b.ObsEq b0 ∧
      ∀ x : Query, x.Core → (x.run E b).map Prod.fst = (x.run E b0).map Prod.fst := by
  obtain ⟨b', d', ⟨⟨l, hl, hx⟩, hr⟩, ho⟩ := h.inv.setup h.inv'.2.2 c
  exact ⟨l, b', hl, hx, ho, fun x hc => Query.core_ans h.inv hr.inv ho hs hm x hc⟩

/-- C97: after any Python program whatever with rigid transforms, assignments to links at any time
included, a `set_q` that changes the configuration makes every core answer depend on the current links
and state only. -/
theorem C97_set_q_recovers {E : Ext} {c : Cache} {h : List PyOp} {b b1 b' : Body} {d' : Bool}
    {q : List ℝ} (hh : ∀ o ∈ h, o.RigidArg) (hb : pyExecAll E (Body.init c) h = some b)
    (hq : b.setQ q = .ok b1) (hne : q ≠ b.q) (h' : PyReach E b' d') (ho : b1.ObsEq b')
    (hs : b1.fresh.SymI) (hm : b1.fresh.PosMass) (x : Query) (hx : x.Core) :
    (x.run E b1).map Prod.fst = (x.run E b').map Prod.fst := by
  obtain ⟨ht, hr⟩ := pyExecAll_rigid h (tree_init c)
    ⟨Iso.valid_one, fun i hi => absurd hi (Nat.not_lt_zero i)⟩ hh hb
  have hi : Inv E b1 := by
    unfold Body.setQ at hq
    split at hq
    · cases hq
    · next hl =>
      rw [if_neg (fun e => hne e.symm)] at hq
      cases hq
      exact ⟨⟨not_not.1 hl, ht.ldq, ht.lanc, ht.lsub, ht.ids, ht.anc_mem,
        ht.anc_sorted, ht.sub_mem, ht.sub_sorted⟩, ⟨hr.base, hr.link⟩,
        CohC.of_clear b.c.clear_clearQ _⟩
  exact Query.core_ans hi h'.inv ho hs hm x hx

/-- Negation of C97, for every body: once the mass matrix has been asked for, no assignment to a link,
a load or the base inertia changes it. -/
theorem C97_stale (b : Body) (e : Edit) (b1 : Body) (h : e.step b.inertia.2 = .ok b1) :
    b1.inertia.1 = b.inertia.1 := by
  have hs := Edit.step_reshaped h
  have hd : b.inertia.2.c.crbaDone = true ∧ b.inertia.2.c.A = b.inertia.1 := by
    unfold Body.inertia
    split
    · next hd => exact ⟨hd, rfl⟩
    · exact ⟨rfl, rfl⟩
  have e1 : b1.inertia.1 = b1.c.A := by
    unfold Body.inertia
    rw [if_pos (by rw [hs.c]; exact hd.1)]
  rw [e1, hs.c, hd.2]

/-- The same for the world poses: once one has been asked for, changing the pose of a link in its
parent moves nothing. -/
theorem C97_stale_pose (b : Body) (i : ℤ) (X : Iso) (b1 : Body) (h : b.tToWorld i = .ok (X, b1))
    (e : Edit) (b2 : Body) (h2 : e.step b1 = .ok b2) :
    (b2.tToWorld i).map Prod.fst = .ok X := by
  have hs := Edit.step_reshaped h2
  unfold Body.tToWorld at h ⊢
  obtain ⟨k, hk, h3⟩ := Out.bind_ok h
  cases h3
  have ht : b.touchTw.c.twDone = true ∧ b.touchTw.c.Tw = b.viewTw := by
    unfold touchTw viewTw
    split
    · next ht => exact ⟨ht, rfl⟩
    · exact ⟨rfl, rfl⟩
  have hd : b2.index i = .ok k := by
    rw [← hk]
    unfold Body.index Body.resolve
    rw [hs.dof]
    have : b.touchTw.dof = b.dof := by unfold touchTw; split <;> rfl
    rw [this]
  rw [hd]
  show Out.ok _ = _
  congr 1
  show b2.viewTw k = b.viewTw k
  rw [← ht.2, ← hs.c]
  unfold viewTw
  rw [if_pos (by rw [hs.c]; exact ht.1)]

/-- A slider with a mass of two. -/
noncomputable def heavyRB : RB := { ballRB .px with inertia := ⟨2, 0, 1⟩ }

/-- `solo .px` with a mass of two. -/
noncomputable def heavy : Body :=
  { solo .px with rbs := [{ heavyRB with id := 0, idParent := -1 }] }

theorem heavy_exec (E : Ext) :
    execAll E (Body.init cache0) [.addRigidBody heavyRB (-1)] = some heavy := by
  simp [execAll, Op.exec, Op.step, addRigidBody, Out.map, Out.bind, Body.init, pushSub, heavy, solo]

theorem heavy_reach (E : Ext) : ∃ d, Reach E heavy d := by
  refine reach_execAll _ (Reach.init cache0) ?_ (heavy_exec E)
  intro op hop
  simp only [List.mem_cons, List.not_mem_nil, or_false] at hop
  subst hop
  exact Iso.valid_one

theorem heavy_definite : heavy.Definite := by
  have h0 : ∀ k < heavy.dof, k = 0 := fun k hk => Nat.lt_one_iff.1 hk
  refine ⟨fun k hk => ?_, fun k hk => ?_, fun k hk v hv => ?_, fun k hk L hL => ?_, fun k hk => ?_⟩
  all_goals first | cases hL | (rw [h0 k hk])
  · show (0 : ℝ) < 2; norm_num
  · exact ball_phys.2.1
  · exact ball_pd v hv
  · intro h
    have := congrArg (fun m : Motion => m.lin.x) h
    simp [heavy, heavyRB, Body.rb, ballRB, mkJoint, JType.subspace] at this

/-- Negation of C97, concrete: a slider of mass one is built, its mass matrix is read, and the mass is
set to two by `ab.rigid_bodies[0].inertia.mass = 2`.  The mass matrix still says one, that of an equal
body built from a link of mass two says two. -/
theorem C97_violated (E : Ext) : ∃ b1 b0 : Body,
    pyExecAll E (Body.init cache0) [.call (.addRigidBody (ballRB .px) (-1)), .call (.query .inertia),
      .edit (.link 0 (.inertiaField (.mass 2)))] = some b1 ∧
    execAll E (Body.init cache0) [.addRigidBody heavyRB (-1)] = some b0 ∧ b1.ObsEq b0 ∧
    b1.inertia.1 0 0 = 1 ∧ b0.inertia.1 0 0 = 2 := by
  have hS : JType.px.subspace ≠ 0 := by
    intro h
    have := congrArg (fun m : Motion => m.lin.x) h
    simp [JType.subspace] at this
  obtain ⟨d, h⟩ := solo_reach E .px
  obtain ⟨d', h'⟩ := heavy_reach E
  have hm := (solo_definite hS).massive h.inv.tree
  have hm' := heavy_definite.massive h'.inv.tree
  have hsame := (inertia_run h.inv).1
  obtain ⟨c', ec, -⟩ := hsame
  have he : (Edit.link 0 (.inertiaField (.mass 2))).step (solo .px).inertia.2 =
      .ok { (solo .px).inertia.2 with rbs := heavy.rbs } := by
    rw [ec]
    simp [Edit.step, pyIndex, Body.dof, solo, Body.resolve, Out.bind, Body.editLink, LinkEdit.app,
      InertiaEdit.app, heavy, heavyRB, Body.rb, ballRB, ball]
  refine ⟨{ (solo .px).inertia.2 with rbs := heavy.rbs }, heavy, ?_, heavy_exec E, ?_, ?_, ?_⟩
  · have h1 : (Op.addRigidBody (ballRB .px) (-1)).exec E (Body.init cache0) = some (solo .px) := by
      have := solo_exec E .px
      simpa [execAll] using this
    have h2 : (Op.query .inertia).exec E (solo .px) = some (solo .px).inertia.2 := by
      simp [Op.exec, Op.step, Query.run, Out.map, Out.bind]
    simp only [pyExecAll, PyOp.exec, h1, h2, he, Option.bind_some]
  · rw [ec]
    exact ⟨rfl, rfl, rfl, rfl, rfl, rfl, rfl, rfl⟩
  · rw [C97_stale _ _ _ he, solo_mass h hm rfl (solo_tw _)]
    show JType.px.subspace.dot (ball.app JType.px.subspace) = 1
    simp [JType.subspace, ball, Inertia.app, Motion.dot]
  · rw [solo_mass h' hm' rfl (solo_tw .px)]
    show JType.px.subspace.dot ((⟨2, 0, 1⟩ : Inertia).app JType.px.subspace) = 2
    simp [JType.subspace, Inertia.app, Motion.dot]

/-- The hypotheses of the positive statements hold: the mass is changed before the first query, then
a query is answered and a limit is changed. -/
example : ∃ b d, PyReach ext0 b d ∧ b.dof = 1 ∧ b.c.crbaDone = true ∧ (b.rb 0).inertia.mass = 2 ∧
    (b.rb 0).joint.qMax = .fin 1 ∧ b.fresh.SymI ∧ b.fresh.PosMass := by
  have h1 : PyReach ext0 (solo .px) false := by
    have := (PyReach.init (E := ext0) cache0).call (b' := solo .px)
      (.addRigidBody (ballRB .px) (-1)) Iso.valid_one (by
        have := solo_exec ext0 .px
        simpa [execAll] using this)
    have hd : (Op.addRigidBody (ballRB .px) (-1)).dirty (Body.init cache0) (solo .px) false
        = false := by simp [Op.dirty]
    rwa [hd] at this
  have h2 : PyReach ext0 heavy false :=
    h1.edit (.link 0 (.inertiaField (.mass 2))) trivial (.inr rfl) (by
      simp [PyOp.exec, Edit.step, pyIndex, Body.dof, solo, Body.resolve, Out.bind, Body.editLink,
        LinkEdit.app, InertiaEdit.app, heavy, heavyRB, Body.rb, ballRB, ball])
  have h3 := h2.call (b' := heavy.inertia.2) (.query .inertia) trivial (by
    simp [Op.exec, Op.step, Query.run, Out.map, Out.bind])
  obtain ⟨c', ec, -⟩ := (inertia_run h2.inv).1
  have hd : heavy.inertia.2.c.crbaDone = true := by
    unfold Body.inertia
    split
    · assumption
    · rfl
  set r : RB := { heavy.rb 0 with joint := { (heavy.rb 0).joint with qMax := .fin 1 } } with hr
  have he : (Edit.link 0 (.jointField (.setQMax (.fin 1)))).step heavy.inertia.2 =
      .ok { heavy.inertia.2 with rbs := [r] } := by
    rw [ec]
    simp [Edit.step, pyIndex, Body.dof, solo, Body.resolve, Out.bind, Body.editLink,
      LinkEdit.app, heavy, heavyRB, Body.rb, ballRB, ball, Joint.step, Joint.setQMax, mkJoint, Dbl.Lt,
      hr]
  have h4 := h3.edit (b' := { heavy.inertia.2 with rbs := [r] })
    (.link 0 (.jointField (.setQMax (.fin 1)))) trivial (.inl trivial) (by
      simp only [PyOp.exec, he])
  have hl : heavy.inertia.2.load = heavy.load := by rw [ec]
  have hdef : ({ heavy.inertia.2 with rbs := [r] } : Body).Definite := by
    have h0 : ∀ k < ({ heavy.inertia.2 with rbs := [r] } : Body).dof, k = 0 :=
      fun k hk => Nat.lt_one_iff.1 hk
    refine ⟨fun k hk => ?_, fun k hk => ?_, fun k hk v hv => ?_, fun k hk L hL => ?_,
      fun k hk => ?_⟩
    · rw [h0 k hk]; exact heavy_definite.1 0 Nat.one_pos
    · rw [h0 k hk]; exact heavy_definite.2 0 Nat.one_pos
    · rw [h0 k hk]; exact heavy_definite.3 0 Nat.one_pos v hv
    · change heavy.inertia.2.load (k : ℤ) = some L at hL
      rw [hl] at hL
      cases hL
    · rw [h0 k hk]; exact heavy_definite.5 0 Nat.one_pos
  have hmas := hdef.massive h4.inv.tree
  exact ⟨_, _, h4, rfl, hd, rfl, rfl, hmas.symI, hmas.posMass h4.inv.tree⟩

/-! ## C98: validation -/

/-- The joints a statement passes are legal and the limits and coefficients it assigns are no NaN. -/
def PyOp.JointOk : PyOp → Prop
  | .call (.addRigidBody r _) => LegalJoint r.joint
  | .edit (.link _ (.joint j)) => LegalJoint j
  | .edit (.link _ (.jointField o)) => o.NoNaN
  | _ => True

/-- The inertias a statement gives to a link have no negative mass, and no attribute of an inertia is
assigned. -/
def PyOp.MassOk : PyOp → Prop
  | .call (.addRigidBody r _) => 0 ≤ r.inertia.mass
  | .edit (.link _ (.inertiaField _)) => False
  | _ => True

/-- A property of links that every new link has and every assignment keeps holds in every Python
program. -/
theorem pyExecAll_links {E : Ext} {P : RB → Prop}
    (hid : ∀ (r : RB) (a : ℕ) (p : ℤ), P r → P { r with id := a, idParent := p }) {Q : PyOp → Prop}
    (hadd : ∀ r p, Q (.call (.addRigidBody r p)) → P r)
    (hedit : ∀ i e r r', Q (.edit (.link i e)) → P r → e.app r = .ok r' → P r') :
    ∀ (l : List PyOp) {b b' : Body}, b.Tree → (∀ i < b.dof, P (b.rb i)) → (∀ o ∈ l, Q o) →
      pyExecAll E b l = some b' → ∀ i < b'.dof, P (b'.rb i)
  | [], _, _, _, h, _, hs => by cases hs; exact h
  | o :: l, b, b', ht, h, hq, hs => by
    unfold pyExecAll at hs
    obtain ⟨b1, h1, h2⟩ := Option.bind_eq_some_iff.1 hs
    have hqo := hq o (List.mem_cons_self ..)
    have hstep : b1.Tree ∧ ∀ i < b1.dof, P (b1.rb i) := by
      cases o with
      | call o =>
        rcases Out.exec_cases h1 with h3 | ⟨-, rfl⟩
        · refine ⟨Op.step_tree ht h3, fun i hi => ?_⟩
          rcases Op.step_links ht h3 with ⟨r, p, rfl, hr⟩ | ⟨-, hr⟩
          · unfold Body.rb Body.dof at *
            rw [hr] at hi ⊢
            rw [List.length_append, List.length_singleton] at hi
            rw [List.getD_eq_getElem?_getD]
            by_cases hlt : i < b.rbs.length
            · rw [List.getElem?_append_left hlt, ← List.getD_eq_getElem?_getD]
              exact h i hlt
            · have : i = b.rbs.length := by omega
              subst this
              rw [List.getElem?_concat_length]
              exact hid _ _ _ (hadd r p hqo)
          · unfold Body.rb Body.dof at *
            rw [hr] at hi ⊢
            exact h i hi
        · exact ⟨ht, h⟩
      | edit e =>
        rcases PyOp.edit_cases h1 with h3 | ⟨-, rfl⟩
        · have hsh := Edit.step_reshaped h3
          refine ⟨hsh.tree ht, fun i hi => ?_⟩
          rw [hsh.dof] at hi
          cases e with
          | link j e =>
            obtain ⟨k, -, h4⟩ := Out.bind_ok h3
            obtain ⟨r, h5, rfl⟩ := editLink_ok h4
            rw [rb_set]
            split
            · next hk => exact hedit j e _ _ hqo (hk.1 ▸ h i hi) h5
            · exact h i hi
          | load k e =>
            obtain ⟨I, -, rfl⟩ := editLoad_ok h3
            exact h i hi
          | base e => cases h3; exact h i hi
        · exact ⟨ht, h⟩
    exact pyExecAll_links hid hadd hedit l hstep.1 hstep.2
      (fun o h => hq o (List.mem_cons_of_mem _ h)) h2

/-- C98: in every Python program that passes legal joints and assigns no NaN, however it mixes calls
and assignments to the attributes of the joints inside the body, and whether or not assignments are
rejected, the joints of the body have ordered limits and nonnegative bounds and coefficients. -/
theorem C98_joint_limits {E : Ext} {c : Cache} {l : List PyOp} {b : Body} (hl : ∀ o ∈ l, o.JointOk)
    (h : pyExecAll E (Body.init c) l = some b) (i : ℕ) (hi : i < b.dof) :
    LegalJoint (b.rb i).joint := by
  refine pyExecAll_links (P := fun r => LegalJoint r.joint) (Q := PyOp.JointOk) (fun _ _ _ h => h)
    (fun r p h => h) ?_ l (tree_init c) (fun i hi => absurd hi (Nat.not_lt_zero i)) hl h i hi
  intro i e r r' hq hP ha
  cases e with
  | inertia I =>
    unfold LinkEdit.app at ha
    dsimp only at ha
    split at ha
    · cases ha
    · cases ha; exact hP
  | joint j => cases ha; exact hq
  | jointField o =>
    unfold LinkEdit.app at ha
    dsimp only at ha
    split at ha
    · cases ha
    · cases ha; exact C07_step _ _ hP hq
  | _ => cases ha; exact hP

/-- C98 (partial: the attributes of inertias are not assigned, see `C98_mass_violated`): the masses of
the links stay nonnegative, since `rb.inertia = I` refuses a negative mass. -/
theorem C98_mass_partial {E : Ext} {c : Cache} {l : List PyOp} {b : Body} (hl : ∀ o ∈ l, o.MassOk)
    (h : pyExecAll E (Body.init c) l = some b) (i : ℕ) (hi : i < b.dof) :
    0 ≤ (b.rb i).inertia.mass := by
  refine pyExecAll_links (P := fun r => 0 ≤ r.inertia.mass) (Q := PyOp.MassOk) (fun _ _ _ h => h)
    (fun r p h => h) ?_ l (tree_init c) (fun i hi => absurd hi (Nat.not_lt_zero i)) hl h i hi
  intro i e r r' hq hP ha
  cases e with
  | inertia I =>
    unfold LinkEdit.app at ha
    dsimp only at ha
    split at ha
    · cases ha
    · next hI => cases ha; exact not_lt.1 hI
  | inertiaField e => exact hq.elim
  | jointField o =>
    unfold LinkEdit.app at ha
    dsimp only at ha
    split at ha
    · cases ha
    · cases ha; exact hP
  | _ => cases ha; exact hP

/-- C98: which assignments to a link are rejected.  The index must be that of a Python list, an
inertia must have no negative mass, a joint setter must accept its argument.  A rejected one changes
nothing, whatever the body. -/
theorem C98_rejected_iff (b : Body) (i : ℤ) (e : LinkEdit) :
    (Edit.link i e).step b = .throws ↔
      ¬(-(b.dof : ℤ) ≤ i ∧ i < b.dof) ∨
        (∃ I, e = .inertia I ∧ I.mass < 0) ∨
        ∃ o, e = .jointField o ∧ ((b.rb (if i < 0 then i + b.dof else i).toNat).joint.step o).threw := by
  have hidx : ∀ h : -(b.dof : ℤ) ≤ i ∧ i < b.dof,
      b.pyIndex i = .ok (if i < 0 then i + b.dof else i).toNat := by
    intro h
    unfold pyIndex
    rw [if_pos h]
    unfold Body.resolve
    split <;> rfl
  by_cases h : -(b.dof : ℤ) ≤ i ∧ i < b.dof
  · unfold Edit.step
    dsimp only
    rw [hidx h]
    simp only [Out.bind, h, not_true_eq_false, false_or, Body.editLink, and_self]
    cases e with
    | inertia I =>
      simp only [LinkEdit.app]
      by_cases hI : I.mass < 0 <;> simp [hI]
    | jointField o =>
      simp only [LinkEdit.app]
      by_cases ho : ((b.rb (if i < 0 then i + (b.dof : ℤ) else i).toNat).joint.step o).threw = true
      · simp [ho]
      · simp [ho]
    | _ => simp [LinkEdit.app]
  · simp only [h, not_false_eq_true, true_or, iff_true]
    unfold Edit.step
    dsimp only
    unfold pyIndex
    rw [if_neg h]
    rfl

/-- The composite-rigid-body algorithm on one link, whatever its mass. -/
theorem crba_one {σ : Sys} (hn : σ.n = 1) (hr : σ.par 0 = none) (Ic0 : ℕ → Inertia) :
    (σ.crba Ic0).2 0 0 = ((σ.Itot 0).app (σ.S 0)).dot (σ.S 0) := by
  unfold Sys.crba
  rw [hn]
  simp [fwdLoop, Sys.crbaStep, hr, Sys.crbaWalk, Sys.setMat, hn]

/-- Negation of C98 for masses: `RigidBody::set_inertia` refuses a negative mass, but
`ab.rigid_bodies[0].inertia.mass = -1` is accepted, and the next query computes with it. -/
theorem C98_mass_violated :
    (Edit.link 0 (.inertia ⟨-1, 0, 1⟩)).step (solo .px) = .throws ∧
    ∃ b, (Edit.link 0 (.inertiaField (.mass (-1)))).step (solo .px) = .ok b ∧
      (b.rb 0).inertia.mass = -1 ∧ b.inertia.1 0 0 = -1 := by
  refine ⟨?_, { solo .px with
    rbs := [{ ballRB .px with inertia := ⟨-1, 0, 1⟩, id := 0, idParent := -1 }] }, ?_, rfl, ?_⟩
  · simp [Edit.step, pyIndex, Body.dof, solo, Body.resolve, Out.bind, Body.editLink, LinkEdit.app]
  · simp [Edit.step, pyIndex, Body.dof, solo, Body.resolve, Out.bind, Body.editLink, LinkEdit.app,
      InertiaEdit.app, Body.rb, ballRB, ball]
  · unfold Body.inertia
    rw [if_neg (by simp [solo, Cache.expand])]
    dsimp only
    rw [crba_one rfl rfl]
    show (Inertia.app ⟨-1, 0, 1⟩ JType.px.subspace).dot JType.px.subspace = -1
    simp [JType.subspace, Inertia.app, Force.dot]

/-- The hypotheses hold: a link, its mass and limits are assigned, one of them wrongly. -/
example : ∃ (l : List PyOp) (b : Body), (∀ o ∈ l, o.JointOk ∧ o.MassOk) ∧
    pyExecAll ext0 (Body.init cache0) l = some b ∧ b.dof = 1 ∧ (b.rb 0).inertia.mass = 2 ∧
    (b.rb 0).joint.qMax = .fin 1 := by
  refine ⟨[.call (.addRigidBody (ballRB .px) (-1)), .edit (.link 0 (.inertia ⟨2, 0, 1⟩)),
    .edit (.link (-1) (.jointField (.setQMax (.fin 1)))), .edit (.link 0 (.inertia ⟨-1, 0, 1⟩))],
    { heavy with rbs := [{ heavy.rb 0 with joint := { (heavy.rb 0).joint with qMax := .fin 1 } }] },
    ?_, ?_, rfl, rfl, rfl⟩
  · intro o ho
    simp only [List.mem_cons, List.not_mem_nil, or_false] at ho
    rcases ho with rfl | rfl | rfl | rfl
    · refine ⟨?_, ?_⟩
      · refine ⟨?_, ?_, ?_, ?_, ?_, ?_⟩ <;> simp [ballRB, mkJoint, Dbl.Le]
      · show (0 : ℝ) ≤ 1; norm_num
    · exact ⟨trivial, trivial⟩
    · exact ⟨by simp [PyOp.JointOk, Joint.Op.NoNaN], trivial⟩
    · exact ⟨trivial, trivial⟩
  · have h1 : (Op.addRigidBody (ballRB .px) (-1)).exec ext0 (Body.init cache0) = some (solo .px) := by
      have := solo_exec ext0 .px
      simpa [execAll] using this
    simp only [pyExecAll, PyOp.exec, h1, Option.bind_some]
    have h2 : ¬ (2 : ℝ) < 0 := by norm_num
    simp [Edit.step, pyIndex, Body.dof, solo, Body.resolve, Out.bind, Body.editLink, LinkEdit.app,
      Body.rb, ballRB, mkJoint, Joint.step, Joint.setQMax, Dbl.Lt, heavy, heavyRB, h2]

/-! ## C99: objects kept in variables -/

/-- The statement gives no new value to variable `x`. -/
def PyStmt.Keeps (x : ℕ) : PyStmt → Prop
  | .ask y _ | .getQ y | .getDq y | .getLink y _ | .getLoad y _ => y ≠ x
  | _ => True

theorem PyState.step_var {E : Ext} {moves : ℕ → Bool} {s s' : PyState} {t : PyStmt} {x : ℕ}
    (ht : t.Keeps x) (h : s.step E moves t = .ok s') : s'.var x = s.var x := by
  cases t with
  | call o =>
    obtain ⟨b', -, h2⟩ := Out.bind_ok h
    cases h2
    cases o <;> rfl
  | ask y q =>
    obtain ⟨r, -, h2⟩ := Out.bind_ok h
    cases h2
    exact Function.update_of_ne (Ne.symm ht) _ _
  | getQ y => cases h; exact Function.update_of_ne (Ne.symm ht) _ _
  | getDq y => cases h; exact Function.update_of_ne (Ne.symm ht) _ _
  | getLink y i =>
    obtain ⟨k, -, h2⟩ := Out.bind_ok h
    cases h2
    exact Function.update_of_ne (Ne.symm ht) _ _
  | getLoad y k =>
    unfold PyState.step at h
    dsimp only at h
    split at h
    · cases h
    · cases h; exact Function.update_of_ne (Ne.symm ht) _ _
  | editLink y e =>
    unfold PyState.step PyState.editLink at h
    dsimp only at h
    split at h
    · split at h
      · obtain ⟨b', -, h2⟩ := Out.bind_ok h
        cases h2; rfl
      · cases h
    · cases h
  | editLoad y e =>
    unfold PyState.step PyState.editLoad at h
    dsimp only at h
    split at h
    · split at h
      · obtain ⟨b', -, h2⟩ := Out.bind_ok h
        cases h2; rfl
      · cases h
    · cases h

theorem PyState.run_induct {E : Ext} {moves : ℕ → Bool} {P : PyState → Prop} {Q : PyStmt → Prop}
    (hstep : ∀ s t s', P s → Q t → s.step E moves t = .ok s' → P s') :
    ∀ (l : List PyStmt) {s s' : PyState}, P s → (∀ t ∈ l, Q t) →
      PyState.run E moves s l = some s' → P s'
  | [], _, _, hp, _, h => by cases h; exact hp
  | t :: l, s, s', hp, hq, h => by
    unfold PyState.run at h
    obtain ⟨s1, h1, h2⟩ := Option.bind_eq_some_iff.1 h
    refine PyState.run_induct hstep l ?_ (fun t h => hq t (List.mem_cons_of_mem _ h)) h2
    unfold PyState.exec at h1
    split at h1
    · next s2 hs => cases h1; exact hstep s t _ hp (hq t (List.mem_cons_self ..)) hs
    · cases h1; exact hp
    · cases h1

theorem PyState.run_var {E : Ext} {moves : ℕ → Bool} {x : ℕ} {l : List PyStmt} {s s' : PyState}
    (hl : ∀ t ∈ l, t.Keeps x) (h : PyState.run E moves s l = some s') : s'.var x = s.var x :=
  PyState.run_induct (P := fun s1 => s1.var x = s.var x) (Q := fun t => t.Keeps x)
    (fun _ _ _ hp hq hs => (PyState.step_var hq hs).trans hp) l rfl hl h

/-- C99: what a function of the module returned keeps its value, whatever the program does to the body
afterwards, until the variable is assigned again. -/
theorem C99_results_keep {E : Ext} {moves : ℕ → Bool} {s s1 s' : PyState} {x : ℕ} {y : Query}
    {l : List PyStmt} (hy : s.step E moves (.ask x y) = .ok s1) (hl : ∀ t ∈ l, t.Keeps x)
    (h : PyState.run E moves s1 l = some s') :
    s'.read x = (y.run E s.b).map Prod.fst := by
  obtain ⟨r, hr, h2⟩ := Out.bind_ok hy
  cases h2
  have hv := PyState.run_var hl h
  unfold PyState.read
  rw [hv, hr]
  simp [PyState.bindVar, Out.map, Out.bind]

/-- C99: `x = ab.q` does not keep the positions: after any later program it reads as the current `q`
of the body, and its memory is gone as soon as a link has been added. -/
theorem C99_q_follows {E : Ext} {moves : ℕ → Bool} {s s1 s' : PyState} {x : ℕ} {l : List PyStmt}
    (hx : s.step E moves (.getQ x) = .ok s1) (hl : ∀ t ∈ l, t.Keeps x)
    (h : PyState.run E moves s1 l = some s') :
    s'.read x = if s'.b.dof = s.b.dof then .ok (.vec s'.b.q) else .ub := by
  cases hx
  have hv := PyState.run_var hl h
  unfold PyState.read
  rw [hv]
  simp [PyState.bindVar, eq_comm]

/-- The same for `x = ab.dq`. -/
theorem C99_dq_follows {E : Ext} {moves : ℕ → Bool} {s s1 s' : PyState} {x : ℕ} {l : List PyStmt}
    (hx : s.step E moves (.getDq x) = .ok s1) (hl : ∀ t ∈ l, t.Keeps x)
    (h : PyState.run E moves s1 l = some s') :
    s'.read x = if s'.b.dof = s.b.dof then .ok (.vec s'.b.dq) else .ub := by
  cases hx
  have hv := PyState.run_var hl h
  unfold PyState.read
  rw [hv]
  simp [PyState.bindVar, eq_comm]

/-- The statement adds no link. -/
def PyStmt.NoAdd : PyStmt → Prop
  | .call (.addRigidBody ..) => False
  | _ => True

/-- The statement clears no load. -/
def PyStmt.NoClear : PyStmt → Prop
  | .call (.clearLoad _) => False
  | _ => True

theorem PyState.step_links {E : Ext} {moves : ℕ → Bool} {s s' : PyState} {t : PyStmt}
    (ht : t.NoAdd) (h : s.step E moves t = .ok s') : s'.links = s.links := by
  cases t with
  | call o =>
    obtain ⟨b', -, h2⟩ := Out.bind_ok h
    cases h2
    cases o <;> first | rfl | exact ht.elim
  | ask y q =>
    obtain ⟨r, -, h2⟩ := Out.bind_ok h
    cases h2; rfl
  | getQ y => cases h; rfl
  | getDq y => cases h; rfl
  | getLink y i =>
    obtain ⟨k, -, h2⟩ := Out.bind_ok h
    cases h2; rfl
  | getLoad y k =>
    unfold PyState.step at h
    dsimp only at h
    split at h
    · cases h
    · cases h; rfl
  | editLink y e =>
    unfold PyState.step PyState.editLink at h
    dsimp only at h
    split at h
    · split at h
      · obtain ⟨b', -, h2⟩ := Out.bind_ok h
        cases h2; rfl
      · cases h
    · cases h
  | editLoad y e =>
    unfold PyState.step PyState.editLoad at h
    dsimp only at h
    split at h
    · split at h
      · obtain ⟨b', -, h2⟩ := Out.bind_ok h
        cases h2; rfl
      · cases h
    · cases h

/-- C99: a link kept in a variable is the link of the body, in any later program that adds no link:
it reads as the current link, and assigning to its attributes has the effect of the same assignment
to `ab.rigid_bodies[i]`. -/
theorem C99_link_alias {E : Ext} {moves : ℕ → Bool} {s s1 s' : PyState} {x k : ℕ} {i : ℤ}
    {l : List PyStmt} (hx : s.step E moves (.getLink x i) = .ok s1) (hk : s.b.LinkIdx i k)
    (hl : ∀ t ∈ l, t.Keeps x ∧ t.NoAdd) (h : PyState.run E moves s1 l = some s') :
    s'.read x = .ok (.rb (s'.b.rb k)) ∧
      ∀ e, (s'.step E moves (.editLink x e)).map (·.b) = s'.b.editLink k e := by
  obtain ⟨k', hk', h2⟩ := Out.bind_ok hx
  cases h2
  have hkk : k' = k := by
    unfold pyIndex at hk'
    split at hk'
    · cases hk'
      obtain ⟨h1, h2 | h2⟩ := hk
      all_goals
        unfold Body.resolve
        split <;> omega
    · cases hk'
  subst hkk
  have hv := PyState.run_var (fun t ht => (hl t ht).1) h
  have hlk : s'.links = s.links :=
    PyState.run_induct (P := fun s1 => s1.links = s.links) (Q := PyStmt.NoAdd)
      (s := s.bindVar x (.link k' s.links))
      (fun _ _ _ hp hq hs => (PyState.step_links hq hs).trans hp) l rfl (fun t ht => (hl t ht).2) h
  have hv' : s'.var x = some (.link k' s'.links) := by
    rw [hv, hlk]
    simp [PyState.bindVar]
  refine ⟨by simp [PyState.read, hv'], fun e => ?_⟩
  simp only [PyState.step, PyState.editLink, hv', if_true, Out.map]
  cases s'.b.editLink k' e <;> rfl

/-- Block numbers never decrease. -/
theorem PyState.step_blocks {E : Ext} {moves : ℕ → Bool} {s s' : PyState} {t : PyStmt}
    (h : s.step E moves t = .ok s') : s.links ≤ s'.links ∧ (∀ k, s.node k ≤ s'.node k) ∧
      (t.NoClear → s'.node = s.node) := by
  cases t with
  | call o =>
    obtain ⟨b', -, h2⟩ := Out.bind_ok h
    cases h2
    cases o with
    | addRigidBody r p =>
      refine ⟨?_, fun _ => le_rfl, fun _ => rfl⟩
      show s.links ≤ if moves s.b.dof then s.links + 1 else s.links
      split
      · exact Nat.le_succ _
      · exact le_rfl
    | clearLoad i =>
      refine ⟨le_rfl, fun k => ?_, fun h => h.elim⟩
      show s.node k ≤ Function.update s.node _ _ k
      by_cases hk : k = s.b.resolve i
      · subst hk; simp
      · rw [Function.update_of_ne hk]
    | _ => exact ⟨le_rfl, fun _ => le_rfl, fun _ => rfl⟩
  | ask y q =>
    obtain ⟨r, -, h2⟩ := Out.bind_ok h
    cases h2; exact ⟨le_rfl, fun _ => le_rfl, fun _ => rfl⟩
  | getQ y => cases h; exact ⟨le_rfl, fun _ => le_rfl, fun _ => rfl⟩
  | getDq y => cases h; exact ⟨le_rfl, fun _ => le_rfl, fun _ => rfl⟩
  | getLink y i =>
    obtain ⟨k, -, h2⟩ := Out.bind_ok h
    cases h2; exact ⟨le_rfl, fun _ => le_rfl, fun _ => rfl⟩
  | getLoad y k =>
    unfold PyState.step at h
    dsimp only at h
    split at h
    · cases h
    · cases h; exact ⟨le_rfl, fun _ => le_rfl, fun _ => rfl⟩
  | editLink y e =>
    unfold PyState.step PyState.editLink at h
    dsimp only at h
    split at h
    · split at h
      · obtain ⟨b', -, h2⟩ := Out.bind_ok h
        cases h2; exact ⟨le_rfl, fun _ => le_rfl, fun _ => rfl⟩
      · cases h
    · cases h
  | editLoad y e =>
    unfold PyState.step PyState.editLoad at h
    dsimp only at h
    split at h
    · split at h
      · obtain ⟨b', -, h2⟩ := Out.bind_ok h
        cases h2; exact ⟨le_rfl, fun _ => le_rfl, fun _ => rfl⟩
      · cases h
    · cases h

/-- C99: a link kept in a variable while `add_rigid_body` moves the vector of links must not be used
any more: reading it and assigning to it are undefined, whatever happens later. -/
theorem C99_link_dangling {E : Ext} {moves : ℕ → Bool} {s s1 s2 s' : PyState} {x : ℕ} {i : ℤ}
    {r : RB} {p : ℤ} {l : List PyStmt} (hx : s.step E moves (.getLink x i) = .ok s1)
    (ha : s1.step E moves (.call (.addRigidBody r p)) = .ok s2) (hm : moves s1.b.dof = true)
    (hl : ∀ t ∈ l, t.Keeps x) (h : PyState.run E moves s2 l = some s') :
    s'.read x = .ub ∧ ∀ e, s'.step E moves (.editLink x e) = .ub := by
  obtain ⟨k, -, h2⟩ := Out.bind_ok hx
  cases h2
  obtain ⟨b', -, h2⟩ := Out.bind_ok ha
  cases h2
  have hv := PyState.run_var hl h
  have hlk : s.links < s'.links := by
    refine PyState.run_induct (P := fun s1 => s.links < s1.links) (Q := fun _ => True)
      (fun _ _ _ hp _ hs => lt_of_lt_of_le hp (PyState.step_blocks hs).1) l ?_
      (fun _ _ => trivial) h
    show s.links < if _ then _ else _
    rw [if_pos hm]
    exact Nat.lt_succ_self _
  have hv' : s'.var x = some (.link k s.links) := by
    rw [hv]
    simp [PyState.blocks, PyState.bindVar]
  have hne : s.links ≠ s'.links := hlk.ne
  exact ⟨by simp [PyState.read, hv', hne], fun e => by simp [PyState.step, PyState.editLink, hv', hne]⟩

/-- C99: a load kept in a variable is the load of the body until a load is cleared. -/
theorem C99_load_alias {E : Ext} {moves : ℕ → Bool} {s s1 s' : PyState} {x : ℕ} {k : ℤ}
    {l : List PyStmt} (hx : s.step E moves (.getLoad x k) = .ok s1)
    (hl : ∀ t ∈ l, t.Keeps x ∧ t.NoClear) (h : PyState.run E moves s1 l = some s') (e : InertiaEdit) :
    (s'.step E moves (.editLoad x e)).map (·.b) = s'.b.editLoad k e := by
  have hv := PyState.run_var (fun t ht => (hl t ht).1) h
  have hnode : s'.node = s1.node :=
    PyState.run_induct (P := fun s2 => s2.node = s1.node) (Q := PyStmt.NoClear)
      (fun _ _ _ hp hq hs => ((PyState.step_blocks hs).2.2 hq).trans hp) l rfl
      (fun t ht => (hl t ht).2) h
  have hv' : s'.var x = some (.load k (s'.node k)) := by
    rw [hv, hnode]
    unfold PyState.step at hx
    dsimp only at hx
    split at hx
    · cases hx
    · cases hx; simp [PyState.bindVar]
  simp only [PyState.step, PyState.editLoad, hv', if_true, Out.map]
  cases s'.b.editLoad k e <;> rfl

/-- C99: a load kept in a variable while it is cleared must not be used any more, even after a load
has been put on the same link again. -/
theorem C99_load_dangling {E : Ext} {moves : ℕ → Bool} {s s1 s2 s' : PyState} {x : ℕ} {k i : ℤ}
    {l : List PyStmt} (hx : s.step E moves (.getLoad x k) = .ok s1)
    (hc : s1.step E moves (.call (.clearLoad i)) = .ok s2)
    (hi : (if i < 0 then i + s.b.dof else i) = k)
    (hl : ∀ t ∈ l, t.Keeps x) (h : PyState.run E moves s2 l = some s') :
    s'.read x = .ub ∧ ∀ e, s'.step E moves (.editLoad x e) = .ub := by
  have hs1 : s1 = s.bindVar x (.load k (s.node k)) := by
    unfold PyState.step at hx
    dsimp only at hx
    split at hx
    · cases hx
    · cases hx; rfl
  subst hs1
  unfold PyState.step at hc
  dsimp only at hc
  obtain ⟨b', -, h2⟩ := Out.bind_ok hc
  cases h2
  have hv := PyState.run_var hl h
  have hlk : s.node k < s'.node k := by
    refine PyState.run_induct (P := fun s1 => s.node k < s1.node k) (Q := fun _ => True)
      (fun _ _ _ hp _ hs => lt_of_lt_of_le hp ((PyState.step_blocks hs).2.1 k)) l ?_
      (fun _ _ => trivial) h
    have hr : s.b.resolve i = k := by
      rw [← hi]
      unfold Body.resolve
      split <;> rfl
    show s.node k < Function.update s.node (s.b.resolve i) (s.node (s.b.resolve i) + 1) k
    rw [hr, Function.update_self]
    exact Nat.lt_succ_self _
  have hv' : s'.var x = some (.load k (s.node k)) := by
    rw [hv]
    simp [PyState.blocks, PyState.bindVar]
  have hne : s.node k ≠ s'.node k := hlk.ne
  exact ⟨by simp [PyState.read, hv', hne], fun e => by simp [PyState.step, PyState.editLoad, hv', hne]⟩

/-- The state of a program that has built `solo .px`. -/
noncomputable def soloState : PyState := ⟨solo .px, fun _ => none, 1, fun _ => 0⟩

theorem soloState_run (E : Ext) : PyState.run E (fun _ => true) (PyState.start cache0)
    [.call (.addRigidBody (ballRB .px) (-1))] = some soloState := by
  have h1 : (Op.addRigidBody (ballRB .px) (-1)).step E (Body.init cache0) = .ok (solo .px) := by
    simp [Op.step, addRigidBody, Out.map, Out.bind, Body.init, pushSub, solo]
  simp [PyState.run, PyState.exec, PyState.step, PyState.start, h1, Out.bind, PyState.blocks,
    soloState]

/-- Negation of C99 for `q`: the position read at rest changes under the hands of the program when the
body moves, and is undefined after a link has been added. -/
theorem C99_violated (E : Ext) : ∃ s s1 s2 : PyState,
    PyState.run E (fun _ => true) (PyState.start cache0)
      [.call (.addRigidBody (ballRB .px) (-1)), .getQ 0] = some s ∧ s.read 0 = .ok (.vec [0]) ∧
    PyState.run E (fun _ => true) s [.call (.setQ [1])] = some s1 ∧ s1.read 0 = .ok (.vec [1]) ∧
    PyState.run E (fun _ => true) s [.call (.addRigidBody (ballRB .px) 0)] = some s2 ∧
      s2.read 0 = .ub := by
  have h1 : (Op.addRigidBody (ballRB .px) (-1)).step E (Body.init cache0) = .ok (solo .px) := by
    simp [Op.step, addRigidBody, Out.map, Out.bind, Body.init, pushSub, solo]
  obtain ⟨b1, h2, e2⟩ : ∃ b1, (Op.setQ [1]).step E (solo .px) = .ok b1 ∧
      b1.q = [1] ∧ b1.dof = 1 := by
    simp [Op.step, Body.setQ, solo, Body.dof]
  obtain ⟨b2, h3, e3⟩ : ∃ b2, (Op.addRigidBody (ballRB .px) 0).step E (solo .px) = .ok b2 ∧
      b2.dof = 2 := by
    simp [Op.step, addRigidBody, solo, Body.dof, Out.map, Out.bind]
  refine ⟨soloState.bindVar 0 (.qView 1), { soloState.bindVar 0 (.qView 1) with b := b1 },
    { soloState.bindVar 0 (.qView 1) with b := b2, links := 2 }, ?_, ?_, ?_, ?_, ?_, ?_⟩
  · simp [PyState.run, PyState.exec, PyState.step, PyState.start, h1, Out.bind, PyState.blocks,
      soloState, PyState.bindVar, Body.dof, solo]
  · simp [PyState.read, PyState.bindVar, soloState, Body.dof, solo]
  · simp only [PyState.run, PyState.exec, PyState.step, PyState.bindVar, soloState, h2, Out.bind,
      PyState.blocks, Option.bind_some]
  · simp [PyState.read, PyState.bindVar, e2]
  · simp only [PyState.run, PyState.exec, PyState.step, PyState.bindVar, soloState, h3, Out.bind,
      PyState.blocks, Option.bind_some, if_true]
  · simp [PyState.read, PyState.bindVar, e3]

/-- The hypotheses of the statements about links and loads hold: a link and a load are kept, a query
is asked, a link is added, the load is cleared. -/
example (E : Ext) : ∃ s s1 s2 s3 s4 : PyState,
    s.step E (fun _ => true) (.getLink 0 0) = .ok s1 ∧ s.b.LinkIdx 0 0 ∧
    s1.step E (fun _ => true) (.call (.addRigidBody (ballRB .px) 0)) = .ok s2 ∧
    s.step E (fun _ => true) (.getLoad 1 0) = .ok s3 ∧
    s3.step E (fun _ => true) (.call (.clearLoad (-1))) = .ok s4 ∧
    (if (-1 : ℤ) < 0 then (-1 : ℤ) + s.b.dof else -1) = 0 := by
  obtain ⟨b2, h3⟩ : ∃ b2, (Op.addRigidBody (ballRB .px) 0).step E soloLoaded = .ok b2 := by
    simp [Op.step, addRigidBody, soloLoaded, addLoad, solo, Out.map, Out.bind]
  have hl : soloLoaded.load 0 = some ball := rfl
  let s : PyState := ⟨soloLoaded, fun _ => none, 1, fun _ => 0⟩
  let s1 := s.bindVar 0 (.link 0 1)
  let s3 := s.bindVar 1 (.load 0 0)
  refine ⟨s, s1, s1.blocks (fun _ => true) b2 (.addRigidBody (ballRB .px) 0), s3,
    s3.blocks (fun _ => true) (soloLoaded.clearLoad (-1)) (.clearLoad (-1)), rfl,
    ⟨Nat.one_pos, .inl rfl⟩, ?_, ?_, rfl, rfl⟩
  · simp only [PyState.step, s1, s, PyState.bindVar, h3, Out.bind]
  · show (match soloLoaded.load 0 with | none => Out.throws | some _ => _) = _
    rw [hl]
    rfl

end SpatialDyn
