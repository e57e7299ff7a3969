import Verif.Spec.PySim
import Verif.Props.App
import Verif.Props.PyOpspace
import Verif.Props.Equilibrium
import Verif.Props.Opspace

/-!
# C148: the demonstration in Python
-/

namespace SpatialDyn
open Body Finset

variable {E : Ext} {C : Ctl} {b : Body} {d : Bool} {names : List Str}
  {near : C.Quat → C.Quat → C.Quat} {err : C.Quat → C.Quat → Vec3}

theorem pyAttr_missing {s : String} (h : s.toList ∉ names) : pyAttr names s = .throws := if_neg h

theorem pyAttr_bound {s : String} (h : s.toList ∈ names) : pyAttr names s = .ok () := if_pos h

/-- Without `near_quaternion` no cycle is completed. -/
theorem simCycle_missing (hm : "near_quaternion".toList ∉ names) {cfg : AppCfg C} {s : App}
    (h : Inv E s.body) (hd : 0 < s.body.dof) (i : SimInput) :
    simCycle E C names near err cfg s i = .throws := by
  obtain ⟨j, hj⟩ := jacobian_total s.body (lastLink hd) appOffset
  have s1 := ((Asked.refl (E := E)).jacobian hj).step h
  obtain ⟨b2, hx⟩ := position_of_index (h.step s1) (l := -1) (k := s.body.dof - 1)
    (by rw [s1.index]; exact (lastLink hd).index) appOffset
  unfold simCycle pyMeasure
  simp only [hj, hx, pyAttr_missing hm, Out.bind]
  cases i.kpKvPos <;> cases i.kpKvOri <;> cases i.kpKvJoint <;> cases i.interaction <;> rfl

/-- The program starts: where the robot then is. -/
theorem start_run {n : Named} {home : List ℝ} (h : Reach E n.body d) (hd : 0 < n.body.dof)
    (hq : home.length = n.body.dof) : ∃ cfg s, App.start C n home = .ok (cfg, s) ∧ cfg.qDes = home ∧
      s.body.q = home ∧ s.body.dq = n.body.dq ∧ s.body.dof = n.body.dof ∧ StateOnly n.body s.body ∧
      (∃ d', Reach E s.body d') ∧ cfg.robot = appModels ++ n.name ∧
      s.xDes = (s.body.freshTw (s.body.dof - 1)).app appOffset ∧
      cfg.quatDes = C.ofRot (s.body.freshTw (s.body.dof - 1)).R ∧
      ∃ b1, n.body.setQ home = .ok b1 ∧ Inv E b1 ∧ Step E b1 s.body := by
  obtain ⟨b1, hb1, e1⟩ := setQ_total (b := n.body) hq
  obtain ⟨q1, v1⟩ := setQ_pos hb1
  have r1 := Reach.step (b' := b1) (.setQ home) h trivial (by simp [Op.exec, Op.step, hb1])
  have i1 := r1.inv
  have hd1 : 0 < b1.dof := by rw [e1]; exact hd
  obtain ⟨b2, hx⟩ := position_of_index i1 (lastLink hd1).index appOffset
  have a2 := (Asked.refl (E := E)).position hx
  have s2 := a2.step i1
  dsimp only at s2 a2
  obtain ⟨b3, ho⟩ := orientation_of_index (i1.step s2) (l := -1) (k := b1.dof - 1)
    (by rw [s2.index]; exact (lastLink hd1).index)
  have a3 := a2.orientation ho
  have s3 := a3.step i1
  dsimp only at s3 a3
  refine ⟨_, ⟨_, b3⟩, by unfold App.start; simp only [hb1, hx, ho, Out.bind]; rfl, rfl, ?_, ?_, ?_, ?_,
    a3.reach r1, rfl, ?_, ?_, b1, hb1, i1, s3⟩
  · obtain ⟨c, hc, -⟩ := s3
    show b3.q = home
    rw [hc, ← q1]
  · obtain ⟨c, hc, -⟩ := s3
    show b3.dq = _
    rw [hc, ← v1]
  · exact s3.dof_eq.trans e1
  · exact (setQ_stateOnly h.inv.tree.lq hb1).trans s3.same.stateOnly
  · show _ = (b3.freshTw (b3.dof - 1)).app appOffset
    rw [s3.dof_eq, s3.freshTw]
  · show _ = C.ofRot (b3.freshTw (b3.dof - 1)).R
    rw [s3.dof_eq, s3.freshTw, s2.freshTw]

/-- Negation of C148, for every robot, whatever Redis holds and however long the program is left running: with
the bindings as they are no cycle is completed.  The program publishes the home configuration and the gains,
then torques of zero, and nothing else; the robot is never moved. -/
theorem C148_violated {n : Named} {home : List ℝ} (h : Reach E n.body d) (hd : 0 < n.body.dof)
    (hq : home.length = n.body.dof) (l : List SimInput) :
    ∃ s, simMain E C opspaceNames near err n home l =
        .ok ([.vec "spatial_dyn::sensor::q".toList home,
          .vec "spatial_dyn::control::kp_kv_pos".toList [40, 10],
          .vec "spatial_dyn::control::kp_kv_ori".toList [40, 10],
          .vec "spatial_dyn::control::kp_kv_joint".toList [1, 2],
          .vec "spatial_dyn::control::tau".toList (List.replicate n.body.dof 0)], 0, s) ∧
      s.body.q = home ∧ s.body.dq = n.body.dq := by
  obtain ⟨cfg, s, hs, -, h1, h2, h3, -, ⟨d', hr⟩, -⟩ := start_run (C := C) h hd hq
  have hl : simLoop E C opspaceNames near err cfg s l = .ok ([], 0, s) := by
    cases l with
    | nil => rfl
    | cons i l =>
      unfold simLoop
      rw [simCycle_missing (by decide) hr.inv (by rw [h3]; exact hd)]
  refine ⟨s, ?_, h1, h2⟩
  unfold simMain
  simp only [hs, hl, Out.bind, h1, h3]
  rfl

/-! ## With the two functions -/

theorem pyOps_total (h : Inv E b) (hd : 0 < b.dof) {J N : DMat} (hJ : J.cols = b.dof)
    (hN : N.rows = b.dof ∧ N.cols = b.dof) (ddx : ℕ → ℝ) (e : ℝ) :
    ∃ tau N' b', b.pyOpsInverseDynamics E J ddx (.mat true N) (svdEps := e) = .ok (tau, .mat true N', b') ∧
      N'.rows = b.dof ∧ N'.cols = b.dof ∧ Asked E b b' ∧ ((∀ i, ddx i = 0) → ∀ i, tau i = 0) := by
  obtain ⟨tau, N', b2, hr⟩ := opsInverseDynamics_total (o := OpsOpts.make false false false e 0.01) h hJ
    (.inr hN) hd ddx noExt rfl rfl rfl
  obtain ⟨l, s1, s2, s3, s4, hl, hs1, hs2, hs3, hs4, hNu, hr1, -, -, -, -, k4, -⟩ :=
    opsInverseDynamics_parts h hr
  have hs : N'.rows = b.dof ∧ N'.cols = b.dof := by
    obtain ⟨s, -, hNu⟩ := Out.bind_ok hNu
    obtain ⟨-, -, hNu⟩ := Out.bind_ok hNu
    have hz : N.size ≠ 0 := by
      unfold DMat.size; rw [hN.1, hN.2]; exact (Nat.mul_pos hd hd).ne'
    simp only [if_neg hz, Out.ok.injEq, Prod.mk.injEq, Option.some.injEq] at hNu
    rw [← hNu.1]
    exact ⟨k4.dof_eq, hN.2⟩
  refine ⟨tau, N', b2, ?_, hs.1, hs.2, ?_, ?_⟩
  · unfold pyOpsInverseDynamics
    dsimp only
    rw [hr]
    simp [Out.bind, Out.need, hs.1, hs.2, hN.1, hN.2]
  · exact (Asked.refl (E := E)).ask (r := (_, b2))
      (.opsInverseDynamics J ddx (some N) noExt false (OpsOpts.make false false false e 0.01)) trivial
      (by simp only [Query.run, hr, Out.map, Out.bind]; rfl)
  · intro h0 i
    simp only [opsAdd, OpsOpts.make, Bool.false_eq_true, if_false] at hs1 hs2 hs3 hs4
    cases hs1; cases hs2; cases hs3; cases hs4
    have hr1 : tau = _ := hr1
    rw [hr1]
    unfold clipForce
    rw [if_neg (fun hc => lt_irrefl _ hc.1)]
    unfold DMat.mulVec
    simp [h0]

theorem pyMeasure_run (hn : Needed names) (h : Inv E b) (hd : 0 < b.dof) (cfg : AppCfg C) (xDes : Vec3)
    (kpos kori : ℝ × ℝ) :
    ∃ J x R b', b.pyMeasure C names near err cfg xDes kpos kori = .ok ((J, x,
        pyPd3 x xDes (jacVel b.dof J b.dqFun).lin kpos,
        (-kori.1) • err (near (C.ofRot R) cfg.quatDes) cfg.quatDes - kori.2 • (jacVel b.dof J b.dqFun).ang,
        near (C.ofRot R) cfg.quatDes), b') ∧ Asked E b b' ∧
      x = (b.freshTw (b.dof - 1)).app appOffset ∧ R = (b.freshTw (b.dof - 1)).R := by
  obtain ⟨j, hj⟩ := jacobian_total b (lastLink hd) appOffset
  have a1 := (Asked.refl (E := E)).jacobian hj
  have s1 := a1.step h
  obtain ⟨b2, hx⟩ := position_of_index (h.step s1) (l := -1) (k := b.dof - 1)
    (by rw [s1.index]; exact (lastLink hd).index) appOffset
  have a2 := a1.position hx
  have s2 := a2.step h
  obtain ⟨b3, ho⟩ := orientation_of_index (h.step s2) (l := -1) (k := b.dof - 1)
    (by rw [s2.index]; exact (lastLink hd).index)
  have a3 := a2.orientation ho
  dsimp only at a3 s2 ho
  rw [s1.freshTw] at hx
  rw [s2.freshTw] at ho
  refine ⟨j.1, _, _, b3, ?_, a3, rfl, rfl⟩
  unfold pyMeasure
  simp only [hj, Out.bind, hx, ho, pyAttr_bound (hn "near_quaternion" (by simp)),
    pyAttr_bound (hn "orientation_error" (by simp))]

theorem pyTorque_run (hn : Needed names) (h : Inv E b) (hd : 0 < b.dof) {cfg : AppCfg C}
    (hq : cfg.qDes.length = b.dof) (kj : ℝ × ℝ) (J : ℕ → Motion) (ddx dw : Vec3) :
    ∃ t, b.pyTorque E C names cfg kj J ddx dw = .ok t ∧ Asked E b t.2 ∧
      (ddx = 0 → dw = 0 → cfg.qDes = b.q → (∀ k < b.dof, b.dq.getD k 0 = 0) →
        ∀ k < b.dof, t.1 k = b.fresh.gravitySpec k) := by
  obtain ⟨l, hl⟩ := opsInertia_total (e := 0.01) (J := jac6 b.dof J) h rfl hd
  have h6 : b.opsIsSingular E (jac6 b.dof J) 0.01 = .ok (l.2.c.ops.singular, l.2) := by
    unfold Body.opsIsSingular; rw [hl]; rfl
  have a1 := (Asked.refl (E := E)).opsIsSingular h6
  have s1 := a1.step h
  have e1 := s1.dof_eq
  dsimp only at e1 s1
  obtain ⟨t1, N1, b1, ht, r1, c1, a2, z1⟩ := pyOps_total (h.step s1) (by rw [e1]; exact hd)
    (J := if l.2.c.ops.singular then jac3 b.dof J else jac6 b.dof J) (N := DMat.id b.dof)
    (by split <;> exact e1.symm) ⟨e1.symm, e1.symm⟩ (ddxDw ddx dw) 0.01
  have a2 := a1.trans a2
  have s2 := a2.step h
  have e2 := s2.dof_eq
  obtain ⟨t2, N2, b2, hj, -, -, a3, z2⟩ := pyOps_total (h.step s2) (by rw [e2]; exact hd)
    (J := DMat.id b.dof) (N := N1) e2.symm ⟨by rw [r1, e1, e2], by rw [c1, e1, e2]⟩
    (fun k => -kj.1 * (b1.q.getD k 0 - cfg.qDes.getD k 0) - kj.2 * b1.dq.getD k 0) 0
  have a3 := a2.trans a3
  have s3 := a3.step h
  refine ⟨(fun k => t1 k + t2 k + b2.gravity.1 k, b2.gravity.2), ?_, a3.gravity, ?_⟩
  · unfold pyTorque
    rw [h6]
    simp only [Out.bind, pyAttr_bound (hn "is_singular" (by simp)),
      pyAttr_bound (hn "inverse_dynamics" (by simp))]
    rw [ht]
    simp only [if_pos (hq.trans e2.symm), hj]
  · intro d0 w0 hqq hrest k hk
    have hq1 : b1.q = b.q := by obtain ⟨c, hc, -⟩ := s2; rw [hc]
    have hd1 : b1.dq = b.dq := by obtain ⟨c, hc, -⟩ := s2; rw [hc]
    have w1 := z1 (by
      intro i
      rw [d0, w0]
      unfold ddxDw Motion.entry
      split <;> rfl) k
    have w2 := z2 (by
      intro i
      rw [hq1, hd1, hqq]
      by_cases hi : i < b.dof
      · rw [hrest i hi]; ring
      · have : b.dq.getD i 0 = 0 := by
          have : b.dq.length ≤ i := by rw [h.tree.ldq]; omega
          simp [List.getD, this]
        rw [this]; ring) k
    have g1 := (gravity_run (h.step s3)).2 k (by rw [s3.dof_eq]; exact hk)
    rw [s3.fresh_eq] at g1
    simp [w1, w2, g1]

/-- C148: the forces of the web page: none for another object, and on the link that is dragged the force of 100 newtons
per metre at the clicked point. -/
theorem C148_mouse (h : Inv E b) (hn : b.dof ≤ 2 ^ 31) {robot : Str}
    {m : Interaction} (hm : m.PyComplete robot b.dof) :
    ∃ r, b.pyClickForces robot m = .ok r ∧ Asked E b r.2 ∧
      (m.keyObject ≠ .val robot → r.1 = noExt) ∧
      ∀ (k : ℕ) (mouse click : Vec3), m.keyObject = .val robot → m.idxLink = .val k → m.posMouse = .val mouse →
        m.posClick = .val click → ∃ x, (b.position k click).map Prod.fst = .ok x ∧
          r.1 = fun j => if j = k then some ⟨(100 : ℝ) • (mouse - x), x.cross ((100 : ℝ) • (mouse - x))⟩
            else none := by
  obtain ⟨key, hk⟩ := hm.object
  unfold pyClickForces
  have e : ∀ {α β : Type} (a : α) (f : α → Out β), (Field.val a).pyGet.bind f = f a := fun _ _ => rfl
  rw [hk, e]
  by_cases he : key = robot
  · subst he
    obtain ⟨⟨k, h2, k2⟩, ⟨x, h3⟩, y, h4⟩ := hm.drag hk
    obtain ⟨b', hp⟩ := position_of_index h (l := (k : ℤ)) (k := k) (LinkIdx.index ⟨k2, .inl rfl⟩) y
    have hr : (-2 ^ 31 ≤ (k : ℤ) ∧ (k : ℤ) < 2 ^ 31) := by
      have : (b.dof : ℤ) ≤ 2 ^ 31 := by exact_mod_cast hn
      have : (k : ℤ) < b.dof := by exact_mod_cast k2
      constructor <;> linarith [Int.natCast_nonneg k]
    rw [if_neg (not_not.2 rfl), h2, h3, h4, e, e, e, if_pos hr, hp]
    simp only [Out.bind, if_neg (not_lt.2 (Int.natCast_nonneg k))]
    refine ⟨_, rfl, (Asked.refl (E := E)).position hp, fun hc => (hc rfl).elim, ?_⟩
    rintro k' x' y' - e1 e2 e3
    cases e2
    cases e3
    have e1 : (k : ℤ) = k' := by injection e1
    obtain rfl : k = k' := by exact_mod_cast e1
    refine ⟨_, by rw [hp]; rfl, ?_⟩
    funext j
    simp only [Nat.cast_inj]
    split
    · congr 1
      ext <;> simp [transF, appDragGain, Vec3.cross] <;> ring
    · rfl
  · refine ⟨_, if_pos he, .refl, fun _ => rfl, ?_⟩
    rintro k' x' y' e0
    exact (he (by injection e0)).elim

/-- The calls of a cycle. -/
theorem simCycle_run (hN : Needed names) {cfg : AppCfg C} {s : App} (h : Reach E s.body d)
    (hdef : s.body.Definite) (hd : 0 < s.body.dof) (hn : s.body.dof ≤ 2 ^ 31)
    (hq : cfg.qDes.length = s.body.dof) {i : SimInput} (hi : i.Readable cfg.robot s.body.dof) :
    ∃ (kpos kori kj : ℝ × ℝ) (msg : Interaction) (key : Str) (J : ℕ → Motion) (x : Vec3) (R : Mat3)
      (b1 : Body) (t : (ℕ → ℝ) × Body) (f : FExt × Body) (b' : Body), i.interaction = some msg ∧ msg.keyDown = .val key ∧
      Asked E s.body b1 ∧ x = (s.body.freshTw (s.body.dof - 1)).app appOffset ∧
      R = (s.body.freshTw (s.body.dof - 1)).R ∧
      b1.pyTorque E C names cfg kj J (pyPd3 x s.xDes (jacVel s.body.dof J s.body.dqFun).lin kpos)
        ((-kori.1) • err (near (C.ofRot R) cfg.quatDes) cfg.quatDes -
          kori.2 • (jacVel s.body.dof J s.body.dqFun).ang) = .ok t ∧ Asked E s.body t.2 ∧
      t.2.pyClickForces cfg.robot msg = .ok f ∧ Asked E s.body f.2 ∧
      f.2.integrate E t.1 i.dt f.1 IntOpts.make = .ok b' ∧
      simCycle E C names near err cfg s i = .ok ([
        .vec "spatial_dyn::control::tau".toList ((List.range b'.dof).map t.1),
        .vec "spatial_dyn::control::pos".toList (adjustPosition key s.xDes).coords,
        .vec "spatial_dyn::sensor::q".toList b'.q, .vec "spatial_dyn::sensor::dq".toList b'.dq,
        .vec "spatial_dyn::trajectory::pos".toList x.coords,
        .quat "spatial_dyn::trajectory::ori".toList (near (C.ofRot R) cfg.quatDes)],
        ⟨adjustPosition key s.xDes, b'⟩) := by
  have hI := h.inv
  obtain ⟨kpos, h1⟩ := hi.pos
  obtain ⟨kori, h2⟩ := hi.ori
  obtain ⟨kj, h3⟩ := hi.joint
  obtain ⟨msg, h4, hc⟩ := hi.msg
  obtain ⟨key, h5⟩ := hc.key
  obtain ⟨J, x, R, b1, hm, a1, hx, hR⟩ := pyMeasure_run (near := near) (err := err) hN hI hd cfg s.xDes kpos kori
  have s1 := a1.step hI
  obtain ⟨t, ht, a2, -⟩ := pyTorque_run hN (hI.step s1) (by rw [s1.dof_eq]; exact hd) (cfg := cfg)
    (by rw [s1.dof_eq]; exact hq) kj J (pyPd3 x s.xDes (jacVel s.body.dof J s.body.dqFun).lin kpos)
        ((-kori.1) • err (near (C.ofRot R) cfg.quatDes) cfg.quatDes -
          kori.2 • (jacVel s.body.dof J s.body.dqFun).ang)
  have a2 := a1.trans a2
  have s2 := a2.step hI
  obtain ⟨f, hf, a3, -⟩ := C148_mouse (hI.step s2) (by rw [s2.dof_eq]; exact hn)
    (robot := cfg.robot) (m := msg) (by rw [s2.dof_eq]; exact hc)
  have a3 := a2.trans a3
  have s3 := a3.step hI
  obtain ⟨d3, r3⟩ := a3.reach h
  have hm3 := (s3.same.stateOnly.definite hdef).massive r3.inv.tree
  obtain ⟨b', hb, -⟩ := steps_scheme r3 hm3 cache0_clear t.1 i.dt f.1 IntOpts.make rfl 1
  have hb : f.2.integrate E t.1 i.dt f.1 IntOpts.make = .ok b' := hb
  have hb2 : f.2.pyIntegrate E t.1 i.dt f.1 = .ok b' := hb
  refine ⟨kpos, kori, kj, msg, key, J, x, R, b1, t, f, b', h4, h5, a1, hx, hR, ht, a2, hf, a3, hb, ?_⟩
  unfold simCycle
  simp only [h1, h2, h3, h4, pyDecode, Out.bind, hm, ht, hf, h5, Field.pyGet, hb2]
  rfl

/-- C148 (partial: for bindings that had the two functions, whatever they compute; see `C148_violated`): a
cycle that reads gains and a complete message succeeds.  It publishes the torques `tau`, and the configuration and
velocities that `Integrate` leads to from the state of the robot with these torques and the force of the mouse:
none if another object is dragged, 100 newtons per metre towards the mouse at the clicked point of a dragged link. -/
theorem C148_cycle_partial (hN : Needed names) {cfg : AppCfg C} {s : App} (h : Reach E s.body d)
    (hdef : s.body.Definite) (hd : 0 < s.body.dof) (hn : s.body.dof ≤ 2 ^ 31)
    (hq : cfg.qDes.length = s.body.dof) {i : SimInput} (hi : i.Readable cfg.robot s.body.dof) :
    ∃ r tau f b0 m, simCycle E C names near err cfg s i = .ok r ∧ i.interaction = some m ∧ s.body.ObsEq b0 ∧
      b0.integrate E tau i.dt f ⟨true, true, false, false, .rk4, false, 0.01⟩ = .ok r.2.body ∧
      (m.keyObject ≠ .val cfg.robot → ∀ k, f k = none) ∧
      (∀ (k : ℕ) (mouse click : Vec3), m.keyObject = .val cfg.robot → m.idxLink = .val k →
        m.posMouse = .val mouse → m.posClick = .val click →
        ∃ x, (s.body.position k click).map Prod.fst = .ok x ∧
          ∀ j, f j = if j = k then some ⟨(100 : ℝ) • (mouse - x), x.cross ((100 : ℝ) • (mouse - x))⟩
            else none) ∧
      .vec "spatial_dyn::control::tau".toList ((List.range s.body.dof).map tau) ∈ r.1 ∧
      .vec "spatial_dyn::sensor::q".toList r.2.body.q ∈ r.1 ∧
      .vec "spatial_dyn::sensor::dq".toList r.2.body.dq ∈ r.1 ∧
      (∃ d', Reach E r.2.body d') ∧ StateOnly s.body r.2.body := by
  have hI := h.inv
  obtain ⟨kpos, kori, kj, msg, key, J, x, R, b1, t, f, b', h4, h5, a1, -, -, -, a2, hf, a3, hb, hs⟩ :=
    simCycle_run (near := near) (err := err) hN h hdef hd hn hq hi
  obtain ⟨d3, r3⟩ := a3.reach h
  have s2 := a2.step hI
  have s3 := a3.step hI
  have hso := s3.same.stateOnly.trans (integrate_stateOnly r3.inv.tree hb)
  have hdof : b'.dof = s.body.dof := by unfold Body.dof; rw [hso.rbs]
  obtain ⟨m, hm, hc⟩ := hi.msg
  obtain rfl : msg = m := by rw [h4] at hm; exact Option.some.inj hm
  obtain ⟨f', hf', -, g1, g2⟩ := C148_mouse (hI.step s2) (by rw [s2.dof_eq]; exact hn)
    (robot := cfg.robot) (m := msg) (by rw [s2.dof_eq]; exact hc)
  obtain rfl : f = f' := by rw [hf] at hf'; exact Out.ok.inj hf'
  refine ⟨_, t.1, f.1, f.2, msg, hs, h4, s3.obsEq, hb, ?_, ?_, ?_, ?_, ?_, ?_, hso⟩
  · intro hk k
    rw [g1 hk]; rfl
  · intro k mouse click k1 k2 k3 k4
    obtain ⟨y, hy, hfy⟩ := g2 k mouse click k1 k2 k3 k4
    refine ⟨y, ?_, fun j => by rw [hfy]⟩
    obtain ⟨⟨k', e1, e2⟩, -⟩ := hc.drag k1
    have e1 : (k : ℤ) = k' := by rw [k2] at e1; injection e1
    obtain rfl : k = k' := by exact_mod_cast e1
    have hi1 : s.body.LinkIdx (k : ℤ) k := ⟨e2, .inl rfl⟩
    obtain ⟨c1, p1⟩ := position_of_index hI hi1.index click
    obtain ⟨c2, p2⟩ := position_of_index (hI.step s2) (l := (k : ℤ)) (k := k)
      (by rw [s2.index]; exact hi1.index) click
    rw [p2, s2.freshTw] at hy
    rw [p1]
    exact hy
  · rw [hdof]; simp
  · simp
  · simp
  · exact ⟨_, r3.step (b' := b') (.integrate t.1 i.dt f.1 IntOpts.make) trivial
      (by simp [Op.exec, Op.step, hb])⟩

theorem pyAttr_ok {α : Type} {s : String} {f : Unit → Out α} {a : α} (h : (pyAttr names s).bind f = .ok a) :
    f () = .ok a := by
  obtain ⟨u, -, h⟩ := Out.bind_ok h
  exact h

/-- A call of `opspace.inverse_dynamics` with a matrix only looks at the body. -/
theorem PyTask.call_asked {b' : Body} {t : PyTask} {own : Bool} {M : DMat} {N' : PyNull} {tau : ℕ → ℝ}
    (h : t.call E b (.mat own M) = .ok (tau, N', b')) : Asked E b b' ∧ ∃ M', N' = .mat own M' := by
  obtain ⟨M', h1, h2, -⟩ := PyTask.call_mat h
  exact ⟨(Asked.refl (E := E)).ask (r := (_, b'))
    (.opsInverseDynamics t.J t.ddx (some M) t.fext t.ext t.task.o) trivial
    (by simp only [Query.run, h1, Out.map, Out.bind]; rfl), _, h2⟩

theorem pyDecode_ok {α : Type} {o : Option α} {a : α} (h : pyDecode o = .ok a) : o = some a := by
  cases o with
  | none => cases h
  | some b => cases h; rfl

/-- C148 (partial, see `C148_violated`): the torques that a completed cycle publishes are those of two calls of
`opspace.inverse_dynamics` and those of gravity.  The first task is the point three centimetres along the z axis of
the last link, with the acceleration of a spring and a damper towards the goal, and, unless the Jacobian is
singular, the orientation of the link; the second task, in the nullspace that the first call leaves, is the posture.
The goal moves by a tenth of a millimetre when a key is pressed; the point and the orientation at the beginning of the
cycle are published. -/
theorem C148_torques_partial {cfg : AppCfg C} {s : App} (h : Reach E s.body d) {i : SimInput}
    {r : List (SimPub C) × App} (hr : simCycle E C names near err cfg s i = .ok r) :
    ∃ (kpos kori kj : ℝ × ℝ) (m : Interaction) (key : Str) (J : ℕ → Motion) (x : Vec3) (R : Mat3) (sing : Bool)
      (b1 b2 b3 b4 : Body) (tau1 tau2 : ℕ → ℝ) (N1 N2 : PyNull),
      i.kpKvPos = some kpos ∧ i.kpKvOri = some kori ∧ i.kpKvJoint = some kj ∧ i.interaction = some m ∧
      m.keyDown = .val key ∧ s.body.Reads (-1) ⟨0, 0, 0.03⟩ J x R ∧ s.body.ObsEq b1 ∧
      b1.opsIsSingular E (jac6 s.body.dof J) 0.01 = .ok (sing, b2) ∧
      PyTask.call E b2
        { J := if sing then jac3 s.body.dof J else jac6 s.body.dof J
          ddx := (⟨-(kpos.1 • (x - s.xDes)) - kpos.2 • (jacVel s.body.dof J s.body.dqFun).lin,
            -(kori.1 • err (near (C.ofRot R) cfg.quatDes) cfg.quatDes) -
              kori.2 • (jacVel s.body.dof J s.body.dqFun).ang⟩ : Motion).entry
          svdEps := 0.01 } (.mat true (DMat.id s.body.dof)) = .ok (tau1, N1, b3) ∧
      PyTask.call E b3
        { J := DMat.id s.body.dof
          ddx := fun k => -(kj.1 * (s.body.q.getD k 0 - cfg.qDes.getD k 0)) - kj.2 * s.body.dq.getD k 0 } N1 =
        .ok (tau2, N2, b4) ∧
      .vec "spatial_dyn::control::tau".toList
        ((List.range r.2.body.dof).map fun k => tau1 k + tau2 k + b4.gravity.1 k) ∈ r.1 ∧
      s.body.ObsEq b4 ∧
      r.2.xDes = s.xDes + (0.0001 : ℝ) • (⟨presses 'd' [key] - presses 'a' [key],
        presses 'w' [key] - presses 's' [key], presses 'e' [key] - presses 'q' [key]⟩ : Vec3) ∧
      .vec "spatial_dyn::control::pos".toList [r.2.xDes.x, r.2.xDes.y, r.2.xDes.z] ∈ r.1 ∧
      .vec "spatial_dyn::trajectory::pos".toList [x.x, x.y, x.z] ∈ r.1 ∧
      .quat "spatial_dyn::trajectory::ori".toList (near (C.ofRot R) cfg.quatDes) ∈ r.1 := by
  have hI := h.inv
  obtain ⟨kpos, h1, hr⟩ := Out.bind_ok hr
  obtain ⟨kori, h2, hr⟩ := Out.bind_ok hr
  obtain ⟨kj, h3, hr⟩ := Out.bind_ok hr
  obtain ⟨m, h4, hr⟩ := Out.bind_ok hr
  obtain ⟨me, hm, hr⟩ := Out.bind_ok hr
  obtain ⟨t, ht, hr⟩ := Out.bind_ok hr
  obtain ⟨f, hf, hr⟩ := Out.bind_ok hr
  obtain ⟨key, hk, hr⟩ := Out.bind_ok hr
  obtain ⟨b', hb, hr⟩ := Out.bind_ok hr
  have hk : m.keyDown = .val key := by
    cases hc : m.keyDown <;> rw [hc] at hk <;> cases hk
    rfl
  -- the measurements
  obtain ⟨j, hj, hm⟩ := Out.bind_ok hm
  obtain ⟨x, hx, hm⟩ := Out.bind_ok hm
  have hm := pyAttr_ok hm
  obtain ⟨o, ho, hm⟩ := Out.bind_ok hm
  have hm := pyAttr_ok hm
  cases hm
  have a1 := (Asked.refl (E := E)).jacobian hj
  have s1 := a1.step hI
  have a2 := a1.position hx
  have s2 := a2.step hI
  have a3 := a2.orientation ho
  have s3 := a3.step hI
  have hreads : s.body.Reads (-1) ⟨0, 0, 0.03⟩ j.1 x.1 o.1 := by
    obtain ⟨-, -, k, k1, -, k2⟩ := position_run (hI.step s1) hx
    obtain ⟨-, -, k', k1', -, k2'⟩ := orientation_run (hI.step s2) ho
    rw [s1.index] at k1
    rw [s2.index] at k1'
    obtain ⟨c1, p1⟩ := position_of_index hI k1 appOffset
    obtain ⟨c2, p2⟩ := orientation_of_index hI k1'
    refine ⟨⟨j.2, hj⟩, ⟨c1, ?_⟩, ⟨c2, ?_⟩⟩
    · rw [k2, s1.freshTw]; exact p1
    · rw [k2', s2.freshTw]; exact p2
  -- the torques
  have ht := pyAttr_ok ht
  obtain ⟨sg, hs, ht⟩ := Out.bind_ok ht
  have ht := pyAttr_ok ht
  obtain ⟨t1, ht1, ht⟩ := Out.bind_ok ht
  obtain ⟨-, -, ht⟩ := Out.bind_ok ht
  obtain ⟨t2, ht2, ht⟩ := Out.bind_ok ht
  cases ht
  have a4 := a3.opsIsSingular hs
  have hdof : o.2.dof = s.body.dof := s3.dof_eq
  rw [hdof] at hs ht1 ht2
  have e1 : ∀ (c : ℝ) (v : Vec3), (-c) • v = -(c • v) := fun c v => by ext <;> simp
  have c1 : PyTask.call E sg.2
      { J := if sg.1 then jac3 s.body.dof j.1 else jac6 s.body.dof j.1
        ddx := (⟨-(kpos.1 • (x.1 - s.xDes)) - kpos.2 • (jacVel s.body.dof j.1 s.body.dqFun).lin,
          -(kori.1 • err (near (C.ofRot o.1) cfg.quatDes) cfg.quatDes) -
            kori.2 • (jacVel s.body.dof j.1 s.body.dqFun).ang⟩ : Motion).entry
        svdEps := 0.01 } (.mat true (DMat.id s.body.dof)) = .ok t1 := by
    rw [← e1, ← e1]
    exact ht1
  obtain ⟨a5, M1, hM1⟩ := PyTask.call_asked (tau := t1.1) (N' := t1.2.1) (b' := t1.2.2) c1
  have a5 := a4.trans a5
  have s5 := a5.step hI
  have q5 : t1.2.2.q = s.body.q := by obtain ⟨c, hc, -⟩ := s5; rw [hc]
  have d5 : t1.2.2.dq = s.body.dq := by obtain ⟨c, hc, -⟩ := s5; rw [hc]
  have c2 : PyTask.call E t1.2.2
      { J := DMat.id s.body.dof
        ddx := fun k => -(kj.1 * (s.body.q.getD k 0 - cfg.qDes.getD k 0)) - kj.2 * s.body.dq.getD k 0 } t1.2.1 =
      .ok t2 := by
    simp only [← neg_mul]
    rw [← q5, ← d5]
    exact ht2
  have c2' := c2
  rw [hM1] at c2'
  obtain ⟨a6, -⟩ := PyTask.call_asked (tau := t2.1) (N' := t2.2.1) (b' := t2.2.2) c2'
  have s6 := (a5.trans a6).step hI
  cases hr
  refine ⟨kpos, kori, kj, m, key, j.1, x.1, o.1, sg.1, o.2, sg.2, t1.2.2, t2.2.2, t1.1, t2.1, t1.2.1, t2.2.1,
    pyDecode_ok h1, pyDecode_ok h2, pyDecode_ok h3, pyDecode_ok h4, hk, hreads, s3.obsEq, hs, c1, c2, ?_, s6.obsEq,
    ?_, ?_, ?_, ?_⟩
  · exact List.mem_cons_self
  · show adjustPosition key s.xDes = _
    rw [adjustPosition_eq]
    unfold appKeyGain
    norm_num
  · exact List.mem_cons_of_mem _ List.mem_cons_self
  · simp only [List.mem_cons]
    right; right; right; right; left; rfl
  · simp only [List.mem_cons]
    right; right; right; right; right; left; rfl

/-- The program with a resting robot at its goals. -/
structure App.AtGoal (E : Ext) (cfg : AppCfg C) (s : App) : Prop where
  past : ∃ d, Reach E s.body d
  definite : s.body.Definite
  dof : 0 < s.body.dof
  small : s.body.dof ≤ 2 ^ 31
  rest : ∀ k < s.body.dof, s.body.dq.getD k 0 = 0
  joints : cfg.qDes = s.body.q
  pos : s.xDes = (s.body.freshTw (s.body.dof - 1)).app appOffset
  ori : cfg.quatDes = C.ofRot (s.body.freshTw (s.body.dof - 1)).R

theorem SimInput.Quiet.readable {i : SimInput} {robot : Str} (h : i.Quiet robot) (n : ℕ) :
    i.Readable robot n := by
  obtain ⟨m, hm, ⟨key, h1, h2⟩, ⟨s, h3, -⟩⟩ := h.msg
  refine ⟨h.pos, h.ori, h.joint, m, hm, ⟨key, h1⟩, ⟨s, h3⟩, fun hc => ?_⟩
  rw [h1] at hc
  exact (h2 (by injection hc)).elim

theorem App.AtGoal.cycle (hN : Needed names) (hz : ∀ q, err (near q q) q = 0) {cfg : AppCfg C} {s : App}
    (h : s.AtGoal E cfg) {i : SimInput} (hi : i.Quiet cfg.robot) :
    ∃ r, simCycle E C names near err cfg s i = .ok r ∧ r.2.AtGoal E cfg ∧ r.2.xDes = s.xDes ∧
      r.2.body.q = s.body.q ∧ r.2.body.dq = s.body.dq ∧ r.2.body.fresh = s.body.fresh ∧
      ∀ v, .vec "spatial_dyn::control::tau".toList v ∈ r.1 →
        v = (List.range s.body.dof).map s.body.gravity.1 := by
  obtain ⟨d, hr⟩ := h.past
  have hI := hr.inv
  obtain ⟨kpos, kori, kj, msg, key, J, x, R, b1, t, f, b', h4, h5, a1, hx, hR, ht, a2, hf, a3, hb, hs⟩ :=
    simCycle_run (near := near) (err := err) hN hr h.definite h.dof h.small
      (by rw [h.joints]; exact hI.tree.lq) (hi.readable _)
  obtain ⟨m, hm, hidle⟩ := hi.msg
  obtain rfl : msg = m := by rw [h4] at hm; exact Option.some.inj hm
  have s1 := a1.step hI
  have s3 := a3.step hI
  obtain ⟨d3, r3⟩ := a3.reach hr
  have hV : jacVel s.body.dof J s.body.dqFun = 0 := by
    unfold jacVel
    refine Finset.sum_eq_zero fun j hj => ?_
    have : s.body.dqFun j = 0 := h.rest j (Finset.mem_range.1 hj)
    rw [this, zero_smul]
  have z1 : pyPd3 x s.xDes (jacVel s.body.dof J s.body.dqFun).lin kpos = 0 := by
    rw [hV, hx, h.pos]
    unfold pyPd3
    ext <;> simp
  have z2 : (-kori.1) • err (near (C.ofRot R) cfg.quatDes) cfg.quatDes -
      kori.2 • (jacVel s.body.dof J s.body.dqFun).ang = 0 := by
    rw [hV, h.ori, ← hR, hz]
    ext <;> simp
  rw [z1, z2] at ht
  have q1 : b1.q = s.body.q := by obtain ⟨c, hc, -⟩ := s1; rw [hc]
  have q2 : b1.dq = s.body.dq := by obtain ⟨c, hc, -⟩ := s1; rw [hc]
  have q3 : f.2.q = s.body.q := by obtain ⟨c, hc, -⟩ := s3; rw [hc]
  have q4 : f.2.dq = s.body.dq := by obtain ⟨c, hc, -⟩ := s3; rw [hc]
  obtain ⟨t', ht', -, hg⟩ := pyTorque_run (E := E) hN (hI.step s1) (by rw [s1.dof_eq]; exact h.dof) (cfg := cfg)
    (by rw [s1.dof_eq, h.joints]; exact hI.tree.lq) kj J 0 0
  obtain rfl : t = t' := by rw [ht] at ht'; exact Out.ok.inj ht'
  have hg := hg rfl rfl (by rw [q1]; exact h.joints) (by rw [q2, s1.dof_eq]; exact h.rest)
  rw [s1.fresh_eq, s1.dof_eq] at hg
  have hf0 : f.1 = noExt := by
    obtain ⟨c, h1, h2⟩ := hidle.other
    unfold pyClickForces at hf
    rw [h1] at hf
    have hf : (if c ≠ cfg.robot then Out.ok (noExt, t.2) else _) = Out.ok f := hf
    rw [if_pos h2] at hf
    rw [← Out.ok.inj hf]
  obtain ⟨b2, hb2, e1, e2⟩ := C139_rests r3 (s3.same.stateOnly.definite h.definite) t.1 f.1
    (o := IntOpts.make) rfl rfl (.inl rfl) (by rw [q4, s3.dof_eq]; exact h.rest)
    (by
      intro k hk
      have hk' : k < s.body.dof := by rw [← s3.dof_eq]; exact hk
      have hm3 := (s3.same.stateOnly.definite h.definite).massive r3.inv.tree
      rw [inverseDynamics_val r3.inv hm3.symI (hm3.posMass r3.inv.tree) _ _ _ k hk, s3.fresh_eq, hf0, hg k hk']
      simp [Sys.addFriction, Sys.idSpec, coriolis_rest h.rest, Sys.extSpec, Sys.genForce, noExt,
        IntOpts.make, Motion.dot]) i.dt 1
  have hb2 : f.2.integrate E t.1 i.dt f.1 IntOpts.make = .ok b2 := hb2
  obtain rfl : b' = b2 := by rw [hb] at hb2; exact Out.ok.inj hb2
  rw [q3] at e1
  rw [q4] at e2
  have hso := s3.same.stateOnly.trans (integrate_stateOnly r3.inv.tree hb)
  have hdof : b'.dof = s.body.dof := by unfold Body.dof; rw [hso.rbs]
  have hfr : b'.fresh = s.body.fresh := by
    have p1 : b'.pos = s.body.pos := by unfold Body.pos; rw [e1]
    have p2 : b'.vel = s.body.vel := by unfold Body.vel; rw [e2]
    have p3 : f.2.pos = s.body.pos := by unfold Body.pos; rw [q3]
    have p4 : f.2.vel = s.body.vel := by unfold Body.vel; rw [q4]
    rw [hso.fresh, p1, p2]
    have := s3.same.stateOnly.fresh
    rw [p3, p4, s3.fresh_eq] at this
    exact this.symm
  have hl : s.body.dof - 1 < s.body.dof := Nat.sub_lt h.dof one_pos
  have hTw : b'.freshTw (b'.dof - 1) = s.body.freshTw (s.body.dof - 1) := by
    rw [hdof, ← fresh_Tw (b := b') (by rw [hdof]; exact hl), hfr, fresh_Tw hl]
  have hxd := hidle.adjust h5 s.xDes
  refine ⟨_, hs, ⟨⟨_, r3.step (b' := b') (.integrate t.1 i.dt f.1 IntOpts.make) trivial
      (by simp [Op.exec, Op.step, hb])⟩, hso.definite h.definite, ?_, ?_, ?_, ?_, ?_, ?_⟩, hxd, e1, e2, hfr, ?_⟩
  · show 0 < b'.dof
    rw [hdof]; exact h.dof
  · show b'.dof ≤ _
    rw [hdof]; exact h.small
  · show ∀ k < b'.dof, b'.dq.getD k 0 = 0
    rw [hdof, e2]; exact h.rest
  · show cfg.qDes = b'.q
    rw [e1]; exact h.joints
  · show adjustPosition key s.xDes = (b'.freshTw (b'.dof - 1)).app appOffset
    rw [hxd, hTw]; exact h.pos
  · show cfg.quatDes = C.ofRot (b'.freshTw (b'.dof - 1)).R
    rw [hTw]; exact h.ori
  · intro v hv
    have hv : v = (List.range b'.dof).map t.1 := by
      simp only [List.mem_cons, SimPub.vec.injEq, List.not_mem_nil, or_false, reduceCtorEq] at hv
      rcases hv with hv | hv | hv | hv | hv
      · exact hv.2
      all_goals exact absurd hv.1 (by decide)
    rw [hv, hdof]
    refine List.map_congr_left fun k hk => ?_
    rw [hg k (List.mem_range.1 hk), (gravity_run hI).2 k (List.mem_range.1 hk)]

theorem App.AtGoal.loop (hN : Needed names) (hz : ∀ q, err (near q q) q = 0) {cfg : AppCfg C}
    (l : List SimInput) : ∀ {s : App}, s.AtGoal E cfg → (∀ i ∈ l, i.Quiet cfg.robot) →
    ∃ o s', simLoop E C names near err cfg s l = .ok (o, l.length, s') ∧ s'.body.dof = s.body.dof ∧
      s'.body.q = s.body.q ∧ s'.body.dq = s.body.dq ∧
      ∀ v, .vec "spatial_dyn::control::tau".toList v ∈ o →
        v = (List.range s.body.dof).map s.body.fresh.gravitySpec := by
  induction l with
  | nil => intro s _ _; exact ⟨[], s, rfl, rfl, rfl, rfl, fun _ h => (nomatch h)⟩
  | cons i l ih =>
    intro s h hl
    obtain ⟨r, hr, hS, -, e1, e2, e3, ht⟩ := h.cycle hN hz (hl i List.mem_cons_self)
    obtain ⟨o, s', hs, f0, f1, f2, hv⟩ := ih hS fun j hj => hl j (List.mem_cons_of_mem _ hj)
    have hdof : r.2.body.dof = s.body.dof := congrArg Sys.n e3
    refine ⟨r.1 ++ o, s', ?_, f0.trans hdof, f1.trans e1, f2.trans e2, ?_⟩
    · unfold simLoop
      simp only [hr, hs, Out.bind, List.length_cons]
    · intro v hm
      rcases List.mem_append.1 hm with hm | hm
      · rw [ht v hm]
        obtain ⟨d, hR⟩ := h.past
        exact List.map_congr_left fun k hk => (gravity_run hR.inv).2 k (List.mem_range.1 hk)
      · rw [hv v hm, hdof, e3]

/-- C148 (partial: for bindings that had the two functions, if `orientation_error` of an orientation and itself is
zero; see `C148_violated`): with a resting robot, while nobody drags a link or presses a key, all cycles are
completed, however many they are; the robot stays at the home configuration, and all torques published are those
that hold it there against gravity, except for the zeros at the end. -/
theorem C148_rest_partial (hN : Needed names) (hz : ∀ q, err (near q q) q = 0) {n : Named} {home : List ℝ}
    (h : Reach E n.body d) (hdef : n.body.Definite) (hd : 0 < n.body.dof) (hn : n.body.dof ≤ 2 ^ 31)
    (hv : ∀ k < n.body.dof, n.body.dq.getD k 0 = 0) (hq : home.length = n.body.dof) (l : List SimInput)
    (hl : ∀ i ∈ l, i.Quiet ("spatial_dyn::model::".toList ++ n.name)) :
    ∃ o s b1, simMain E C names near err n home l = .ok (o, l.length, s) ∧ s.body.q = home ∧
      s.body.dq = n.body.dq ∧ n.body.setQ home = .ok b1 ∧
      ∀ v, .vec "spatial_dyn::control::tau".toList v ∈ o →
        v = (List.range n.body.dof).map b1.gravity.1 ∨ v = List.replicate n.body.dof 0 := by
  obtain ⟨cfg, s, hs, g1, g2, g3, g4, g5, g6, g7, g8, g9, b1, hb1, i1, st⟩ := start_run (C := C) h hd hq
  have hA : s.AtGoal E cfg := ⟨g6, g5.definite hdef, by rw [g4]; exact hd, by rw [g4]; exact hn,
    by rw [g4, g3]; exact hv, by rw [g1, g2], g8, g9⟩
  obtain ⟨o, s', hr, e0, e1, e2, ht⟩ := hA.loop (near := near) hN hz l (fun i hi => by
    have := hl i hi
    rw [g7]
    exact this)
  refine ⟨_, s', b1, by unfold simMain; simp only [hs, hr, Out.bind]; rfl, e1.trans g2, e2.trans g3, hb1, ?_⟩
  intro v hm
  simp only [List.mem_append, List.mem_cons, SimPub.vec.injEq, List.not_mem_nil, or_false] at hm
  rcases hm with (hm | hm) | hm
  · rcases hm with hm | hm | hm | hm <;> exact absurd hm.1 (by decide)
  · left
    rw [ht v hm, g4, st.fresh_eq]
    exact List.map_congr_left fun k hk =>
      ((gravity_run i1).2 k (by rw [← st.dof_eq, g4]; exact List.mem_range.1 hk)).symm
  · right
    rw [hm.2, e0, g4]

/-! ## Witnesses -/

/-- The cart, sent to 2, with the module as it is: nothing happens in a million cycles. -/
example (i : SimInput) : ∃ o s, simMain ext0 ctl0 opspaceNames (fun _ q => q) (fun _ _ => 0)
    { name := ['c'], body := cart cache0 } [2] (List.replicate 1000000 i) = .ok (o, 0, s) ∧ s.body.q = [2] := by
  obtain ⟨s, h1, h2, -⟩ := C148_violated (C := ctl0) (near := fun _ q => q) (err := fun _ _ => 0)
    (n := { name := ['c'], body := cart cache0 }) (home := [2]) (cart_reach ext0 cache0).reach (by decide) rfl
    (List.replicate 1000000 i)
  exact ⟨_, s, h1, h2⟩

/-- The cart, sent to 2, with a module that has the two functions: a thousand cycles are completed. -/
example : ∃ o s, simMain ext0 ctl0
      (opspaceNames ++ ["near_quaternion", "orientation_error"].map String.toList) (fun _ q => q)
      (fun _ _ => 0) { name := ['c'], body := cart cache0 } [2]
      (List.replicate 1000 ⟨some (40, 10), some (40, 10), some (1, 2),
        some ⟨.val [], .missing, .missing, .missing, .val ['x']⟩, 0.001⟩) = .ok (o, 1000, s) ∧
      s.body.q = [2] := by
  obtain ⟨o, s, b1, h1, h2, -⟩ := C148_rest_partial (E := ext0) (C := ctl0) (near := fun _ q => q)
    (err := fun _ _ => 0)
    (names := opspaceNames ++ ["near_quaternion", "orientation_error"].map String.toList)
    (by unfold Needed; decide) (fun _ => rfl)
    (n := { name := ['c'], body := cart cache0 }) (home := [2]) (cart_reach ext0 cache0).reach
    (cart_definite cache0) (by decide) (by decide)
    (fun k hk => by
      have : k < 1 := hk
      obtain rfl : k = 0 := by omega
      rfl) rfl
    (List.replicate 1000 ⟨some (40, 10), some (40, 10), some (1, 2),
        some ⟨.val [], .missing, .missing, .missing, .val ['x']⟩, 0.001⟩)
    (fun j hj => by
      obtain ⟨-, rfl⟩ := List.mem_replicate.1 hj
      refine ⟨⟨_, rfl⟩, ⟨_, rfl⟩, ⟨_, rfl⟩, _, rfl, ⟨[], rfl, by decide⟩, ⟨['x'], rfl, ?_⟩⟩
      intro c hc
      cases hc
      decide)
  exact ⟨o, s, by rw [h1, List.length_replicate], h2⟩

end SpatialDyn
