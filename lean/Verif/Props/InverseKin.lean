import Verif.Spec.InverseKin
import Verif.Props.ControlDefaults

/-!
# C43: inverse kinematics
-/

namespace SpatialDyn
open Matrix Body

variable {E : Ext} {C : Ctl} {U : C.Quat → Prop} {b : Body} {d : Bool} {T : Set ℝ}

/-! ## One iteration -/

theorem Careful.query (h : Careful E T b d) (x : Query) (hs : (Op.query x).Safe b d)
    (ht : (Op.query x).Tol T) {r : Ans × Body} (hr : x.run E b = .ok r) :
    ∃ d', Careful E T r.2 d' := by
  refine ⟨_, Careful.step (b' := r.2) (.query x) h hs ht ?_⟩
  simp only [Op.exec, Op.step, hr, Out.map, Out.bind]

theorem ikMeasure_total (h : Inv E b) (hd : 0 < b.dof) {a : IkGoal C} {k : ℕ}
    (hk : b.LinkIdx a.link k) : ∃ m, b.ikMeasure C a = .ok m := by
  obtain ⟨j, hj⟩ := jacobian_total b hk a.offset
  have s1 := (jacobian_run h hj).1
  obtain ⟨b2, hx⟩ := position_of_index (h.step s1) (l := a.link) (k := k)
    (by rw [s1.index]; exact hk.index) a.offset
  have s2 := s1.trans (position_run (h.step s1) hx).1
  obtain ⟨b3, ho⟩ := orientation_of_index (h.step s2) (l := -1) (k := b.dof - 1)
    (by rw [s2.index]; exact (lastLink hd).index)
  unfold ikMeasure
  simp only [hj, Out.bind, hx, ho]
  exact ⟨_, rfl⟩

theorem ikMeasure_careful (h : Careful E T b d) {a : IkGoal C} {m : Measured × Body}
    (hr : b.ikMeasure C a = .ok m) : ∃ d', Careful E T m.2 d' := by
  obtain ⟨j, hj, hr⟩ := Out.bind_ok hr
  obtain ⟨x, hx, hr⟩ := Out.bind_ok hr
  obtain ⟨o, ho, hr⟩ := Out.bind_ok hr
  cases hr
  obtain ⟨d1, h1⟩ := h.query (.jacobian a.link a.offset) trivial trivial
    (r := (.cols (take b.dof j.1), j.2)) (by simp only [Query.run, hj, Out.map, Out.bind])
  obtain ⟨d2, h2⟩ := h1.query (.position a.link a.offset) trivial trivial
    (r := (.vec3 x.1, x.2)) (by simp only [Query.run, hx, Out.map, Out.bind])
  exact h2.query (.orientation (-1)) trivial trivial
    (r := (.mat3 o.1, o.2)) (by simp only [Query.run, ho, Out.map, Out.bind])

theorem opsTask_careful (h : Careful E T b d) (h0 : (0 : ℝ) ∈ T) {J : DMat} {ddx : ℕ → ℝ} {N : DMat}
    {r : (ℕ → ℝ) × DMat × Body} (hr : b.opsTask E J ddx N = .ok r) : ∃ d', Careful E T r.2.2 d' := by
  obtain ⟨s, hs, rfl⟩ := opsTask_eq hr
  exact h.query (.opsInverseDynamics J ddx (some N) noExt false OpsOpts.make) trivial
    ⟨h0, fun _ => h0⟩ (r := (.task (take b.dof s.1) (s.2.1.map DMat.trunc), s.2.2))
    (by simp only [Query.run, hs, Out.map, Out.bind])

theorem ikTorque_careful (h : Careful E T b d) (h0 : (0 : ℝ) ∈ T) {q : List ℝ} {n : ℕ} {m : Measured}
    {t : (ℕ → ℝ) × Body} (hr : b.ikTorque E C q n m = .ok t) : ∃ d', Careful E T t.2 d' := by
  obtain ⟨s, hs, hr⟩ := Out.bind_ok hr
  obtain ⟨u, hu, hr⟩ := Out.bind_ok hr
  obtain ⟨ddq, -, hr⟩ := Out.bind_ok hr
  obtain ⟨j, hj, hr⟩ := Out.bind_ok hr
  cases hr
  obtain ⟨d1, h1⟩ := h.query (.opsIsSingular (jac6 b.dof m.J) 0) trivial trivial
    (r := (.bool s.1, s.2)) (by simp only [Query.run, hs, Out.map, Out.bind])
  obtain ⟨d2, h2⟩ := opsTask_careful h1 h0 hu
  exact opsTask_careful h2 h0 hj

theorem ikTorque_step (h : Inv E b) {q : List ℝ} {n : ℕ} {m : Measured} {t : (ℕ → ℝ) × Body}
    (hr : b.ikTorque E C q n m = .ok t) : Step E b t.2 := by
  obtain ⟨s, hs, hr⟩ := Out.bind_ok hr
  obtain ⟨u, hu, hr⟩ := Out.bind_ok hr
  obtain ⟨ddq, -, hr⟩ := Out.bind_ok hr
  obtain ⟨j, hj, hr⟩ := Out.bind_ok hr
  cases hr
  have s1 := (opsIsSingular_run h hs).1
  have s2 := s1.trans (opsTask_step (h.step s1) hu)
  exact s2.trans (opsTask_step (h.step s2) hj)

/-- The first task, with the empty matrix for its nullspace. -/
theorem opsTask_first (h : Inv E b) (hd : 0 < b.dof) {J : DMat} (hJ : J.cols = b.dof)
    (ddx : ℕ → ℝ) : ∃ t, b.opsTask E J ddx ⟨0, 0, fun _ _ => 0⟩ = .ok t ∧
      t.2.1.rows = b.dof ∧ t.2.1.cols = b.dof := by
  obtain ⟨tau, N', b2, hr⟩ := opsInverseDynamics_total (o := OpsOpts.make)
    (N := ⟨0, 0, fun _ _ => 0⟩) h hJ (.inl rfl) hd ddx noExt rfl rfl rfl
  refine ⟨(tau, N', b2), by unfold opsTask; rw [hr]; rfl, ?_⟩
  obtain ⟨l, s1, s2, s3, s4, -, -, -, -, -, hNu, -, k0, k1, k2, k3, k4, k5⟩ :=
    opsInverseDynamics_parts h hr
  obtain ⟨s, -, hNu⟩ := Out.bind_ok hNu
  obtain ⟨-, -, hNu⟩ := Out.bind_ok hNu
  simp only [DMat.size, Nat.mul_zero, if_true, Out.ok.injEq, Prod.mk.injEq, Option.some.injEq] at hNu
  rw [← hNu.1]
  exact ⟨k4.dof_eq, k4.dof_eq⟩

theorem ikTorque_total (h : Inv E b) (hd : 0 < b.dof) {q : List ℝ} (hq : q.length = b.dof)
    (m : Measured) : ∃ t, b.ikTorque E C q b.dof m = .ok t := by
  obtain ⟨l, hl⟩ := opsInertia_total (e := 0) (J := jac6 b.dof m.J) h rfl hd
  have h6 : b.opsIsSingular E (jac6 b.dof m.J) 0 = .ok (l.2.c.ops.singular, l.2) := by
    unfold opsIsSingular; rw [hl]; rfl
  have s1 := (opsIsSingular_run h h6).1
  have e1 := s1.dof_eq
  dsimp only at s1 e1
  obtain ⟨t, ht, hN⟩ := opsTask_first (h.step s1) (by rw [e1]; exact hd)
    (J := if l.2.c.ops.singular then jac3 b.dof m.J else jac6 b.dof m.J)
    (by split <;> exact e1.symm) (ddxDw m.pos.1 m.ori.1)
  have s2 := s1.trans (opsTask_step (h.step s1) ht)
  have e2 := s2.dof_eq
  have hneed : Out.need (q.length = t.2.2.dof) = .ok () := by
    unfold Out.need
    rw [if_pos]
    rw [e2]; exact hq
  obtain ⟨j, hj, -⟩ := opsTask_total (h.step s2) (by rw [e2]; exact hd) (J := DMat.id b.dof)
    (N := t.2.1) e2.symm ⟨by rw [hN.1, e1, e2], by rw [hN.2, e1, e2]⟩
    (padFin (C.pdN t.2.2.dof (vecOf t.2.2.dof t.2.2.q) (vecOf t.2.2.dof q)
      (vecOf t.2.2.dof t.2.2.dq) ikGains 0).1)
  unfold ikTorque
  simp only [h6, Out.bind, ht, jointPd, hneed, hj]
  exact ⟨_, rfl⟩

/-- Task acceleration caused by the torques of an iteration. -/
theorem ikTorque_task (h : Careful E T b d) (hm : b.Massive)
    (hn : DefiniteForm b.dof b.inertia.1) (h0 : (0 : ℝ) ∈ T) {b' : Body} (hs : Step E b b')
    (ht : TolC E T b'.c.ops) (hd : 0 < b.dof) {q : List ℝ} {m : Measured}
    {t : (ℕ → ℝ) × Body} (hr : b'.ikTorque E C q b.dof m = .ok t) {K : DMat}
    (hK : b.Singular E (jac6 b.dof m.J) 0 ∧ K = jac3 b.dof m.J ∨
      ¬ b.Singular E (jac6 b.dof m.J) 0 ∧ K = jac6 b.dof m.J) (hR : b.Regular E T K) :
    K.mat K.rows b.dof *ᵥ b.massM⁻¹ *ᵥ vec b.dof t.1 = vec K.rows (ddxDw m.pos.1 m.ori.1) := by
  have hdof := hs.dof_eq
  obtain ⟨s, h6, hr⟩ := Out.bind_ok hr
  obtain ⟨u, hu, hr⟩ := Out.bind_ok hr
  obtain ⟨ddq, -, hr⟩ := Out.bind_ok hr
  obtain ⟨j, hj, hr⟩ := Out.bind_ok hr
  cases hr
  have st6 := hs.trans (opsIsSingular_run (h.inv.step hs) h6).1
  have t6 := opsIsSingular_tol ht h6
  rw [hdof] at h6 hu
  have hsg := singular_iff h.inv hs (J := jac6 b.dof m.J) rfl hd h6
  have hKe : (if s.1 then jac3 b.dof m.J else jac6 b.dof m.J) = K := by
    rcases hK with ⟨h1, h2⟩ | ⟨h1, h2⟩
    · rw [if_pos (hsg.2 h1), h2]
    · rw [if_neg (fun h => h1 (hsg.1 h)), h2]
  rw [hKe] at hu
  obtain ⟨k1, -, k3, k4⟩ := opsTask_pair h hm hn h0 st6 t6 hR (.inl ⟨rfl, rfl⟩) hu
  show K.mat K.rows b.dof *ᵥ b.massM⁻¹ *ᵥ (vec b.dof u.1 + vec b.dof j.1) = _
  rw [Matrix.mulVec_add, Matrix.mulVec_add, k3, k4 _ k1 _ _ hj, add_zero]

theorem Reads.unique {l : ℤ} {o : Vec3} {J J' : ℕ → Motion} {x x' : Vec3} {R R' : Mat3}
    (h : b.Reads l o J x R) (h' : b.Reads l o J' x' R') : J' = J ∧ x' = x ∧ R' = R := by
  obtain ⟨⟨b1, j1⟩, ⟨b2, p1⟩, ⟨b3, o1⟩⟩ := h
  obtain ⟨⟨c1, j2⟩, ⟨c2, p2⟩, ⟨c3, o2⟩⟩ := h'
  refine ⟨?_, ?_, ?_⟩
  · have := j2.symm.trans j1; cases this; rfl
  · have := p2.symm.trans p1; cases this; rfl
  · have := o2.symm.trans o1; cases this; rfl

theorem had_const (c : ℝ) (v : Vec3) : Vec3.had ⟨c, c, c⟩ v = c • v := by
  ext <;> simp [Vec3.had]

/-- The torques of an iteration follow the law. -/
theorem ikTorque_law (h : Careful E T b d) (hm : b.Massive) (h0 : (0 : ℝ) ∈ T) (hL : C.Law U)
    (hd : 0 < b.dof) {a : IkGoal C} {m : Measured × Body} (hme : b.ikMeasure C a = .ok m)
    {q : List ℝ} {t : (ℕ → ℝ) × Body} (ht : m.2.ikTorque E C q b.dof m.1 = .ok t) :
    IkLaw E C T a b t.1 := by
  intro hn J x R hR o hg hf hrest
  obtain ⟨s1, ops, J', x', R', hR', hm'⟩ := ikMeasure_run h.inv hme
  obtain ⟨rfl, rfl, rfl⟩ := Reads.unique hR hR'
  have hJ : m.1.J = J' := by rw [hm']
  have fd := fd_matrix h.reach hm hn t.1 noExt o hf
  rw [idSpec_gravity hrest, hg] at fd
  simp only [Bool.false_eq_true, if_false, sub_zero] at fd
  have hp : m.1.pos.1 = -((100 : ℝ) • (x' - a.xDes)) - (20 : ℝ) • (jacVel b.dof J' b.dqFun).lin := by
    rw [hm']
    show (C.pd3 _ _ _ _ _).1 = _
    rw [hL.pd3_acc _ _ _ _ _ _ le_rfl, had_const, had_const]
  have ho : m.1.ori.1 = -((100 : ℝ) • C.oriErr (C.ofRot R') a.quatDes) -
      (20 : ℝ) • (jacVel b.dof J' b.dqFun).ang := by
    rw [hm']
    show (C.pdQ _ _ _ _ _).1 = _
    unfold ikGains
    rw [hL.pdQ_acc _ _ _ _ _ _ le_rfl, hL.pdQ_err _ _ _ _ _ 0 (0, 0) 0]
    rfl
  refine ⟨fun hs hreg => ?_, fun hs hreg => ?_⟩
  · have key := ikTorque_task h hm hn h0 s1 (by rw [ops]; exact h.tol) hd ht
      (K := jac6 b.dof J') (.inr ⟨by rw [hJ]; exact hs, by rw [hJ]⟩) hreg
    rw [← fd] at key
    apply Motion.ext_entry
    intro i
    have := congrFun key i
    rw [show (((jac6 b.dof J').mat (jac6 b.dof J').rows b.dof *ᵥ
      vec b.dof (b.fd E t.1 noExt o).1) i) = _ from jac6_mulVec _ _ _ i] at this
    refine this.trans ?_
    show Motion.entry ⟨_, _⟩ i = _
    rw [hp, ho]
  · have key := ikTorque_task h hm hn h0 s1 (by rw [ops]; exact h.tol) hd ht
      (K := jac3 b.dof J') (.inl ⟨by rw [hJ]; exact hs, by rw [hJ]⟩) hreg
    rw [← fd] at key
    have hall : ∀ i : Fin 3, (jacVel b.dof J' (b.fd E t.1 noExt o).1).entry i =
        ddxDw m.1.pos.1 m.1.ori.1 i := by
      intro i
      have := congrFun key i
      rw [show (((jac3 b.dof J').mat (jac3 b.dof J').rows
        b.dof *ᵥ vec b.dof (b.fd E t.1 noExt o).1) i) = _ from jac3_mulVec _ _ _ i] at this
      exact this
    rw [← hp]
    exact Vec3.ext (hall 0) (hall 1) (hall 2)

/-! ## The loop -/

theorem Body.StateOnly.eq {b' : Body} (h : StateOnly b b') :
    b' = { b with q := b'.q, dq := b'.dq, c := b'.c } := by
  cases b; cases b'
  obtain ⟨h1, h2, h3, h4, h5, h6, h7, -, -⟩ := h
  simp only at h1 h2 h3 h4 h5 h6 h7
  subst h1 h2 h3 h4 h5 h6 h7
  rfl

/-- The functions of a given configuration depend on the links and the base transform only. -/
theorem posOriQ_congr {b' : Body} (hr : b'.rbs = b.rbs) (hT : b'.T0 = b.T0) :
    b'.positionQ = b.positionQ ∧ b'.orientationQ = b.orientationQ := by
  have hrb : b'.rb = b.rb := by unfold Body.rb; rw [hr]
  have hd : b'.dof = b.dof := by unfold Body.dof; rw [hr]
  have hp : b'.par = b.par := by unfold Body.par; rw [hrb]
  have ht : b'.TpAt = b.TpAt := by unfold Body.TpAt; rw [hrb]
  have hc : ∀ {α : Type} (u : ℕ → ℝ) (f : Iso → α → α) (n : ℕ) (o : Option ℕ) (z : α),
      b'.climb u f n o z = b.climb u f n o z := by
    intro α u f n
    induction n with
    | zero => intro o z; rfl
    | succ n ih =>
      intro o z
      cases o with
      | none => rfl
      | some i => unfold Body.climb; rw [hp, ht]; exact ih _ _
  have hst : b'.climbStart = b.climbStart := by
    funext i
    unfold Body.climbStart Body.index Body.resolve
    rw [hd]
  have e1 : b'.positionQ = b.positionQ := by
    funext u i x
    unfold Body.positionQ
    rw [hst, hT, hd]
    simp only [hc]
  have e2 : b'.orientationQ = b.orientationQ := by
    funext u i
    unfold Body.orientationQ
    rw [hst, hT, hd]
    simp only [hc]
  exact ⟨e1, e2⟩

theorem IkMet.congr {b' : Body} (hr : b'.rbs = b.rbs) (hT : b'.T0 = b.T0) {a : IkGoal C} {l : ℤ}
    {q : List ℝ} : IkMet C b' a l q ↔ IkMet C b a l q := by
  unfold IkMet
  rw [(posOriQ_congr hr hT).1, (posOriQ_congr hr hT).2]

theorem Body.StateOnly.met {b' : Body} (h : StateOnly b b') {a : IkGoal C} {l : ℤ} {q : List ℝ} :
    IkMet C b' a l q ↔ IkMet C b a l q := IkMet.congr h.rbs h.T0

theorem Body.StateOnly.massive {b' : Body} (h : StateOnly b b') (hm : b.Massive) : b'.Massive := by
  rw [h.eq]; exact ⟨hm.symm, hm.nonneg, hm.merge, hm.tree⟩

theorem Body.StateOnly.link {b' : Body} (h : StateOnly b b') {l : ℤ} {k : ℕ} (hk : b.LinkIdx l k) :
    b'.LinkIdx l k := by
  rw [h.eq]; exact hk

theorem Body.StateOnly.dof {b' : Body} (h : StateOnly b b') : b'.dof = b.dof := by
  unfold Body.dof; rw [h.rbs]

theorem setQ_self (ht : b.Tree) : b.setQ b.q = .ok b := by
  unfold Body.setQ
  rw [if_neg, if_pos rfl]
  rw [not_not]; exact ht.lq

/-- The stopping test says that the goal is met, with the orientation of the last link. -/
theorem ikDone_iff (h : Reach E b d) (hL : C.Law U) (hd : 0 < b.dof) {a : IkGoal C} {k : ℕ}
    (hk : b.LinkIdx a.link k) {m : Measured × Body} (hme : b.ikMeasure C a = .ok m) :
    ikDone m.1 ↔ IkMet C b a (-1) b.q := by
  obtain ⟨-, -, J, x, R, ⟨-, ⟨b2, p⟩, ⟨b3, o⟩⟩, hm'⟩ := ikMeasure_run h.inv hme
  have e1 := (C17_variants_agree_partial h (setQ_self h.inv.tree) hk a.offset).1
  have e2 := (C17_variants_agree_partial h (setQ_self h.inv.tree) (lastLink hd) 0).2.1
  rw [p] at e1
  rw [o] at e2
  have c1 : m.1.pos.2 = x - a.xDes := by rw [hm']; exact hL.pd3_err _ _ _ _ _
  have c2 : m.1.ori.2 = C.oriErr (C.ofRot R) a.quatDes := by
    rw [hm']
    show (C.pdQ _ _ _ _ _).2 = _
    rw [hL.pdQ_err _ _ _ _ _ 0 (0, 0) 0]
    rfl
  have c3 : ikTol * ikTol = 0.001 ^ 2 := by unfold ikTol; norm_num
  unfold ikDone
  rw [c1, c2, c3]
  constructor
  · rintro ⟨h1, h2⟩
    exact ⟨x, R, e1, e2, h1, h2⟩
  · rintro ⟨x', R', f1, f2, h1, h2⟩
    have g1 := f1.symm.trans e1
    have g2 := f2.symm.trans e2
    cases g1; cases g2
    exact ⟨h1, h2⟩

theorem ikLoop_run (h0 : (0 : ℝ) ∈ T) (hL : C.Law U) {a : IkGoal C} {qDes : List ℝ} {k : ℕ} (n : ℕ) :
    ∀ {s : Option ℕ} {b : Body} {d : Bool}, Careful E T b d → b.Massive → b.LinkIdx a.link k →
      qDes.length = b.dof → (s = none ∨ s = some b.dof) →
      ∃ b1 s1 i b2, ikLoop E C a qDes n s b = .ok (b1, s1) ∧ i ≤ n ∧
        s1 = (if i = 0 then s else some b.dof) ∧ b1.q = b2.q ∧ b1.q.length = b.dof ∧
        IkRun E C T a i b b2 ∧ (i < n → IkMet C b a (-1) b1.q) := by
  induction n with
  | zero =>
    intro s b d h hm hk hq hs
    exact ⟨b, s, 0, b, rfl, le_rfl, rfl, rfl, h.inv.tree.lq, .stop b, fun h => absurd h (by omega)⟩
  | succ n ih =>
    intro s b d h hm hk hq hs
    have hd : 0 < b.dof := lt_of_le_of_lt (Nat.zero_le _) hk.1
    obtain ⟨m, hme⟩ := ikMeasure_total (C := C) h.inv hd hk
    have s1 := (ikMeasure_run h.inv hme).1
    have hq1 : m.2.q = b.q := by obtain ⟨c', e, -⟩ := s1; rw [e]
    by_cases hdone : ikDone m.1
    · refine ⟨m.2, s, 0, b, ?_, Nat.zero_le _, rfl, hq1, by rw [hq1]; exact h.inv.tree.lq, .stop b,
        fun _ => ?_⟩
      · simp only [ikLoop, hme, Out.bind, if_pos hdone]
      · rw [hq1]; exact (ikDone_iff h.reach hL hd hk hme).1 hdone
    · have hnot : ¬ IkMet C b a (-1) b.q := fun hc => hdone ((ikDone_iff h.reach hL hd hk hme).2 hc)
      have hgs : s.getD b.dof = b.dof := by rcases hs with rfl | rfl <;> rfl
      obtain ⟨t, ht⟩ := ikTorque_total (C := C) (h.inv.step s1) (by rw [s1.dof_eq]; exact hd)
        (q := qDes) (by rw [s1.dof_eq]; exact hq) m.1
      rw [s1.dof_eq] at ht
      have s2 := s1.trans (ikTorque_step (h.inv.step s1) ht)
      obtain ⟨d1, c1⟩ := ikMeasure_careful h hme
      obtain ⟨d2, c2⟩ := ikTorque_careful c1 h0 ht
      have hsy : t.2.fresh.SymI := by rw [s2.fresh_eq]; exact hm.symI
      have hpo : t.2.fresh.PosMass := by rw [s2.fresh_eq]; exact hm.posMass h.inv.tree
      obtain ⟨b', hb', hat'⟩ := integrate_scheme (h.inv.step s2) hsy hpo (c := cache0)
        (by constructor <;> rfl) t.1 (1 / 1000) noExt (IntOpts.make false)
      obtain ⟨b1, hb1, hat⟩ := integrate_scheme h.inv hm.symI (hm.posMass h.inv.tree) (c := cache0)
        (by constructor <;> rfl) t.1 (1 / 1000) noExt (IntOpts.make false)
      have hso : StateOnly b t.2 := by
        obtain ⟨c', e, -⟩ := s2
        rw [e]
        exact ⟨rfl, rfl, rfl, rfl, rfl, rfl, rfl, rfl, rfl⟩
      have hso' : StateOnly b b' := hso.trans (integrate_stateOnly (h.inv.step s2).tree hb')
      have e1 := hat'.q
      have e2 := hat'.dq
      have hqd : b'.q = b1.q ∧ b'.dq = b1.dq := by
        rw [hat.q, hat.dq]
        clear hat' hat hb' hb1 hso' hsy hpo ht c2
        revert e1 e2
        obtain ⟨c', e, -⟩ := s2
        rw [e]
        exact fun e1 e2 => ⟨e1, e2⟩
      have c3 : ∃ d3, Careful E T b' d3 := by
        refine ⟨_, Careful.step (b' := b') (.integrate t.1 (1 / 1000) noExt (IntOpts.make false)) c2
          trivial trivial ?_⟩
        simp only [Op.exec, Op.step, hb']
      obtain ⟨d3, c3⟩ := c3
      obtain ⟨r1, r2, i, r3, k1, k2, k3, k4, k5, k6, k7⟩ := ih (s := some b.dof) c3 (hso'.massive hm)
        (hso'.link hk) (by rw [hso'.dof]; exact hq) (.inr (by rw [hso'.dof]))
      refine ⟨r1, r2, i + 1, r3, ?_, by omega, ?_, k4, by rw [k5, hso'.dof],
        .step hnot (ikTorque_law h hm h0 hL hd hme ht) hb1 hqd.1 hqd.2 hso' ⟨d3, c3⟩ k6,
        fun hi => hso'.met.1 (k7 (by omega))⟩
      · simp only [ikLoop, hme, Out.bind, if_neg hdone, hgs, ht, hb']
        exact k1
      · rw [k3, if_neg (Nat.succ_ne_zero i), hso'.dof]
        split <;> rfl

theorem copy_careful (h : Careful E T b d) :
    ∃ d', Careful E T { b with inertiaBase := defaultInertiaBase } d' := by
  refine ⟨_, Careful.step (b' := { b with inertiaBase := defaultInertiaBase })
    (.setInertiaBase defaultInertiaBase) h trivial trivial ?_⟩
  have : Inertia.ofFlat defaultInertiaBase.mass defaultInertiaBase.com defaultInertiaBase.flat =
      defaultInertiaBase := by
    ext <;> simp [Inertia.ofFlat, Inertia.flat, defaultInertiaBase]
  simp only [Op.exec, Op.step, setInertiaBase, this]
  rw [if_neg]
  norm_num [defaultInertiaBase]

/-- C43: `InverseKinematics` always answers, after at most 10000 iterations of the simulated motion
that its law causes; it stops earlier only with the point and the orientation of the last link within
tolerance of the goal, and never goes on once they are.  The static matrix must be unset or of the
size of this body. -/
theorem C43_stops (h : Careful E T b d) (hm : b.Massive) (h0 : (0 : ℝ) ∈ T) (hL : C.Law U)
    {a : IkGoal C} {k : ℕ} (hk : b.LinkIdx a.link k) {s : Option ℕ}
    (hs : s = none ∨ s = some b.dof) :
    ∃ q s' n b0 b', b.inverseKinematics E C a s = .ok (q, s') ∧ n ≤ 10000 ∧
      s' = (if n = 0 then s else some b.dof) ∧ q.length = b.dof ∧
      b.ObsEq b0 ∧ IkRun E C T a n b0 b' ∧ q = b'.q ∧
      (n < 10000 → IkMet C b a (-1) q) := by
  obtain ⟨d', h'⟩ := copy_careful h
  obtain ⟨b1, s1, i, b2, k1, k2, k3, k4, k5, k6, k7⟩ := ikLoop_run h0 hL (a := a) (qDes := b.q)
    (k := k) ikMax h' ⟨hm.symm, hm.nonneg, hm.merge, hm.tree⟩ hk h.inv.tree.lq hs
  refine ⟨b1.q, s1, i, { b with inertiaBase := defaultInertiaBase }, b2, ?_, k2, k3, k5,
    ⟨rfl, rfl, rfl, rfl, rfl, rfl, rfl, rfl⟩, k6, k4, fun hn => 
      (IkMet.congr (b := b) (b' := { b with inertiaBase := defaultInertiaBase }) rfl rfl).1 (k7 hn)⟩
  unfold inverseKinematics
  rw [k1]
  rfl

/-- C43: when the last link is asked for, an early stop means that its pose is reached. -/
theorem C43_reached_partial (h : Careful E T b d) (hm : b.Massive) (h0 : (0 : ℝ) ∈ T) (hL : C.Law U)
    {a : IkGoal C} (hk : b.LinkIdx a.link (b.dof - 1)) {s : Option ℕ}
    (hs : s = none ∨ s = some b.dof) :
    ∃ q s' n b0 b', b.inverseKinematics E C a s = .ok (q, s') ∧ n ≤ 10000 ∧ b.ObsEq b0 ∧
      IkRun E C T a n b0 b' ∧ q = b'.q ∧ (n < 10000 → IkMet C b a a.link q) := by
  obtain ⟨q, s', n, b0, b', k1, k2, -, -, k5, k6, k7, k8⟩ := C43_stops h hm h0 hL hk hs
  refine ⟨q, s', n, b0, b', k1, k2, k5, k6, k7, fun hn => ?_⟩
  have hd : 0 < b.dof := lt_of_le_of_lt (Nat.zero_le _) hk.1
  obtain ⟨x, R, e1, e2, e3⟩ := k8 hn
  refine ⟨x, R, e1, ?_, e3⟩
  rw [← e2]
  unfold orientationQ
  rw [Body.climbStart_ok hk.index, Body.climbStart_ok (lastLink hd).index]

/-- C43: a goal that is met already gives the joint positions of the body. -/
theorem C43_met (h : Careful E T b d) (hL : C.Law U)
    {a : IkGoal C} {k : ℕ} (hk : b.LinkIdx a.link k) (hmet : IkMet C b a (-1) b.q) (s : Option ℕ) :
    b.inverseKinematics E C a s = .ok (b.q, s) := by
  obtain ⟨d', h'⟩ := copy_careful h
  have hd : 0 < b.dof := lt_of_le_of_lt (Nat.zero_le _) hk.1
  set c : Body := { b with inertiaBase := defaultInertiaBase } with hc
  have hk' : c.LinkIdx a.link k := hk
  obtain ⟨m, hme⟩ := ikMeasure_total (C := C) h'.inv hd hk'
  have hq1 : m.2.q = b.q := by obtain ⟨c', e, -⟩ := (ikMeasure_run h'.inv hme).1; rw [e]
  have hdone : ikDone m.1 := (ikDone_iff h'.reach hL hd hk' hme).2
    ((IkMet.congr (b := b) (b' := c) rfl rfl).2 hmet)
  have hloop : ∀ n, ikLoop E C a b.q (n + 1) s c = .ok (m.2, s) := by
    intro n
    simp only [ikLoop, hme, Out.bind, if_pos hdone]
  unfold inverseKinematics
  rw [show ikMax = 9999 + 1 from rfl, hloop]
  show Out.ok (m.2.q, s) = _
  rw [hq1]

/-! ## What does not hold -/

theorem ikMet_iff (h : Reach E b d) {a : IkGoal C} {k l' : ℕ} {l : ℤ} (hk : b.LinkIdx a.link k)
    (hl : b.LinkIdx l l') : IkMet C b a l b.q ↔
      (let e := (b.freshTw k).app a.offset - a.xDes
       let r := C.oriErr (C.ofRot (b.freshTw l').R) a.quatDes
       e.dot e < 0.001 ^ 2 ∧ r.dot r < 0.001 ^ 2) := by
  obtain ⟨b2, p⟩ := position_of_index h.inv hk.index a.offset
  obtain ⟨b3, o⟩ := orientation_of_index h.inv hl.index
  have e1 := (C17_variants_agree_partial h (setQ_self h.inv.tree) hk a.offset).1
  have e2 := (C17_variants_agree_partial h (setQ_self h.inv.tree) hl 0).2.1
  rw [p] at e1
  rw [o] at e2
  unfold IkMet
  constructor
  · rintro ⟨x, R, f1, f2, h1⟩
    have g1 := f1.symm.trans e1
    have g2 := f2.symm.trans e2
    cases g1; cases g2
    exact h1
  · intro h1
    exact ⟨_, _, e1, e2, h1⟩

/-- C43 does not hold for links other than the last: asked to keep link `k` in place and to give it
the orientation of the last link, `InverseKinematics` returns at once the present configuration,
however different the orientation of link `k` is. -/
theorem C43_violated_link (h : Careful E T b d) (hm : b.Massive) (h0 : (0 : ℝ) ∈ T) (hL : C.Law U)
    {l : ℤ} {k : ℕ} (hk : b.LinkIdx l k)
    (hdiff : 0.001 ^ 2 ≤ (C.oriErr (C.ofRot (b.freshTw k).R) (C.ofRot (b.freshTw (b.dof - 1)).R)).dot
      (C.oriErr (C.ofRot (b.freshTw k).R) (C.ofRot (b.freshTw (b.dof - 1)).R))) (s : Option ℕ) :
    ∃ a : IkGoal C, a.link = l ∧ b.inverseKinematics E C a s = .ok (b.q, s) ∧
      ¬ IkMet C b a l b.q := by
  have hd : 0 < b.dof := lt_of_le_of_lt (Nat.zero_le _) hk.1
  set a : IkGoal C := ⟨(b.freshTw k).app 0, C.ofRot (b.freshTw (b.dof - 1)).R, l, 0⟩ with ha
  have hk' : b.LinkIdx a.link k := hk
  have hrot : (b.freshTw (b.dof - 1)).R.IsRot :=
    h.inv.rigid.freshTw h.inv.tree _ (by omega)
  refine ⟨a, rfl, C43_met h hL hk' ((ikMet_iff h.reach hk' (lastLink hd)).2 ⟨?_, ?_⟩) s,
    fun hc => ?_⟩
  · simp only [ha, sub_self]
    norm_num [Vec3.dot]
  · have e : C.oriErr (C.ofRot (b.freshTw (b.dof - 1)).R) a.quatDes = 0 :=
      hL.ori_zero _ _ _ _ _ (hL.rot_unit _ hrot).1 (hL.rot_unit _ hrot).1 rfl
    rw [e]
    norm_num [Vec3.dot]
  · exact absurd ((ikMet_iff h.reach hk' hk).1 hc).2 (not_lt.2 hdiff)

/-- C43 does not hold when an earlier call in the process was about a body of another size: the static
matrix has the wrong size and the product with the nullspace matrix is undefined, unless the goal is
met at once. -/
theorem C43_violated_static (h : Careful E T b d) (hL : C.Law U)
    {a : IkGoal C} {k : ℕ} (hk : b.LinkIdx a.link k) {n : ℕ} (hn : n ≠ b.dof)
    (hmet : ¬ IkMet C b a (-1) b.q) : b.inverseKinematics E C a (some n) = .ub := by
  obtain ⟨d', h'⟩ := copy_careful h
  have hd : 0 < b.dof := lt_of_le_of_lt (Nat.zero_le _) hk.1
  set c : Body := { b with inertiaBase := defaultInertiaBase } with hc
  have hk' : c.LinkIdx a.link k := hk
  have hdc : 0 < c.dof := hd
  obtain ⟨m, hme⟩ := ikMeasure_total (C := C) h'.inv hdc hk'
  have s1 := (ikMeasure_run h'.inv hme).1
  have hdone : ¬ ikDone m.1 := fun hc' => hmet ((IkMet.congr (b := b) (b' := c) rfl rfl).1
    ((ikDone_iff h'.reach hL hdc hk' hme).1 hc'))
  have hi := h'.inv.step s1
  have hdm : 0 < m.2.dof := by rw [s1.dof_eq]; exact hdc
  obtain ⟨l, hl⟩ := opsInertia_total (e := 0) (J := jac6 m.2.dof m.1.J) hi rfl hdm
  have h6 : m.2.opsIsSingular E (jac6 m.2.dof m.1.J) 0 = .ok (l.2.c.ops.singular, l.2) := by
    unfold opsIsSingular; rw [hl]; rfl
  have s2 := (opsIsSingular_run hi h6).1
  have e2 := s2.dof_eq
  dsimp only at s2 e2
  obtain ⟨t, ht, hN⟩ := opsTask_first (hi.step s2) (by rw [e2]; exact hdm)
    (J := if l.2.c.ops.singular then jac3 m.2.dof m.1.J else jac6 m.2.dof m.1.J)
    (by split <;> exact e2.symm) (ddxDw m.1.pos.1 m.1.ori.1)
  have s3 := s2.trans (opsTask_step (hi.step s2) ht)
  have hneed : Out.need (b.q.length = t.2.2.dof) = .ok () := by
    unfold Out.need
    rw [if_pos]
    rw [s3.dof_eq, s1.dof_eq]; exact h.inv.tree.lq
  have hub : m.2.ikTorque E C b.q n m.1 = .ub := by
    unfold ikTorque
    simp only [h6, Out.bind, ht, jointPd, hneed]
    unfold opsTask opsInverseDynamics opsFits Out.need
    dsimp only
    rw [if_neg]
    · rfl
    · intro hp
      have hr : t.2.1.rows = b.dof := by rw [hN.1, e2, s1.dof_eq]; rfl
      have hcol : t.2.1.cols = b.dof := by rw [hN.2, e2, s1.dof_eq]; rfl
      have : 0 < t.2.1.size := by unfold DMat.size; rw [hr, hcol]; exact Nat.mul_pos hd hd
      exact hn ((hp this).trans hr)
  have hloop : ∀ i, ikLoop E C a b.q (i + 1) (some n) c = .ub := by
    intro i
    simp only [ikLoop, hme, Out.bind, if_neg hdone, Option.getD_some, hub]
  unfold inverseKinematics
  rw [show ikMax = 9999 + 1 from rfl, hloop]
  rfl

/-- Two sliders, the second mounted at a quarter turn. -/
noncomputable def bent : Body where
  rbs := [{ ballRB .px with id := 0, idParent := -1 },
    { ballRB .px with T := quarterTurn, id := 1, idParent := 0 }]
  q := [0, 0]
  dq := [0, 0]
  g := ⟨0, 0, -9.81⟩
  load := fun _ => none
  T0 := 1
  inertiaBase := ⟨1, 0, 0⟩
  anc := [[0], [0, 1]]
  sub := [[0, 1], [1]]
  c := ((Body.init cache0).c.expand 0).expand 1

theorem bent_reach (E : Ext) : ∃ d, Reach E bent d := by
  refine reach_execAll [.addRigidBody (ballRB .px) (-1),
    .addRigidBody { ballRB .px with T := quarterTurn } 0] (Reach.init cache0) ?_ ?_
  · intro op hop
    simp only [List.mem_cons, List.not_mem_nil, or_false] at hop
    rcases hop with rfl | rfl
    · exact Iso.valid_one
    · exact quarterTurn_valid
  · simp [execAll, Op.exec, Op.step, addRigidBody, Out.map, Out.bind, Body.init, pushSub, bent]

theorem bent_definite : bent.Definite := by
  have h0 : ∀ k < bent.dof, k = 0 ∨ k = 1 := fun k hk => by
    have : k < 2 := hk
    omega
  refine ⟨fun k hk => ?_, fun k hk => ?_, fun k hk v hv => ?_, fun k hk L hL => ?_, fun k hk => ?_⟩
  · rcases h0 k hk with rfl | rfl <;> (show (0 : ℝ) < 1; norm_num)
  · rcases h0 k hk with rfl | rfl <;> exact ball_phys.2.1
  · rcases h0 k hk with rfl | rfl <;> exact ball_pd v hv
  · cases hL
  · rcases h0 k hk with rfl | rfl
    all_goals
      intro h
      have := congrArg (fun m : Motion => m.lin.x) h
      simp [bent, Body.rb, ballRB, mkJoint, JType.subspace] at this

theorem bent_tw : bent.freshTw 0 = 1 ∧ bent.freshTw 1 = quarterTurn := by
  constructor
  · show (1 : Iso) * ((1 : Iso) * JType.px.Tjoint 0) = 1
    rw [Tjoint_zero]
    ext <;> simp
  · show (1 : Iso) * ((1 : Iso) * JType.px.Tjoint 0) * (quarterTurn * JType.px.Tjoint 0) = quarterTurn
    rw [Tjoint_zero]
    ext <;> simp

/-- C43: the first link of the two sliders is asked to turn by a quarter; the answer is the
configuration in which it is not turned at all. -/
theorem C43_violated_witness : ∃ (d : Bool) (a : IkGoal ctl0), Careful ext0 Set.univ bent d ∧
    a.link = 0 ∧ bent.inverseKinematics ext0 ctl0 a none = .ok ([0, 0], none) ∧
    ¬ IkMet ctl0 bent a 0 [0, 0] := by
  obtain ⟨d, h⟩ := bent_reach ext0
  have hl : bent.LinkIdx 0 0 := ⟨by show 0 < 2; omega, .inl rfl⟩
  obtain ⟨a, h1, h2, h3⟩ := C43_violated_link (C := ctl0) (U := Mat3.IsRot) h.careful
    (bent_definite.massive h.inv.tree) trivial ctl0_law hl (by
      rw [show bent.dof - 1 = 1 from rfl, bent_tw.1, bent_tw.2]
      show _ ≤ (turnErr (1 : Iso).R quarterTurn.R).dot (turnErr (1 : Iso).R quarterTurn.R)
      simp [turnErr, quarterTurn, Vec3.dot, Mat3.T]
      norm_num) none
  exact ⟨d, a, h.careful, h1, h2, h3⟩

/-- C43: the goal of the last slider is a metre away; a call for the single slider just before makes
the call for the two sliders undefined, while on its own it answers. -/
theorem C43_violated_calls : ∃ (d d' : Bool) (q q' : List ℝ) (s s' : Option ℕ),
    let a : IkGoal ctl0 := ⟨⟨1, 0, 0⟩, (1 : Mat3), -1, 0⟩
    Careful ext0 Set.univ (solo .px) d ∧ Careful ext0 Set.univ bent d' ∧
    (solo .px).inverseKinematics ext0 ctl0 a none = .ok (q, s) ∧
    bent.inverseKinematics ext0 ctl0 a none = .ok (q', s') ∧
    bent.inverseKinematics ext0 ctl0 a s = .ub := by
  obtain ⟨d', h'⟩ := bent_reach ext0
  obtain ⟨d, h⟩ := solo_reach ext0 .px
  have hS : JType.subspace .px ≠ 0 := fun e => by
    have := congrArg (fun m : Motion => m.lin.x) e
    simp [JType.subspace] at this
  have hm := (solo_definite hS).massive h.inv.tree
  have hm' := bent_definite.massive h'.inv.tree
  set a : IkGoal ctl0 := ⟨⟨1, 0, 0⟩, (1 : Mat3), -1, 0⟩ with ha
  have hl : (solo .px).LinkIdx a.link 0 := lastLink Nat.one_pos
  have hl' : bent.LinkIdx a.link 1 := lastLink (b := bent) (by show 0 < 2; omega)
  obtain ⟨q, s, n, b0, b1, k1, k2, k3, -, o5, k5, k6, k7⟩ := C43_stops (C := ctl0) (U := Mat3.IsRot)
    h.careful hm trivial ctl0_law hl (.inl rfl)
  obtain ⟨q', s', -, -, -, k1', -⟩ := C43_stops (C := ctl0) (U := Mat3.IsRot)
    h'.careful hm' trivial ctl0_law hl' (.inl rfl)
  have hn1 : ¬ IkMet ctl0 (solo .px) a (-1) (solo .px).q := by
    rw [ikMet_iff h hl hl, solo_tw]
    rintro ⟨h1, -⟩
    norm_num [ha, Vec3.dot, Iso.app, Mat3.mulVec] at h1
  have hn2 : ¬ IkMet ctl0 bent a (-1) bent.q := by
    rw [ikMet_iff h' hl' hl', bent_tw.2]
    rintro ⟨h1, -⟩
    norm_num [ha, Vec3.dot, Iso.app, Mat3.mulVec, quarterTurn] at h1
  have hs : s = some 1 := by
    rw [k3, if_neg]
    · rfl
    · intro hn
      subst hn
      have hmet := k7 (by norm_num)
      cases k5
      rw [k6, ← o5.q] at hmet
      exact hn1 hmet
  refine ⟨d, d', q, q', s, s', h.careful, h'.careful, k1, k1', ?_⟩
  rw [hs]
  exact C43_violated_static h'.careful ctl0_law hl' (by show 1 ≠ 2; omega) hn2

end SpatialDyn
