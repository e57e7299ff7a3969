import Verif.Spec.App
import Verif.Lemmas.DiscreteReach
import Verif.Lemmas.Field
import Verif.Props.ControlDefaults
import Verif.Props.Discrete

/-!
# Cycles of the demonstration program
-/

namespace SpatialDyn
open Body Finset

variable {E : Ext} {C : Ctl} {U : C.Quat → Prop} {b b' : Body} {d : Bool} {p : Prev}

/-- The queries the program makes. -/
def Query.Calm : Query → Prop
  | .position .. | .orientation .. | .jacobian .. | .gravity | .opsIsSingular ..
  | .opsInverseDynamics .. => True
  | _ => False

/-- Bodies obtained from `b` by such queries. -/
inductive Asked (E : Ext) (b : Body) : Body → Prop
  | refl : Asked E b b
  | ask {b1 : Body} {r : Ans × Body} (x : Query) : x.Calm → Asked E b b1 → x.run E b1 = .ok r →
      Asked E b r.2

theorem Query.Calm.safe {x : Query} (h : x.Calm) (b : Body) (d : Bool) : (Op.query x).Safe b d := by
  cases x <;> first | trivial | exact h.elim

theorem Query.Calm.ne {x : Query} (h : x.Calm) : ∀ u dt f g, x ≠ .discreteInverseDynamics u dt f g := by
  rintro u dt f g rfl
  exact h

theorem Asked.step (ha : Asked E b b') (h : Inv E b) : Step E b b' := by
  induction ha with
  | refl => exact Step.refl h
  | ask x hx _ hr ih => exact ih.trans (x.run_step (d := false) (h.step ih) (hx.safe _ _) hr)

theorem Asked.dreach (ha : Asked E b b') (h : DReach E b d p) : ∃ d', DReach E b' d' p := by
  induction ha with
  | refl => exact ⟨d, h⟩
  | @ask b1 r x hx _ hr ih =>
    obtain ⟨d1, ih⟩ := ih
    have hs := DReach.step (b' := r.2) (.query x) ih (hx.safe _ _)
      (by simp [Op.exec, Op.step, hr, Out.map, Out.bind])
      (by cases x <;> first | trivial | exact hx.elim)
    have hsame := x.run_same hr
    have e1 : r.2.q = b1.q := by unfold Same at hsame; rw [hsame]
    have e2 : r.2.dq = b1.dq := by unfold Same at hsame; rw [hsame]
    have hp : Op.prev b1 r.2 p (.query x) = p := by
      cases x <;> first
        | exact hx.elim
        | exact if_pos ⟨e1, e2⟩
    rw [hp] at hs
    exact ⟨_, hs⟩

theorem Asked.reach (ha : Asked E b b') (h : Reach E b d) : ∃ d', Reach E b' d' := by
  induction ha with
  | refl => exact ⟨d, h⟩
  | @ask b1 r x hx _ hr ih =>
    obtain ⟨d1, ih⟩ := ih
    exact ⟨_, Reach.step (b' := r.2) (.query x) ih (hx.safe _ _)
      (by simp [Op.exec, Op.step, hr, Out.map, Out.bind])⟩

theorem Asked.trans {b1 b2 b3 : Body} (h : Asked E b1 b2) (k : Asked E b2 b3) : Asked E b1 b3 := by
  induction k with
  | refl => exact h
  | ask x hx _ hr ih => exact ih.ask x hx hr

theorem Asked.position (ha : Asked E b b') {l : ℤ} {x : Vec3} {r : Vec3 × Body}
    (hr : b'.position l x = .ok r) : Asked E b r.2 := by
  have : (Query.position l x).run E b' = .ok (.vec3 r.1, r.2) := by
    simp only [Query.run, hr, Out.map, Out.bind]
  exact ha.ask (.position l x) trivial this

theorem Asked.orientation (ha : Asked E b b') {l : ℤ} {r : Mat3 × Body}
    (hr : b'.orientation l = .ok r) : Asked E b r.2 := by
  have : (Query.orientation l).run E b' = .ok (.mat3 r.1, r.2) := by
    simp only [Query.run, hr, Out.map, Out.bind]
  exact ha.ask (.orientation l) trivial this

theorem Asked.jacobian (ha : Asked E b b') {l : ℤ} {x : Vec3} {r : (ℕ → Motion) × Body}
    (hr : b'.jacobian l x = .ok r) : Asked E b r.2 := by
  have : (Query.jacobian l x).run E b' = .ok (.cols (take b'.dof r.1), r.2) := by
    simp only [Query.run, hr, Out.map, Out.bind]
  exact ha.ask (.jacobian l x) trivial this

theorem Asked.gravity (ha : Asked E b b') : Asked E b b'.gravity.2 :=
  ha.ask (r := (.vec (take b'.dof b'.gravity.1), b'.gravity.2)) .gravity trivial rfl

theorem Asked.opsIsSingular (ha : Asked E b b') {J : DMat} {e : ℝ} {r : Bool × Body}
    (hr : b'.opsIsSingular E J e = .ok r) : Asked E b r.2 := by
  have : (Query.opsIsSingular J e).run E b' = .ok (.bool r.1, r.2) := by
    simp only [Query.run, hr, Out.map, Out.bind]
  exact ha.ask (.opsIsSingular J e) trivial this

theorem Asked.opsTask (ha : Asked E b b') {J N : DMat} {x : ℕ → ℝ} {r : (ℕ → ℝ) × DMat × Body}
    (hr : b'.opsTask E J x N = .ok r) : Asked E b r.2.2 := by
  obtain ⟨s, hs, rfl⟩ := opsTask_eq hr
  have := ha.ask (r := (_, s.2.2)) (.opsInverseDynamics J x (some N) noExt false OpsOpts.make) trivial
    (by simp only [Query.run, hs, Out.map, Out.bind]; rfl)
  exact this

/-! ## Parts of a cycle -/

namespace Body

theorem appMeasure_run (h : Inv E b) (hd : 0 < b.dof) (cfg : AppCfg C) (xDes : Vec3) (i : AppInput) :
    ∃ J x R b', b.appMeasure C cfg xDes i = .ok ((⟨J, (jacVel b.dof J b.dqFun).lin,
        C.pd3 x xDes (jacVel b.dof J b.dqFun).lin (⟨i.kpKvPos.1, i.kpKvPos.1, i.kpKvPos.1⟩,
          ⟨i.kpKvPos.2, i.kpKvPos.2, i.kpKvPos.2⟩) 0, (jacVel b.dof J b.dqFun).ang,
        C.pdQ (C.near (C.ofRot R) cfg.quatDes) cfg.quatDes (jacVel b.dof J b.dqFun).ang i.kpKvOri 0⟩,
        x, C.near (C.ofRot R) cfg.quatDes), b') ∧ Asked E b b' ∧
      x = (b.freshTw (b.dof - 1)).app appOffset ∧ R = (b.freshTw (b.dof - 1)).R := by
  obtain ⟨j, hj⟩ := jacobian_total b (lastLink hd) appOffset
  have a1 := (Asked.refl (E := E)).jacobian hj
  have s1 := a1.step h
  obtain ⟨b2, hx⟩ := position_of_index (h.step s1) (l := -1) (k := b.dof - 1)
    (by rw [s1.index]; exact (lastLink hd).index) appOffset
  have a2 := a1.position hx
  have s2 := a2.step h
  obtain ⟨b3, ho⟩ := orientation_of_index (h.step s2) (l := -1) (k := b.dof - 1)
    (by rw [s2.index]; exact (lastLink hd).index)
  have a3 := a2.orientation ho
  dsimp only at a3 s2 ho
  rw [s1.freshTw] at hx
  rw [s2.freshTw] at ho
  refine ⟨j.1, _, _, b3, ?_, a3, rfl, rfl⟩
  unfold appMeasure
  simp only [hj, Out.bind, hx, ho]

theorem opsTask_first (h : Inv E b) (hd : 0 < b.dof) {J : DMat} (hJ : J.cols = b.dof) (ddx : ℕ → ℝ) :
    ∃ t, b.opsTask E J ddx ⟨0, 0, fun _ _ => 0⟩ = .ok t ∧ t.2.1.rows = b.dof ∧ t.2.1.cols = b.dof := by
  obtain ⟨tau, N', b2, hr⟩ := opsInverseDynamics_total (o := OpsOpts.make) h hJ
    (N := ⟨0, 0, fun _ _ => 0⟩) (.inl rfl) hd ddx noExt rfl rfl rfl
  refine ⟨(tau, N', b2), by unfold opsTask; rw [hr]; rfl, ?_⟩
  obtain ⟨l, s1, s2, s3, s4, -, -, -, -, -, hNu, -, k0, k1, k2, k3, k4, k5⟩ :=
    opsInverseDynamics_parts h hr
  obtain ⟨s, -, hNu⟩ := Out.bind_ok hNu
  obtain ⟨-, -, hNu⟩ := Out.bind_ok hNu
  have hz : (⟨0, 0, fun _ _ => 0⟩ : DMat).size = 0 := rfl
  simp only [if_pos hz, Out.ok.injEq, Prod.mk.injEq, Option.some.injEq] at hNu
  rw [← hNu.1]
  exact ⟨k4.dof_eq, k4.dof_eq⟩

theorem appTorque_run (h : Inv E b) (hd : 0 < b.dof) {cfg : AppCfg C} (hq : cfg.qDes.length = b.dof)
    (i : AppInput) (m : Measured) : ∃ t, b.appTorque E C cfg i m = .ok t ∧ Asked E b t.2 := by
  obtain ⟨l, hl⟩ := opsInertia_total (e := 0) (J := jac6 b.dof m.J) h rfl hd
  have h6 : b.opsIsSingular E (jac6 b.dof m.J) 0 = .ok (l.2.c.ops.singular, l.2) := by
    unfold Body.opsIsSingular; rw [hl]; rfl
  have a1 := (Asked.refl (E := E)).opsIsSingular h6
  have s1 := a1.step h
  have e1 := s1.dof_eq
  dsimp only at e1 s1
  obtain ⟨t, ht, hN⟩ := opsTask_first (h.step s1) (by rw [e1]; exact hd)
    (J := if l.2.c.ops.singular then jac3 b.dof m.J else jac6 b.dof m.J)
    (by split <;> exact e1.symm) (ddxDw m.pos.1 m.ori.1)
  have a2 := a1.opsTask ht
  have s2 := a2.step h
  have e2 := s2.dof_eq
  have hneed : Out.need (cfg.qDes.length = t.2.2.dof) = .ok () := by
    unfold Out.need
    rw [if_pos]
    rw [e2]; exact hq
  obtain ⟨j, hj, -⟩ := opsTask_total (h.step s2) (by rw [e2]; exact hd) (J := DMat.id b.dof)
    (N := t.2.1) e2.symm ⟨by rw [hN.1, e1, e2], by rw [hN.2, e1, e2]⟩
    (padFin (C.pdN t.2.2.dof (vecOf t.2.2.dof t.2.2.q) (vecOf t.2.2.dof cfg.qDes)
      (vecOf t.2.2.dof t.2.2.dq) i.kpKvJoint 0).1)
  refine ⟨(fun k => t.1 k + j.1 k + j.2.2.gravity.1 k, j.2.2.gravity.2), ?_,
    (a2.opsTask hj).gravity⟩
  unfold appTorque
  rw [h6]
  simp only [Out.bind]
  rw [ht]
  simp only [jointPd, Out.bind, hneed, hj]

/-- At rest and at the goals, the torques hold the body against gravity. -/
theorem appTorque_rest (h : Inv E b) (hL : C.Law U) {cfg : AppCfg C} (hq : cfg.qDes = b.q)
    {i : AppInput} {m : Measured} (h1 : m.pos.1 = 0) (h2 : m.ori.1 = 0)
    (hrest : ∀ k < b.dof, b.dq.getD k 0 = 0) {t : (ℕ → ℝ) × Body}
    (hr : b.appTorque E C cfg i m = .ok t) : ∀ k < b.dof, t.1 k = b.fresh.gravitySpec k := by
  have hz : ∀ i, ddxDw m.pos.1 m.ori.1 i = 0 := by
    intro i
    rw [h1, h2]
    unfold ddxDw Motion.entry
    split <;> rfl
  obtain ⟨s, hs, hr⟩ := Out.bind_ok hr
  obtain ⟨u, hu, hr⟩ := Out.bind_ok hr
  obtain ⟨ddq, hddq, hr⟩ := Out.bind_ok hr
  obtain ⟨j, hj, hr⟩ := Out.bind_ok hr
  have a1 := (Asked.refl (E := E)).opsIsSingular hs
  have a2 := a1.opsTask hu
  have a3 := a2.opsTask hj
  have st := a2.step h
  have u0 := opsTask_zero (h.step (a1.step h)) hz hu
  obtain ⟨-, -, hddq⟩ := Out.bind_ok hddq
  have hd0 : ∀ i, ddq i = 0 := by
    intro k
    have e : Out.ok ddq = _ := hddq.symm
    simp only [Out.ok.injEq] at e
    rw [e]
    unfold padFin
    split
    · next hi =>
      have hqq : u.2.2.q = b.q := by obtain ⟨c, hc, -⟩ := st; rw [hc]
      have hdd : u.2.2.dq = b.dq := by obtain ⟨c, hc, -⟩ := st; rw [hc]
      rw [hqq, hdd, hq, show i.kpKvJoint = (i.kpKvJoint.1, i.kpKvJoint.2) from rfl,
        hL.pdN_acc _ _ _ _ _ _ _ le_rfl]
      have := hrest k (by rw [← st.dof_eq]; exact hi)
      simp [vecOf]
      right
      simpa using this
    · rfl
  have hj0 := opsTask_zero (h.step st) hd0 hj
  intro k hk
  cases hr
  have s3 := a3.step h
  have g1 := (gravity_run (h.step s3)).2 k (by rw [s3.dof_eq]; exact hk)
  rw [s3.fresh_eq] at g1
  simp [u0 k, hj0 k, g1]

end Body

end SpatialDyn
