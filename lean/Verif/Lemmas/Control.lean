import Verif.Spec.Control
import Verif.Props.OpsCache
import Verif.Props.Opspace
import Verif.Lemmas.Kin

/-! The controllers step by step. -/

namespace SpatialDyn
open Matrix

theorem Body.Step.obsEq {E : Ext} {b b' : Body} (h : Body.Step E b b') : b.ObsEq b' := by
  obtain ⟨c, rfl, -⟩ := h
  exact ⟨rfl, rfl, rfl, rfl, rfl, rfl, rfl, rfl⟩

namespace Body
variable {E : Ext} {C : Ctl} {b b' : Body}

theorem position_run (h : Inv E b) {l : ℤ} {x : Vec3} {r : Vec3 × Body}
    (hr : b.position l x = .ok r) : Step E b r.2 ∧ r.2.c.ops = b.c.ops ∧
      ∃ k, b.index l = .ok k ∧ k < b.dof ∧ r.1 = (b.freshTw k).app x := by
  obtain ⟨k, hk, hr⟩ := Out.bind_ok hr
  cases hr
  exact ⟨touchTw_step h, touchTw_ops, k, hk, index_lt hk, by rw [h.viewTw k (index_lt hk)]⟩

theorem orientation_run (h : Inv E b) {l : ℤ} {r : Mat3 × Body}
    (hr : b.orientation l = .ok r) : Step E b r.2 ∧ r.2.c.ops = b.c.ops ∧
      ∃ k, b.index l = .ok k ∧ k < b.dof ∧ r.1 = (b.freshTw k).R := by
  obtain ⟨k, hk, hr⟩ := Out.bind_ok hr
  cases hr
  exact ⟨touchTw_step h, touchTw_ops, k, hk, index_lt hk, by rw [h.viewTw k (index_lt hk)]⟩

theorem Step.index (h : Step E b b') (l : ℤ) : b'.index l = b.index l := by
  obtain ⟨c, rfl, -⟩ := h
  rfl

theorem Step.freshTw (h : Step E b b') : b'.freshTw = b.freshTw := by
  obtain ⟨c, rfl, -⟩ := h
  rfl

theorem position_of_index (h : Inv E b) {l : ℤ} {k : ℕ} (hk : b.index l = .ok k) (x : Vec3) :
    ∃ b', b.position l x = .ok ((b.freshTw k).app x, b') := by
  unfold position
  rw [hk]
  exact ⟨b.touchTw, by rw [← h.viewTw k (index_lt hk)]; rfl⟩

theorem orientation_of_index (h : Inv E b) {l : ℤ} {k : ℕ} (hk : b.index l = .ok k) :
    ∃ b', b.orientation l = .ok ((b.freshTw k).R, b') := by
  unfold orientation
  rw [hk]
  exact ⟨b.touchTw, by rw [← h.viewTw k (index_lt hk)]; rfl⟩

theorem jacVel_rot (C : Ctl) (t : Option C.Quat) (n : ℕ) (J : ℕ → Motion) (dq : ℕ → ℝ) :
    jacVel n (rotJac C t J) dq = C.turn t (jacVel n J dq) := by
  cases t with
  | none => rfl
  | some t =>
    unfold jacVel
    show _ = (⟨(C.toRot t).mulVec _, (C.toRot t).mulVec _⟩ : Motion)
    induction n with
    | zero => ext <;> simp [Mat3.mulVec]
    | succ n ih =>
      rw [Finset.sum_range_succ, Finset.sum_range_succ, ih]
      ext <;> simp [rotJac, Mat3.mulVec] <;> ring

/-- Measurements of `ComputeOpspaceControl`. -/
theorem ctlMeasure_run (h : Inv E b) {a : CtlArgs C} {m : Measured × Body}
    (hr : b.ctlMeasure C a = .ok m) : Step E b m.2 ∧ m.2.c.ops = b.c.ops ∧
      ∃ J x R, b.Reads (-1) a.xTask J x R ∧
        m.1 = (let V := C.turn a.quatTask (jacVel b.dof J b.dqFun)
          ⟨rotJac C a.quatTask J, V.lin, C.pd3 x a.xDes V.lin a.kpKvPos a.ddxMax, V.ang,
            C.pdQ (C.near (C.seen a.quatTask R) a.quatDes) a.quatDes V.ang a.kpKvOri a.dwMax⟩) := by
  obtain ⟨j, hj, hr⟩ := Out.bind_ok hr
  obtain ⟨x, hx, hr⟩ := Out.bind_ok hr
  obtain ⟨o, ho, hr⟩ := Out.bind_ok hr
  cases hr
  have s1 := (jacobian_run h hj).1
  have p := position_run (h.step s1) hx
  have s2 := s1.trans p.1
  have q := orientation_run (h.step s2) ho
  obtain ⟨k, hk, -, ex⟩ := p.2.2
  obtain ⟨k', hk', -, eo⟩ := q.2.2
  refine ⟨s2.trans q.1, (q.2.1.trans p.2.1).trans (jacobian_ops hj), j.1, x.1, o.1,
    ⟨⟨_, hj⟩, ?_, ?_⟩, ?_⟩
  · obtain ⟨b', hb'⟩ := position_of_index h (s1.index _ ▸ hk) a.xTask
    exact ⟨b', by rw [hb', ex, s1.freshTw]⟩
  · obtain ⟨b', hb'⟩ := orientation_of_index h (s2.index _ ▸ hk')
    exact ⟨b', by rw [hb', eo, s2.freshTw]⟩
  · simp only [jacVel_rot]
    cases a.quatTask <;> rfl

/-- The same for `InverseKinematics`. -/
theorem ikMeasure_run (h : Inv E b) {a : IkGoal C} {m : Measured × Body}
    (hr : b.ikMeasure C a = .ok m) : Step E b m.2 ∧ m.2.c.ops = b.c.ops ∧
      ∃ J x R, b.Reads a.link a.offset J x R ∧
        m.1 = (let V := jacVel b.dof J b.dqFun
          ⟨J, V.lin, C.pd3 x a.xDes V.lin (⟨100, 100, 100⟩, ⟨20, 20, 20⟩) 0, V.ang,
            C.pdQ (C.near (C.ofRot R) a.quatDes) a.quatDes V.ang ikGains 0⟩) := by
  obtain ⟨j, hj, hr⟩ := Out.bind_ok hr
  obtain ⟨x, hx, hr⟩ := Out.bind_ok hr
  obtain ⟨o, ho, hr⟩ := Out.bind_ok hr
  cases hr
  have s1 := (jacobian_run h hj).1
  have p := position_run (h.step s1) hx
  have s2 := s1.trans p.1
  have q := orientation_run (h.step s2) ho
  obtain ⟨k, hk, -, ex⟩ := p.2.2
  obtain ⟨k', hk', -, eo⟩ := q.2.2
  refine ⟨s2.trans q.1, (q.2.1.trans p.2.1).trans (jacobian_ops hj), j.1, x.1, o.1,
    ⟨⟨_, hj⟩, ?_, ?_⟩, rfl⟩
  · obtain ⟨b', hb'⟩ := position_of_index h (s1.index _ ▸ hk) a.offset
    exact ⟨b', by rw [hb', ex, s1.freshTw]⟩
  · obtain ⟨b', hb'⟩ := orientation_of_index h (s2.index _ ▸ hk')
    exact ⟨b', by rw [hb', eo, s2.freshTw]⟩

/-- `IsSingular` answers alike before and after queries. -/
theorem singular_iff (h : Inv E b) (hs : Step E b b') {J : DMat} (hJ : J.cols = b.dof)
    (hd : 0 < b.dof) {e : ℝ} {r : Bool × Body} (hr : b'.opsIsSingular E J e = .ok r) :
    r.1 = true ↔ b.Singular E J e := by
  obtain ⟨l, hl⟩ := opsInertia_total (e := e) h hJ hd
  have h0 : b.opsIsSingular E J e = .ok (l.2.c.ops.singular, l.2) := by
    unfold opsIsSingular; rw [hl]; rfl
  obtain ⟨l', hl', hr⟩ := Out.bind_ok hr
  cases hr
  have e1 := (opsInertia_ans h hl).2.2
  have e2 := (opsInertia_ans (h.step hs) hl').2.2
  unfold Ext.pinvOf at e1 e2
  rw [mul_ajt_congr h (h.step hs) hs.obsEq.poseEq hJ] at e2
  have e3 : l'.2.c.ops.singular = l.2.c.ops.singular := e2.trans e1.symm
  show l'.2.c.ops.singular = true ↔ _
  rw [e3]
  unfold Singular
  rw [h0]
  constructor
  · intro h; exact ⟨_, by rw [h]⟩
  · rintro ⟨b', hb⟩
    simp only [Out.ok.injEq, Prod.mk.injEq] at hb
    exact hb.1

theorem opsTask_step (h : Inv E b) {J : DMat} {ddx : ℕ → ℝ} {N : DMat}
    {r : (ℕ → ℝ) × DMat × Body} (hr : b.opsTask E J ddx N = .ok r) : Step E b r.2.2 := by
  obtain ⟨s, hs, hr⟩ := Out.bind_ok hr
  cases hr
  exact opsInverseDynamics_step h hs

theorem ctlTask_run (h : Inv E b) (hd : 0 < b.dof) {m : Measured}
    {t : (ℕ → ℝ) × DMat × (Bool × Bool) × Body} (hr : b.ctlTask E m = .ok t) :
    Step E b t.2.2.2 ∧ (t.2.2.1.1 = true ↔ b.Singular E (jac6 b.dof m.J) 0.01) ∧
      (t.2.2.1.2 = true ↔ b.Singular E (jac6 b.dof m.J) 0.01 ∧
        b.Singular E (jac3 b.dof m.J) 0.01) := by
  obtain ⟨s, hs, hr⟩ := Out.bind_ok hr
  have h1 := (opsIsSingular_run h hs).1
  have k1 := singular_iff h (Step.refl h) (J := jac6 b.dof m.J) rfl hd hs
  cases e6 : s.1 with
  | true =>
    rw [e6, if_pos rfl] at hr
    obtain ⟨t', ht, hr⟩ := Out.bind_ok hr
    obtain ⟨s3, hs3, hr⟩ := Out.bind_ok hr
    cases hr
    have h2 := h1.trans (opsTask_step (h.step h1) ht)
    have h3 := h2.trans (opsIsSingular_run (h.step h2) hs3).1
    have k3 := singular_iff h h2 (J := jac3 b.dof m.J) rfl hd hs3
    have hS := k1.1 e6
    exact ⟨h3, ⟨fun _ => hS, fun _ => rfl⟩, ⟨fun h => ⟨hS, k3.1 h⟩, fun h => k3.2 h.2⟩⟩
  | false =>
    rw [e6, if_neg (by simp)] at hr
    obtain ⟨t', ht, hr⟩ := Out.bind_ok hr
    cases hr
    have h2 := h1.trans (opsTask_step (h.step h1) ht)
    have hS : ¬ b.Singular E (jac6 b.dof m.J) 0.01 := fun h => by simp [k1.2 h] at e6
    exact ⟨h2, ⟨fun h => by simp at h, fun h => absurd h hS⟩,
      ⟨fun h => by simp at h, fun h => absurd h.1 hS⟩⟩

/-- Torques of the controller: a step and the two flags. -/
theorem ctlTorque_run (h : Inv E b) (hd : 0 < b.dof) {a : CtlArgs C} {m : Measured}
    {t : (ℕ → ℝ) × (Bool × Bool) × Body} (hr : b.ctlTorque E C a m = .ok t) :
    Step E b t.2.2 ∧ (t.2.1.1 = true ↔ b.Singular E (jac6 b.dof m.J) 0.01) ∧
      (t.2.1.2 = true ↔ b.Singular E (jac6 b.dof m.J) 0.01 ∧
        b.Singular E (jac3 b.dof m.J) 0.01) := by
  obtain ⟨s, hs, hr⟩ := Out.bind_ok hr
  obtain ⟨ddq, -, hr⟩ := Out.bind_ok hr
  obtain ⟨j, hj, hr⟩ := Out.bind_ok hr
  obtain ⟨h1, f⟩ := ctlTask_run h hd hs
  have h2 := h1.trans (opsTask_step (h.step h1) hj)
  beta_reduce at hr
  dsimp only at hr
  split at hr
  · cases hr
    exact ⟨h2.trans (gravity_run (h.step h2)).1, f⟩
  · cases hr
    exact ⟨h2, f⟩

theorem id_nullIs (n : ℕ) : NullIs (DMat.id n) (1 : Matrix (Fin n) (Fin n) ℝ) := by
  rcases Nat.eq_zero_or_pos (DMat.id n).size with h0 | h0
  · exact .inl ⟨h0, rfl⟩
  · exact .inr ⟨h0, DMat.id_is n⟩

theorem opsTask_eq {J : DMat} {ddx : ℕ → ℝ} {N : DMat} {r : (ℕ → ℝ) × DMat × Body}
    (hr : b.opsTask E J ddx N = .ok r) : ∃ s,
      b.opsInverseDynamics E J ddx (some N) noExt false OpsOpts.make = .ok s ∧
      r = (s.1, s.2.1.getD N, s.2.2) := by
  obtain ⟨s, hs, hr⟩ := Out.bind_ok hr
  cases hr
  exact ⟨s, hs, rfl⟩

/-- Torques of a task act through its projected Jacobian, whatever `PseudoInverse` answers. -/
theorem opsTask_shape (h : Inv E b) {J : DMat} {m n : ℕ} {JM : Matrix (Fin m) (Fin n) ℝ}
    (hJ : J.Is JM) {N : DMat} {NM : Matrix (Fin n) (Fin n) ℝ} (hN : NullIs N NM)
    {ddx : ℕ → ℝ} {r : (ℕ → ℝ) × DMat × Body} (hr : b.opsTask E J ddx N = .ok r) :
    ∃ F : Fin m → ℝ, vec n r.1 = (JM * NM)ᵀ *ᵥ F := by
  obtain ⟨s, hs, rfl⟩ := opsTask_eq hr
  obtain ⟨l, s1, s2, s3, s4, -, -, -, -, -, -, hr1, -⟩ := opsInverseDynamics_parts h hs
  exact ⟨vec m s4.1, by rw [hr1]; exact vec_mulVec_tr (hN.jx hJ) _⟩

/-- A task followed by a joint task in its nullspace. -/
theorem opsTask_pair {d : Bool} {T : Set ℝ} (h : Careful E T b d) (hm : b.Massive)
    (hn : DefiniteForm b.dof b.inertia.1) (h0 : (0 : ℝ) ∈ T) (hs : Step E b b')
    (ht : TolC E T b'.c.ops) {K : DMat} (hR : b.Regular E T K) {N : DMat}
    (hN : NullIs N (1 : Matrix (Fin b.dof) (Fin b.dof) ℝ)) {ddx : ℕ → ℝ}
    {t : (ℕ → ℝ) × DMat × Body} (hr : b'.opsTask E K ddx N = .ok t) :
    Step E b t.2.2 ∧ TolC E T t.2.2.c.ops ∧
    K.mat K.rows b.dof *ᵥ b.massM⁻¹ *ᵥ vec b.dof t.1 = vec K.rows ddx ∧
    ∀ (b2 : Body), Step E b b2 → ∀ (ddq : ℕ → ℝ) (j : (ℕ → ℝ) × DMat × Body),
      b2.opsTask E (DMat.id b.dof) ddq t.2.1 = .ok j →
      K.mat K.rows b.dof *ᵥ b.massM⁻¹ *ᵥ vec b.dof j.1 = 0 := by
  obtain ⟨hc, hX, hE⟩ := hR
  set KM := K.mat K.rows b.dof with hKM
  have hK : K.Is KM := ⟨rfl, hc, fun _ _ => rfl⟩
  have hd : PosMat b.massM := hn.mat
  have hB := massM_inv_symm h.reach hm
  obtain ⟨s, hs', rfl⟩ := opsTask_eq hr
  obtain ⟨⟨F, f1, f2⟩, ⟨N', e1, -, e3⟩, st, tt⟩ := opsInverseDynamics_is h.inv hs ht hd hK hN
    (by rw [Matrix.mul_one]; exact hE) h0 (by intro hc; cases hc) hs'
  have p1 : Projector b.massM⁻¹ (1 : Matrix (Fin b.dof) (Fin b.dof) ℝ) := Projector.one _
  have hX' : (projInv b.massM⁻¹ (KM * (1 : Matrix (Fin b.dof) (Fin b.dof) ℝ))).det ≠ 0 := by
    rw [Matrix.mul_one]; exact hX
  refine ⟨st, tt, ?_, ?_⟩
  · have f2 := f2 rfl rfl rfl rfl le_rfl
    show KM *ᵥ b.massM⁻¹ *ᵥ vec b.dof s.1 = _
    rw [f1, f2, Matrix.mul_one, Matrix.mulVec_mulVec, Matrix.mulVec_mulVec, Matrix.mulVec_mulVec]
    rw [show KM * b.massM⁻¹ * KMᵀ * (b.taskInv KM)⁻¹ = b.taskInv KM * (b.taskInv KM)⁻¹ from rfl,
      Matrix.mul_nonsing_inv _ (Ne.isUnit hX), Matrix.one_mulVec]
  · intro b2 hs2 ddq j hj
    have hdof := hs2.dof_eq
    have e1' : s.2.1.getD N = N' := by rw [e1]; rfl
    dsimp only at hj
    rw [e1'] at hj
    obtain ⟨F', hF'⟩ := opsTask_shape (h.inv.step hs2) (DMat.id_is b.dof) e3 hj
    rw [hF', Matrix.mulVec_mulVec, Matrix.mulVec_mulVec,
      (p1.next (J := KM) hB hX').silent (p1.blocks (J := KM) hX'), Matrix.zero_mulVec]

/-- Task acceleration caused by the torques of the controller. -/
theorem ctlTorque_task {d : Bool} {T : Set ℝ} (h : Careful E T b d) (hm : b.Massive)
    (hn : DefiniteForm b.dof b.inertia.1) (h0 : (0 : ℝ) ∈ T) (hs : Step E b b')
    (ht : TolC E T b'.c.ops) {a : CtlArgs C} {m : Measured}
    {t : (ℕ → ℝ) × (Bool × Bool) × Body} (hr : b'.ctlTorque E C a m = .ok t) {K : DMat}
    (hK : K = if t.2.1.1 then jac3 b.dof m.J else jac6 b.dof m.J) (hR : b.Regular E T K) :
    K.mat K.rows b.dof *ᵥ b.massM⁻¹ *ᵥ (vec b.dof t.1 -
      (if a.gravityComp then vec b.dof b.fresh.gravitySpec else 0)) =
      vec K.rows (ddxDw m.pos.1 m.ori.1) := by
  have hdof := hs.dof_eq
  obtain ⟨s, hs', hr⟩ := Out.bind_ok hr
  obtain ⟨ddq, -, hr⟩ := Out.bind_ok hr
  obtain ⟨j, hj, hr⟩ := Out.bind_ok hr
  dsimp only at hr
  rw [hdof] at hj
  have htt : t.2.1.1 = s.2.2.1.1 := by
    split at hr <;> cases hr <;> rfl
  rw [htt] at hK
  have hv : vec b.dof t.1 - (if a.gravityComp then vec b.dof b.fresh.gravitySpec else 0) =
      vec b.dof s.1 + vec b.dof j.1 ∨ ¬ Step E b s.2.2.2 := by
    by_cases hst : Step E b s.2.2.2
    · left
      have h2 := hst.trans (opsTask_step (h.inv.step hst) hj)
      split at hr
      · next hg =>
        cases hr
        funext i
        have := (gravity_run (h.inv.step h2)).2 i (by rw [h2.dof_eq]; exact i.2)
        rw [h2.fresh_eq] at this
        simp [vec, this, hg]
      · next hg =>
        cases hr
        funext i
        simp [vec, hg]
    · exact .inr hst
  obtain ⟨s6, h6, hs'⟩ := Out.bind_ok hs'
  have st6 := hs.trans (opsIsSingular_run (h.inv.step hs) h6).1
  have t6 := opsIsSingular_tol ht h6
  rw [hdof] at h6 hs'
  cases e6 : s6.1 with
  | true =>
    rw [e6, if_pos rfl] at hs'
    obtain ⟨t', ht', hs'⟩ := Out.bind_ok hs'
    obtain ⟨s3, hs3, hs'⟩ := Out.bind_ok hs'
    cases hs'
    rw [if_pos rfl] at hK
    subst hK
    obtain ⟨k1, -, k3, k4⟩ := opsTask_pair h hm hn h0 st6 t6 hR (id_nullIs _) ht'
    have k5 := k1.trans (opsIsSingular_run (h.inv.step k1) hs3).1
    rcases hv with hv | hv
    · rw [hv, Matrix.mulVec_add, Matrix.mulVec_add, k3, k4 _ k5 _ _ hj, add_zero]
    · exact absurd k5 hv
  | false =>
    rw [e6, if_neg (by simp)] at hs'
    obtain ⟨t', ht', hs'⟩ := Out.bind_ok hs'
    cases hs'
    rw [if_neg (by simp)] at hK
    subst hK
    obtain ⟨k1, -, k3, k4⟩ := opsTask_pair h hm hn h0 st6 t6 hR (id_nullIs _) ht'
    rcases hv with hv | hv
    · rw [hv, Matrix.mulVec_add, Matrix.mulVec_add, k3, k4 _ k1 _ _ hj, add_zero]
    · exact absurd k1 hv

end Body
end SpatialDyn
