import Verif.Lemmas.OpsAns

/-!
# Operational-space dynamics (C35–C37)

`PseudoInverse` belongs to an external library; where a theorem needs that it inverts a matrix, it
says so (`Exact`), for the tolerances that were used.
-/

namespace SpatialDyn
open Matrix Body

variable {E : Ext} {b b' : Body} {d d' : Bool} {T : Set ℝ} {m : ℕ} {J : DMat}
  {JM : Matrix (Fin m) (Fin b.dof) ℝ}

/-! ## C35 -/

/-- C35: `opspace::InertiaInverse` is `J A⁻¹ Jᵀ`, where `A` is the answer of `Inertia`. -/
theorem C35_inertia_inverse (h : Reach E b d) (hn : DefiniteForm b.dof b.inertia.1) (hJ : J.Is JM)
    {r : DMat × Body} (hr : b.opsInertiaInverse E J = .ok r) :
    r.1.Is (JM * (toMat b.dof b.inertia.1)⁻¹ * JMᵀ) :=
  opsInertiaInverse_is h.inv hn.mat hJ hr

/-- C35: `opspace::Inertia` is the inverse of `J A⁻¹ Jᵀ`. -/
theorem C35_inertia (h : Reach E b d) (hn : DefiniteForm b.dof b.inertia.1) (hJ : J.Is JM)
    (hX : (b.taskInv JM).det ≠ 0) {eps : ℝ} (hE : Exact E (b.taskInv JM) eps)
    {r : DMat × Body} (hr : b.opsInertia E J eps = .ok r) :
    ∃ L : Matrix (Fin m) (Fin m) ℝ, r.1.Is L ∧
      L * (JM * (toMat b.dof b.inertia.1)⁻¹ * JMᵀ) = 1 ∧
      JM * (toMat b.dof b.inertia.1)⁻¹ * JMᵀ * L = 1 :=
  ⟨_, opsInertia_is h.inv hn.mat hJ hE hr, Matrix.nonsing_inv_mul _ (Ne.isUnit hX),
    Matrix.mul_nonsing_inv _ (Ne.isUnit hX)⟩

/-- C35: `JacobianDynamicInverse` is a right inverse of the Jacobian. -/
theorem C35_jbar (h : Careful E T b d) (hn : DefiniteForm b.dof b.inertia.1) (hJ : J.Is JM)
    (hX : (b.taskInv JM).det ≠ 0) (hE : ∀ e ∈ T, Exact E (b.taskInv JM) e) {eps : ℝ}
    (he : eps ∈ T) {r : DMat × Body} (hr : b.opsJbar E J eps = .ok r) :
    ∃ K : Matrix (Fin b.dof) (Fin m) ℝ, r.1.Is K ∧ JM * K = 1 := by
  refine ⟨_, opsJbar_is h.inv h.tol hn.mat hJ he hE hr, ?_⟩
  rw [← Matrix.mul_assoc, ← Matrix.mul_assoc]
  exact Matrix.mul_nonsing_inv _ (Ne.isUnit hX)

/-- C35: the nullspace matrix returned by `opspace::InverseDynamics` is a projector onto the
nullspace of the Jacobian, and torques through its transpose cause no task acceleration. -/
theorem C35_nullspace (h : Careful E T b d) (hm : b.Massive) (hn : DefiniteForm b.dof b.inertia.1)
    (hJ : J.Is JM) (hX : (b.taskInv JM).det ≠ 0) (hE : ∀ e ∈ T, Exact E (b.taskInv JM) e)
    {ddx : ℕ → ℝ} {N : DMat} (hN : N.size = 0) {fext : FExt} {se : Bool} {o : OpsOpts}
    (he : o.svdEps ∈ T) (h0 : o.cc = true → (0 : ℝ) ∈ T) {r : (ℕ → ℝ) × Option DMat × Body}
    (hr : b.opsInverseDynamics E J ddx (some N) fext se o = .ok r) :
    ∃ (N' : DMat) (P : Matrix (Fin b.dof) (Fin b.dof) ℝ), r.2.1 = some N' ∧ N'.Is P ∧
      P * P = P ∧ JM * P = 0 ∧
      ∀ (tau0 tau : ℕ → ℝ) (f : FExt) (q : FDOpts), q.friction = false →
        JM *ᵥ b.effect E tau0 f q (N'.tr.mulVec tau) = 0 := by
  have hB := massM_inv_symm h.reach hm
  have hd : PosMat b.massM := hn.mat
  have p1 : Projector b.massM⁻¹ (1 : Matrix (Fin b.dof) (Fin b.dof) ℝ) := Projector.one _
  obtain ⟨-, ⟨N', e1, e2, -⟩, -, -⟩ := opsInverseDynamics_is h.inv (Step.refl h.inv) h.tol hd hJ
    (NM := (1 : Matrix (Fin b.dof) (Fin b.dof) ℝ)) (.inl ⟨hN, rfl⟩) (by rw [Matrix.mul_one]; exact hE) he h0 hr
  have hX' : (projInv b.massM⁻¹ (JM * (1 : Matrix (Fin b.dof) (Fin b.dof) ℝ))).det ≠ 0 := by rw [Matrix.mul_one]; exact hX
  have p2 := p1.next (J := JM) hB hX'
  have p3 := p1.blocks (J := JM) hX'
  refine ⟨N', _, e1, e2, p2.idem, p3, fun tau0 tau f q hq => ?_⟩
  rw [effect_eq h.reach hm hn tau0 f q hq, vec_mulVec_tr e2, Matrix.mulVec_mulVec,
    Matrix.mulVec_mulVec]
  have := p2.silent (J := (1 : Matrix (Fin b.dof) (Fin b.dof) ℝ)) (K := JM) p3
  rw [Matrix.one_mul] at this
  rw [this, Matrix.zero_mulVec]

/-- For massive links and moving joints the operational-space inertia exists for every Jacobian of
full row rank. -/
theorem C35_regular (h : Reach E b d) (hD : b.Definite)
    (hJ : ∀ v : Fin m → ℝ, JMᵀ *ᵥ v = 0 → v = 0) : (b.taskInv JM).det ≠ 0 := by
  intro h0
  obtain ⟨v, hv, hXv⟩ := Matrix.exists_mulVec_eq_zero_iff.2 h0
  apply hv
  apply hJ
  set w := JMᵀ *ᵥ v with hw
  have hd : PosMat b.massM := (hD.form h).mat
  set y := b.massM⁻¹ *ᵥ w with hy
  have e1 : b.massM *ᵥ y = w := by
    rw [hy, Matrix.mulVec_mulVec, Matrix.mul_nonsing_inv _ (Ne.isUnit hd.det_ne), Matrix.one_mulVec]
  have e2 : y ⬝ᵥ (b.massM *ᵥ y) = 0 := by
    rw [e1, dotProduct_comm, hw, ← Matrix.vecMul_transpose, Matrix.transpose_transpose,
      ← Matrix.dotProduct_mulVec]
    have : JM *ᵥ y = 0 := by
      rw [hy, hw, Matrix.mulVec_mulVec, Matrix.mulVec_mulVec]
      exact hXv
    rw [this, dotProduct_zero]
  have e3 : y = 0 := by
    by_contra hne
    obtain ⟨i, hi⟩ := Function.ne_iff.1 hne
    set u : ℕ → ℝ := fun i => if hi : i < b.dof then y ⟨i, hi⟩ else 0 with hu
    have huy : ∀ j : Fin b.dof, u j = y j := by intro j; simp [hu]
    have := C24_positive_definite h hD u ⟨i, i.2, by rw [huy]; exact hi⟩
    have e4 : ∑ i ∈ Finset.range b.dof, ∑ j ∈ Finset.range b.dof, u i * b.inertia.1 i j * u j =
        y ⬝ᵥ (b.massM *ᵥ y) := by
      rw [Finset.sum_range]
      refine Finset.sum_congr rfl fun k _ => ?_
      rw [Finset.sum_range, huy]
      show _ = y k * ∑ j, b.massM k j * y j
      rw [Finset.mul_sum]
      refine Finset.sum_congr rfl fun l _ => ?_
      rw [huy, mul_assoc]; rfl
    rw [e4, e2] at this
    exact lt_irrefl _ this
  rw [← e1, e3, Matrix.mulVec_zero]

/-! ## C36 -/

theorem coriolis_rest (h : ∀ i < b.dof, b.dq.getD i 0 = 0) (i : ℕ) : b.fresh.coriolisSpec i = 0 := by
  have hdq : ∀ j ∈ Finset.range b.fresh.n, b.fresh.dq j = 0 := fun j hj =>
    h j (Finset.mem_range.1 hj)
  have hV : ∀ k, b.fresh.V b.fresh.dq k = 0 := fun k =>
    Finset.sum_eq_zero fun j hj => by rw [hdq j hj, zero_smul]
  have hb : ∀ k, b.fresh.bias k = 0 := fun k =>
    Finset.sum_eq_zero fun j hj => by rw [hdq j hj, zero_smul]
  unfold Sys.coriolisSpec Sys.genForce
  refine Finset.sum_eq_zero fun k _ => ?_
  beta_reduce
  rw [hV, hb, Sys.Iw_zero, Motion.crossF_zero]
  simp [Motion.dot]

/-- One optional compensation term of `opspace::InverseDynamics`. -/
theorem opsAdd_is {s r : (ℕ → ℝ) × Body} {flag : Bool}
    {term : Body → (ℕ → ℝ) → Out ((ℕ → ℝ) × Body)} {t : Fin b.dof → ℝ}
    (hterm : flag = true → ∀ x, term s.2 s.1 = .ok x → vec m x.1 = (dynInv b.massM⁻¹ JM)ᵀ *ᵥ t)
    (hr : opsAdd flag s term = .ok r) :
    vec m r.1 = vec m s.1 + (dynInv b.massM⁻¹ JM)ᵀ *ᵥ (if flag then t else 0) := by
  unfold opsAdd at hr
  split at hr
  · next hf =>
    obtain ⟨x, hx, hr⟩ := Out.bind_ok hr
    cases hr
    rw [if_pos hf, ← hterm hf x hx]
    rfl
  · next hf =>
    cases hr
    rw [if_neg hf, Matrix.mulVec_zero, add_zero]

/-- `opspace::InverseDynamics` realises the task acceleration `y` if its clipped task force is the one
that belongs to `y`; `z` is what `opspace::CentrifugalCoriolis` takes for the velocity products of the
task. -/
theorem realises_aux (h : Careful E T b d) (hm : b.Massive) (hn : DefiniteForm b.dof b.inertia.1)
    (hJ : J.Is JM) (hX : (b.taskInv JM).det ≠ 0) (hE : ∀ e ∈ T, Exact E (b.taskInv JM) e)
    {ddx : ℕ → ℝ} {N : Option DMat} (hN : ∀ M, N = some M → M.size = 0) {fext : FExt} {se : Bool}
    (hse : se = false → ∀ k < b.dof, fext k = none) {o : OpsOpts} (he : o.svdEps ∈ T)
    (hfr : o.friction = false) {y z : Fin m → ℝ} (hz : o.cc = false → z = 0)
    (hcc : o.cc = true → ∀ (s : Body) (x : (ℕ → ℝ) × Body), Step E b s → TolC E T s.c.ops →
      s.opsCoriolis E J (truncInt o.svdEps) 0 = .ok x →
      vec m x.1 = (dynInv b.massM⁻¹ JM)ᵀ *ᵥ vec b.dof b.fresh.coriolisSpec - (b.taskInv JM)⁻¹ *ᵥ z)
    (hy : ∀ l : DMat × Body, l.1.Is (b.taskInv JM)⁻¹ →
      vec m (clipForce J.rows o.fAccMax (l.1.mulVec ddx)) = (b.taskInv JM)⁻¹ *ᵥ y)
    {r : (ℕ → ℝ) × Option DMat × Body}
    (hr : b.opsInverseDynamics E J ddx N fext se o = .ok r) (q : FDOpts)
    (hg : q.gravity = o.gravity) (hq : q.friction = false)
    (hrest : q.cc ≠ o.cc → ∀ i < b.dof, b.dq.getD i 0 = 0) :
    JM *ᵥ vec b.dof (b.fd E r.1 fext q).1 = y - z := by
  have hB := massM_inv_symm h.reach hm
  have hd : PosMat b.massM := hn.mat
  have hi := h.inv
  have ht := h.tol
  have hJx : opsJx J N = J := by
    cases N with
    | none => rfl
    | some M => simp [opsJx, hN M rfl]
  obtain ⟨l, s1, s2, s3, s4, hl, hs1, hs2, hs3, hs4, hNu, hr1, k0, k1, k2, k3, k4, k5⟩ :=
    opsInverseDynamics_parts hi hr
  rw [hJx] at hl hs1 hs2 hs3 hs4 hr1
  have t0 := opsInertia_tol ht hl
  have t1 := opsAdd_tol t0 (fun _ r hr => opsExternal_tol (hi.step k0) t0 he hr) hs1
  have hL := opsInertia_is hi hd hJ (hE _ he) hl
  have t2 := opsAdd_tol t1 (fun _ r hr => opsGravity_tol (hi.step k1) t1 he hr) hs2
  rw [hfr] at hs4
  cases hs4
  have f1 := opsAdd_is (JM := JM) (m := m) (t := vec b.dof (b.fresh.extSpec fext)) (fun _ x hx => by
    obtain ⟨y, hy, hx⟩ := Out.bind_ok hx
    cases hx
    have hjb := opsJbar_is_step hi k0 t0 hd hJ he hE hy
    have st := k0.trans (opsJbar_run (hi.step k0) hy).1
    have := (externalTorques_run (hi.step st) fext).2
    funext i
    rw [show vec m (y.1.tr.mulVec (y.2.externalTorques fext).1) i = _ from hjb.tr.mulVec _ i]
    congr 1
    funext j
    rw [this j (by rw [st.dof_eq]; exact j.2), st.fresh_eq]
    rfl) hs1
  have f2 := opsAdd_is (JM := JM) (m := m) (t := vec b.dof b.fresh.gravitySpec) (fun _ x hx => by
    obtain ⟨y, hy, hx⟩ := Out.bind_ok hx
    cases hx
    have hjb := opsJbar_is_step hi k1 t1 hd hJ he hE hy
    have st := k1.trans (opsJbar_run (hi.step k1) hy).1
    have := (gravity_run (hi.step st)).2
    funext i
    rw [show vec m (y.1.tr.mulVec y.2.gravity.1) i = _ from hjb.tr.mulVec _ i]
    congr 1
    funext j
    rw [this j (by rw [st.dof_eq]; exact j.2), st.fresh_eq]
    rfl) hs2
  have f3 : vec m s3.1 = vec m s2.1 + ((dynInv b.massM⁻¹ JM)ᵀ *ᵥ
      (if o.cc then vec b.dof b.fresh.coriolisSpec else 0) - (b.taskInv JM)⁻¹ *ᵥ z) := by
    unfold opsAdd at hs3
    split at hs3
    · next hf =>
      obtain ⟨x, hx, hs3⟩ := Out.bind_ok hs3
      cases hs3
      rw [if_pos hf, ← hcc hf _ x k2 t2 hx]
      rfl
    · next hf =>
      cases hs3
      rw [if_neg hf, hz (Bool.not_eq_true _ ▸ hf), Matrix.mulVec_zero, Matrix.mulVec_zero, sub_zero,
        add_zero]
  have f0 := hy l hL
  have hid : vec b.dof (b.fresh.idSpec (fun _ => 0) fext q.cc q.gravity) =
      (if se then vec b.dof (b.fresh.extSpec fext) else 0) +
        (if o.gravity then vec b.dof b.fresh.gravitySpec else 0) +
        (if o.cc then vec b.dof b.fresh.coriolisSpec else 0) := by
    funext i
    have hc : (if q.cc then b.fresh.coriolisSpec i else 0) =
        if o.cc then b.fresh.coriolisSpec i else 0 := by
      by_cases e : q.cc = o.cc
      · rw [e]
      · rw [coriolis_rest (hrest e) i]
        simp
    have hx : se = false → b.fresh.extSpec fext i = 0 := fun e => by
      unfold Sys.extSpec Sys.genForce
      rw [neg_eq_zero]
      refine Finset.sum_eq_zero fun k hk => ?_
      beta_reduce
      rw [hse e k (Finset.mem_range.1 hk)]
      simp [Motion.dot]
    show b.fresh.idSpec _ _ _ _ i = _
    unfold Sys.idSpec
    rw [hc, hg]
    simp only [mul_zero, Finset.sum_const_zero, zero_add]
    cases hse' : se with
    | true => cases o.gravity <;> cases o.cc <;> simp [vec] <;> ring
    | false => rw [hx hse']; cases o.gravity <;> cases o.cc <;> simp [vec]; ring
  have hct := comp_task (J := JM) hB hX
  have hu : b.taskInv JM * (b.taskInv JM)⁻¹ = 1 := Matrix.mul_nonsing_inv _ (Ne.isUnit hX)
  rw [fd_matrix h.reach hm hn _ _ _ hq, hr1, vec_mulVec_tr hJ, f3, f2, f1, f0, hid]
  have hct' : ∀ v, JM *ᵥ (b.massM⁻¹ *ᵥ (JMᵀ *ᵥ ((dynInv b.massM⁻¹ JM)ᵀ *ᵥ v))) =
      JM *ᵥ (b.massM⁻¹ *ᵥ v) := fun v => by
    rw [Matrix.mulVec_mulVec, Matrix.mulVec_mulVec, Matrix.mulVec_mulVec, Matrix.mulVec_mulVec, hct]
  have hl' : ∀ v, JM *ᵥ (b.massM⁻¹ *ᵥ (JMᵀ *ᵥ ((b.taskInv JM)⁻¹ *ᵥ v))) = v := fun v => by
    rw [Matrix.mulVec_mulVec, Matrix.mulVec_mulVec, Matrix.mulVec_mulVec,
      show JM * b.massM⁻¹ * JMᵀ = b.taskInv JM from rfl, hu, Matrix.one_mulVec]
  simp only [Matrix.mulVec_sub, Matrix.mulVec_add, hct', hl']
  abel

theorem realises_plain (h : Careful E T b d) (hm : b.Massive) (hn : DefiniteForm b.dof b.inertia.1)
    (hJ : J.Is JM) (hX : (b.taskInv JM).det ≠ 0) (hE : ∀ e ∈ T, Exact E (b.taskInv JM) e)
    {ddx : ℕ → ℝ} {N : Option DMat} (hN : ∀ M, N = some M → M.size = 0) {fext : FExt} {se : Bool}
    (hse : se = false → ∀ k < b.dof, fext k = none) {o : OpsOpts} (he : o.svdEps ∈ T)
    (hcc : o.cc = false) (hfr : o.friction = false) {y : Fin m → ℝ}
    (hy : ∀ l : DMat × Body, l.1.Is (b.taskInv JM)⁻¹ →
      vec m (clipForce J.rows o.fAccMax (l.1.mulVec ddx)) = (b.taskInv JM)⁻¹ *ᵥ y)
    {r : (ℕ → ℝ) × Option DMat × Body}
    (hr : b.opsInverseDynamics E J ddx N fext se o = .ok r) (q : FDOpts)
    (hg : q.gravity = o.gravity) (hq : q.friction = false)
    (hrest : q.cc = true → ∀ i < b.dof, b.dq.getD i 0 = 0) :
    JM *ᵥ vec b.dof (b.fd E r.1 fext q).1 = y := by
  rw [realises_aux h hm hn hJ hX hE hN hse he hfr (z := 0) (fun _ => rfl)
    (fun e => by rw [hcc] at e; cases e) hy hr q hg hq
    (fun e => hrest (by rw [hcc] at e; simpa using e)), sub_zero]

/-- C36: the torques of `opspace::InverseDynamics`, fed to `ForwardDynamics` with the same
compensated effects, give the requested task acceleration (`J q̈`). -/
theorem C36_realises (h : Careful E T b d) (hm : b.Massive) (hn : DefiniteForm b.dof b.inertia.1)
    (hJ : J.Is JM) (hX : (b.taskInv JM).det ≠ 0) (hE : ∀ e ∈ T, Exact E (b.taskInv JM) e)
    {ddx : ℕ → ℝ} {N : Option DMat} (hN : ∀ M, N = some M → M.size = 0) {fext : FExt} {se : Bool}
    (hse : se = false → ∀ k < b.dof, fext k = none) {o : OpsOpts} (he : o.svdEps ∈ T)
    (hcc : o.cc = false) (hfr : o.friction = false) (hcl : o.fAccMax ≤ 0)
    {r : (ℕ → ℝ) × Option DMat × Body}
    (hr : b.opsInverseDynamics E J ddx N fext se o = .ok r) (q : FDOpts)
    (hg : q.gravity = o.gravity) (hq : q.friction = false)
    (hrest : q.cc = true → ∀ i < b.dof, b.dq.getD i 0 = 0) :
    JM *ᵥ vec b.dof (b.fd E r.1 fext q).1 = vec m ddx := by
  refine realises_plain h hm hn hJ hX hE hN hse he hcc hfr (fun l hL => ?_) hr q hg hq hrest
  funext i
  show clipForce _ _ _ i = _
  unfold clipForce
  rw [if_neg (fun hc => absurd hc.1 (not_lt.2 hcl))]
  exact hL.mulVec ddx i

/-! ## C67 -/

/-- C67: a task force above `f_acc_max` is scaled down to it and keeps its direction; so the body
still accelerates in the direction asked for, less strongly.  Without a positive `f_acc_max`, or below
it, nothing is scaled. -/
theorem C67_clipped (h : Careful E T b d) (hm : b.Massive) (hn : DefiniteForm b.dof b.inertia.1)
    (hJ : J.Is JM) (hX : (b.taskInv JM).det ≠ 0) (hE : ∀ e ∈ T, Exact E (b.taskInv JM) e)
    {ddx : ℕ → ℝ} {N : Option DMat} (hN : ∀ M, N = some M → M.size = 0) {fext : FExt} {se : Bool}
    (hse : se = false → ∀ k < b.dof, fext k = none) {o : OpsOpts} (he : o.svdEps ∈ T)
    (hcc : o.cc = false) (hfr : o.friction = false) {r : (ℕ → ℝ) × Option DMat × Body}
    (hr : b.opsInverseDynamics E J ddx N fext se o = .ok r) :
    ∃ s : ℝ, 0 < s ∧ s ≤ 1 ∧
      (let F := (b.taskInv JM)⁻¹ *ᵥ vec m ddx
       (s = 1 ↔ o.fAccMax ≤ 0 ∨ Real.sqrt (F ⬝ᵥ F) ≤ o.fAccMax) ∧
       (s < 1 → Real.sqrt ((s • F) ⬝ᵥ (s • F)) = o.fAccMax)) ∧
      ∀ q : FDOpts, q.gravity = o.gravity → q.friction = false →
        (q.cc = true → ∀ i < b.dof, b.dq.getD i 0 = 0) →
        JM *ᵥ vec b.dof (b.fd E r.1 fext q).1 = s • vec m ddx := by
  set F := (b.taskInv JM)⁻¹ *ᵥ vec m ddx with hF
  have hnorm : ∀ l : DMat × Body, l.1.Is (b.taskInv JM)⁻¹ →
      vnorm J.rows (l.1.mulVec ddx) = Real.sqrt (F ⬝ᵥ F) := by
    intro l hL
    unfold vnorm
    rw [hJ.rows, Finset.sum_range]
    congr 1
    refine Finset.sum_congr rfl fun i _ => ?_
    rw [show l.1.mulVec ddx i = F i from hL.mulVec ddx i, sq]
  by_cases hc : 0 < o.fAccMax ∧ o.fAccMax < Real.sqrt (F ⬝ᵥ F)
  · have hpos : 0 < Real.sqrt (F ⬝ᵥ F) := hc.1.trans hc.2
    have hlt : o.fAccMax / Real.sqrt (F ⬝ᵥ F) < 1 := (div_lt_one hpos).2 hc.2
    refine ⟨o.fAccMax / Real.sqrt (F ⬝ᵥ F), div_pos hc.1 hpos, hlt.le, ⟨⟨fun e => ?_, fun e => ?_⟩,
      fun _ => ?_⟩, fun q hg hq hrest => ?_⟩
    · exact absurd e hlt.ne
    · rcases e with e | e
      · exact absurd hc.1 (not_lt.2 e)
      · exact absurd hc.2 (not_lt.2 e)
    · rw [smul_dotProduct, dotProduct_smul, smul_eq_mul, smul_eq_mul, ← mul_assoc,
        Real.sqrt_mul (mul_self_nonneg _), Real.sqrt_mul_self (div_pos hc.1 hpos).le]
      exact div_mul_cancel₀ _ hpos.ne'
    · refine realises_plain h hm hn hJ hX hE hN hse he hcc hfr (fun l hL => ?_) hr q hg hq hrest
      funext i
      show clipForce _ _ _ i = _
      unfold clipForce
      rw [hnorm l hL, if_pos hc, Matrix.mulVec_smul, ← hF]
      show o.fAccMax * (l.1.mulVec ddx i / _) = _ * F i
      rw [show l.1.mulVec ddx i = F i from hL.mulVec ddx i]
      ring
  · refine ⟨1, one_pos, le_rfl, ⟨⟨fun _ => ?_, fun _ => rfl⟩, fun e => absurd e (lt_irrefl _)⟩,
      fun q hg hq hrest => ?_⟩
    · by_contra hn
      push Not at hn
      exact hc hn
    · rw [one_smul]
      refine realises_plain h hm hn hJ hX hE hN hse he hcc hfr (fun l hL => ?_) hr q hg hq hrest
      funext i
      show clipForce _ _ _ i = _
      unfold clipForce
      rw [hnorm l hL, if_neg hc]
      exact hL.mulVec ddx i

/-- A regular Jacobian in matrix form. -/
theorem Body.Regular.is {K : DMat} (hK : b.Regular E T K) {m : ℕ}
    {KM : Matrix (Fin m) (Fin b.dof) ℝ} (h : K.Is KM) :
    (b.taskInv KM).det ≠ 0 ∧ ∀ e ∈ T, Exact E (b.taskInv KM) e := by
  obtain ⟨-, h2, h3⟩ := hK
  obtain ⟨r, c, e⟩ := K
  obtain ⟨rfl, hc, he⟩ := h
  have : DMat.mat ⟨r, c, e⟩ r b.dof = KM := by
    ext i j
    exact he i j
  dsimp only at h2 h3
  rw [this] at h2 h3
  exact ⟨h2, h3⟩

theorem Body.Regular.step (h : Inv E b) {b' : Body} (hs : Step E b b') {K : DMat}
    (hK : b'.Regular E T K) : b.Regular E T K := by
  obtain ⟨c', rfl, hc⟩ := id hs
  obtain ⟨h1, h2, h3⟩ := hK
  have e2 := taskInv_cast h hs (K.mat K.rows b.dof)
  refine ⟨h1, ?_, fun e he => ?_⟩
  · rw [← e2]; exact h2
  · have := h3 e he
    rw [← e2]; exact this

theorem prioritised_aux (h : Careful E T b d) (hm : b.Massive)
    (hn : DefiniteForm b.dof b.inertia.1) {b' : Body} {N : DMat} {l : List (Task × (ℕ → ℝ))}
    (hp : Prioritised E T b' N l) (hs : Step E b b') (ht : TolC E T b'.c.ops)
    {NM : Matrix (Fin b.dof) (Fin b.dof) ℝ} (hN : NullIs N NM) (hP : Projector b.massM⁻¹ NM) :
    (∀ p ∈ l, ∃ F : Fin b.dof → ℝ, vec b.dof p.2 = NMᵀ *ᵥ F) ∧
    (∀ p ∈ l, p.1.Plain →
      p.1.J.mat p.1.J.rows b.dof *ᵥ b.massM⁻¹ *ᵥ vec b.dof p.2 = vec p.1.J.rows p.1.ddx) ∧
    l.Pairwise fun p p' =>
      p.1.J.mat p.1.J.rows b.dof *ᵥ b.massM⁻¹ *ᵥ vec b.dof p'.2 = 0 := by
  have hB := massM_inv_symm h.reach hm
  have hd : PosMat b.massM := hn.mat
  induction hp generalizing NM with
  | nil b' N => exact ⟨by simp, by simp, List.Pairwise.nil⟩
  | @cons b' b'' N N' t tau l cols tol regular call rest ih =>
    have hJ : t.J.Is (t.J.mat t.J.rows b.dof) :=
      ⟨rfl, cols.trans hs.dof_eq, fun _ _ => rfl⟩
    set JM := t.J.mat t.J.rows b.dof with hJM
    have hK := hN.jx hJ
    obtain ⟨hX, hE⟩ := (regular.step h.inv hs).is hK
    obtain ⟨⟨F, hF, hFp⟩, ⟨N1, e1, e2, e3⟩, hs', ht'⟩ :=
      opsInverseDynamics_is h.inv hs ht hd hJ hN hE tol.1 tol.2 call
    cases e1
    obtain ⟨i1, i2, i3⟩ := ih hs' ht' e3 (hP.next hB hX)
    have hbl := hP.blocks hX
    refine ⟨?_, ?_, ?_⟩
    · intro p hp
      rcases List.mem_cons.1 hp with rfl | hp
      · exact ⟨JMᵀ *ᵥ F, by rw [hF, Matrix.transpose_mul, Matrix.mulVec_mulVec]⟩
      · obtain ⟨G, hG⟩ := i1 p hp
        exact ⟨_, by rw [hG, Matrix.transpose_mul, ← Matrix.mulVec_mulVec]⟩
    · intro p hp hpl
      rcases List.mem_cons.1 hp with rfl | hp
      · rw [hF, hFp hpl.ext hpl.gravity hpl.cc hpl.friction hpl.clip, Matrix.mulVec_mulVec,
          Matrix.mulVec_mulVec, Matrix.mulVec_mulVec]
        have := hP.proj (J := JM)
        show (JM * b.massM⁻¹ * (JM * NM)ᵀ * (b.taskInv (JM * NM))⁻¹) *ᵥ vec t.J.rows t.ddx = _
        rw [this]
        show (b.taskInv (JM * NM) * (b.taskInv (JM * NM))⁻¹) *ᵥ _ = _
        rw [Matrix.mul_nonsing_inv _ (Ne.isUnit hX), Matrix.one_mulVec]
      · exact i2 p hp hpl
    · refine List.Pairwise.cons (fun p' hp' => ?_) i3
      obtain ⟨G, hG⟩ := i1 p' hp'
      have p2 := hP.next (J := JM) hB hX
      have := p2.silent (J := (1 : Matrix (Fin b.dof) (Fin b.dof) ℝ)) (K := JM) hbl
      rw [Matrix.one_mul] at this
      show JM *ᵥ b.massM⁻¹ *ᵥ vec b.dof p'.2 = 0
      rw [hG, Matrix.mulVec_mulVec, Matrix.mulVec_mulVec, this, Matrix.zero_mulVec]

/-- C36: in a stack of prioritised tasks of any height, the torques of a task cause no acceleration
of any earlier task, and they cause exactly the requested acceleration of their own task. -/
theorem C36_priorities (h : Careful E T b d) (hm : b.Massive)
    (hn : DefiniteForm b.dof b.inertia.1) {N : DMat} (hN : N.size = 0)
    {l : List (Task × (ℕ → ℝ))} (hp : Prioritised E T b N l) (tau0 : ℕ → ℝ) (fext : FExt)
    (q : FDOpts) (hq : q.friction = false) :
    (l.Pairwise fun p p' => p.1.J.mat p.1.J.rows b.dof *ᵥ b.effect E tau0 fext q p'.2 = 0) ∧
    ∀ p ∈ l, p.1.Plain →
      p.1.J.mat p.1.J.rows b.dof *ᵥ b.effect E tau0 fext q p.2 = vec p.1.J.rows p.1.ddx := by
  obtain ⟨-, h2, h3⟩ := prioritised_aux h hm hn hp (Step.refl h.inv) h.tol
    (NM := (1 : Matrix (Fin b.dof) (Fin b.dof) ℝ)) (.inl ⟨hN, rfl⟩) (Projector.one _)
  constructor
  · refine h3.imp fun {p p'} h' => ?_
    rw [effect_eq h.reach hm hn _ _ _ hq]
    exact h'
  · intro p hp hpl
    rw [effect_eq h.reach hm hn _ _ _ hq]
    exact h2 p hp hpl

end SpatialDyn
