import Verif.Lemmas.TaskCode

/-!
# The operational-space controller near its goal
-/

namespace SpatialDyn
open Finset Matrix OneStep Body

variable {E : Ext} {C : Ctl} {U : C.Quat → Prop} {b : Body} {d : Bool} {T : Set ℝ}

namespace Body

theorem atState_setQ (h : Reach E b d) {q : List ℝ} {B : Body} (hB : b.setQ q = .ok B) :
    AtState E b (fun i => q.getD i 0, fun i => b.dq.getD i 0) B ∧ ∃ d', Reach E B d' := by
  obtain ⟨hs, hn, -, hr⟩ := h.after_setQ hB
  obtain ⟨d', hr⟩ := hr
  have hl : q.length = b.dof := by
    have := hr.inv.tree.lq
    rwa [setQ_q hB, hn] at this
  refine ⟨⟨hs, hr.inv, ?_, ?_⟩, d', hr⟩
  · rw [setQ_q hB]; exact (stateOf_ofFn hl).symm
  · rw [setQ_dq hB]; exact (stateOf_ofFn h.inv.tree.ldq).symm

theorem massQ_symm (h : Reach E b d) (hD : b.Definite) (q : Fin b.dof → ℝ) :
    (b.massQ q)ᵀ = b.massQ q := by
  obtain ⟨B, d', hB, ha, hf⟩ := exists_at h (q, 0)
  have hDB := ha.only.definite hD
  have hm := hDB.massive hB.inv.tree
  have h1 := massM_symm hB hm
  rw [massM_fresh hB hm, hf, ha.dof] at h1
  exact h1

theorem massQ_pos (h : Reach E b d) (hD : b.Definite) (q : Fin b.dof → ℝ) :
    ∀ v : Fin b.dof → ℝ, v ≠ 0 → 0 < v ⬝ᵥ (b.massQ q *ᵥ v) := by
  obtain ⟨B, d', hB, ha, hf⟩ := exists_at h (q, 0)
  have hDB := ha.only.definite hD
  have hm := hDB.massive hB.inv.tree
  have h1 : ∀ v : Fin B.dof → ℝ, v ≠ 0 → 0 < v ⬝ᵥ (B.massM *ᵥ v) :=
    fun v hv => effort_pos hB hDB hv
  rw [massM_fresh hB hm, hf, ha.dof] at h1
  exact h1

theorem rank_det (h : Reach E b d) (hD : b.Definite) (q : Fin b.dof → ℝ) {m : ℕ}
    {K : Matrix (Fin m) (Fin b.dof) ℝ} (hK : ∀ v, ∃ w, K *ᵥ w = v) :
    (projInv (b.massQ q)⁻¹ K).det ≠ 0 := by
  intro h0
  obtain ⟨v, hv, hz⟩ := Matrix.exists_mulVec_eq_zero_iff.2 h0
  have hdet := massQ_det h hD q
  set M := b.massQ q with hM
  have hsym : Mᵀ = M := massQ_symm h hD q
  set z := M⁻¹ *ᵥ (Kᵀ *ᵥ v) with hzd
  have hMz : M *ᵥ z = Kᵀ *ᵥ v := by
    rw [hzd, Matrix.mulVec_mulVec, Matrix.mul_nonsing_inv _ (Ne.isUnit hdet), Matrix.one_mulVec]
  have h1 : z = 0 := by
    by_contra hne
    have h2 := massQ_pos h hD q z hne
    rw [← hM, hMz, Matrix.dotProduct_mulVec, ← Matrix.mulVec_transpose, Matrix.transpose_transpose,
      hzd, Matrix.mulVec_mulVec, Matrix.mulVec_mulVec] at h2
    have h3 : (K * M⁻¹ * Kᵀ) *ᵥ v = 0 := hz
    rw [h3, zero_dotProduct] at h2
    exact lt_irrefl _ h2
  have h4 : Kᵀ *ᵥ v = 0 := by rw [← hMz, h1, Matrix.mulVec_zero]
  obtain ⟨w, hw⟩ := hK v
  have h5 := dot_pos hv
  nth_rw 2 [← hw] at h5
  rw [Matrix.dotProduct_mulVec, ← Matrix.mulVec_transpose, h4, zero_dotProduct] at h5
  exact lt_irrefl _ h5

/-- Entries of the error. -/
theorem errQ_entry (h : Reach E b d) (ha : b.AxesOK) (hd : 0 < b.dof) (a : CtlArgs C) {c : ℝ}
    (hc : c ≠ 0) (q : Fin b.dof → ℝ) (i : ℕ) (hi : i < 3 ∨ (C.Tracks a.quatDes c ∧
      (b.twAt (padFin q) (b.dof - 1)).R = C.toRot a.quatDes)) :
    ContDiffAt ℝ 1 (fun q => (⟨b.pointQ (b.dof - 1) a.xTask q - a.xDes,
      c⁻¹ • C.oriErr (C.ofRot (b.twAt (padFin q) (b.dof - 1)).R) a.quatDes⟩ : Motion).entry i) q ∧
    ∀ v, HasDerivAt (fun s : ℝ => (⟨b.pointQ (b.dof - 1) a.xTask (q + s • v) - a.xDes,
      c⁻¹ • C.oriErr (C.ofRot (b.twAt (padFin (q + s • v)) (b.dof - 1)).R) a.quatDes⟩ :
        Motion).entry i)
      ((jacVel b.dof (b.jacQ (b.dof - 1) a.xTask q) (padFin v)).entry i) 0 := by
  have hk : b.dof - 1 < b.dof := by omega
  have hs := pointQ_smooth h hk a.xTask
  have hl := fun v => (pointQ_deriv h ha hk a.xTask q v).1
  have hcd : ∀ {f : (Fin b.dof → ℝ) → ℝ}, Sm f → ContDiffAt ℝ 1 f q := fun hf =>
    (hf.of_le (by simp)).contDiffAt
  have ho : ¬ i < 3 → _ := fun hn => by
    have hi := hi.resolve_left hn
    exact (⟨(hi.1 b.dof (fun q => (b.twAt (padFin q) (b.dof - 1)).R) q (rotQ_smooth h hk)
      (fun p => twAt_valid h.inv.tree h.inv.rigid (padFin p) _ hk) hi.2).1, fun v => (hi.1 b.dof _ q (rotQ_smooth h hk)
      (fun p => twAt_valid h.inv.tree h.inv.rigid (padFin p) _ hk) hi.2).2 v _
        (pointQ_deriv h ha hk a.xTask q v).2⟩ : _ ∧ ∀ v, HasDerivVec _ _ _)
  have e : ∀ w : ℝ, c⁻¹ * (c * w) = w := fun w => by field_simp
  match i with
  | 0 => exact ⟨(hcd hs.x).sub contDiffAt_const, fun v => (hl v).x.sub_const _⟩
  | 1 => exact ⟨(hcd hs.y).sub contDiffAt_const, fun v => (hl v).y.sub_const _⟩
  | 2 => exact ⟨(hcd hs.z).sub contDiffAt_const, fun v => (hl v).z.sub_const _⟩
  | 3 =>
    obtain ⟨⟨h1, h2, h3⟩, h4⟩ := ho (by omega)
    refine ⟨contDiffAt_const.mul h1, fun v => ?_⟩
    exact ((h4 v).x.const_mul c⁻¹).congr_deriv (e _)
  | 4 =>
    obtain ⟨⟨h1, h2, h3⟩, h4⟩ := ho (by omega)
    refine ⟨contDiffAt_const.mul h2, fun v => ?_⟩
    exact ((h4 v).y.const_mul c⁻¹).congr_deriv (e _)
  | 5 =>
    obtain ⟨⟨h1, h2, h3⟩, h4⟩ := ho (by omega)
    refine ⟨contDiffAt_const.mul h3, fun v => ?_⟩
    exact ((h4 v).z.const_mul c⁻¹).congr_deriv (e _)
  | _ + 6 => exact ⟨contDiffAt_const, fun v => hasDerivAt_const _ _⟩

theorem errQ_deriv (h : Reach E b d) (ha : b.AxesOK) (hd : 0 < b.dof) (a : CtlArgs C) {c : ℝ}
    (hc : c ≠ 0) (q : Fin b.dof → ℝ) {m : ℕ} (hm : m ≤ 3 ∨ (C.Tracks a.quatDes c ∧
      (b.twAt (padFin q) (b.dof - 1)).R = C.toRot a.quatDes)) :
    ContDiffAt ℝ 1 (errQ C b a c m) q ∧
      HasFDerivAt (errQ C b a c m) (mv (b.rowsQ m (b.dof - 1) a.xTask q)) q := by
  have key := fun i : Fin m => errQ_entry h ha hd a hc q i (hm.imp_left fun hm => by omega)
  refine ⟨contDiffAt_pi.2 fun i => (key i).1, hasFDerivAt_pi'.2 fun i => ?_⟩
  refine hasFDerivAt_of_lines ((key i).1.differentiableAt (by simp)) fun v => ?_
  have := (key i).2 v
  rw [← rowsQ_mulVec b m] at this
  exact this

/-! ## Summary: what stability needs -/

/-- The controller aims at the configuration `q_des` with the first `m` rows of the Jacobian. -/
structure Aim (E : Ext) (b : Body) (a : CtlArgs C) (m : ℕ) (c : ℝ) : Prop where
  c0 : c ≠ 0
  gp : ∀ i, 0 < gainP a c m i
  gv : ∀ i, 0 < gainV a m i
  jp : 0 < a.kpKvJoint.1
  jv : 0 < a.kpKvJoint.2
  lim : a.ddxMax ≤ 0
  frame : a.quatTask = none
  grav : a.gravityComp = true
  post : a.qDes.length = b.dof
  mode : ∃ ρ > 0, ∀ q, ‖q - vecOf b.dof a.qDes‖ ≤ ρ →
    (m = 3 ∧ singQ E b a.xTask q) ∨ (m = 6 ∧ ¬ singQ E b a.xTask q ∧ a.dwMax ≤ 0)
  rank : (projInv (b.massQ (vecOf b.dof a.qDes))⁻¹
    (b.rowsQ m (b.dof - 1) a.xTask (vecOf b.dof a.qDes))).det ≠ 0
  zero : errQ C b a c m (vecOf b.dof a.qDes) = 0
  cd : ContDiffAt ℝ 1 (errQ C b a c m) (vecOf b.dof a.qDes)
  deriv : HasFDerivAt (errQ C b a c m)
    (mv (b.rowsQ m (b.dof - 1) a.xTask (vecOf b.dof a.qDes))) (vecOf b.dof a.qDes)

/-- Linear part of the closed loop. -/
noncomputable def aimLin (b : Body) (a : CtlArgs C) (m : ℕ) (c : ℝ) :
    State b.dof →L[ℝ] State b.dof :=
  let q0 := vecOf b.dof a.qDes
  let K := b.rowsQ m (b.dof - 1) a.xTask q0
  opLin K (dynInv (b.massQ q0)⁻¹ K) (gainP a c m) (gainV a m) a.kpKvJoint.1 a.kpKvJoint.2

section
variable {a : CtlArgs C} {m : ℕ} {c : ℝ}

theorem Aim.lyap (hA : Aim E b a m c) : Nonempty (Lyap (aimLin b a m c)) := by
  refine exists_opLyap (gram_det hA.rank) ?_ hA.gp hA.gv hA.jp hA.jv
  show _ * (_ * _ * _) = 1
  rw [← Matrix.mul_assoc, ← Matrix.mul_assoc]
  exact Matrix.mul_nonsing_inv _ (Ne.isUnit hA.rank)

theorem Aim.acc_cd (hA : Aim E b a m c) (h : Reach E b d) (hD : b.Definite) (hd : 0 < b.dof) :
    ContDiffAt ℝ 1 (accQ b a c m) (vecOf b.dof a.qDes, 0) :=
  opAcc_cd ((massQ_cd h _).inv (massQ_det h hD _)) (rowsQ_cd h m (by omega) _ _) hA.rank
    (gram_det hA.rank) hA.cd

theorem Aim.tau_cd (hA : Aim E b a m c) (h : Reach E b d) (hD : b.Definite) (hd : 0 < b.dof) :
    ContDiffAt ℝ 1 (b.tauOf (accQ b a c m)) (vecOf b.dof a.qDes, 0) :=
  tauOf_cd h (hA.acc_cd h hD hd)

theorem Aim.rest (hA : Aim E b a m c) (h : Reach E b d) (hD : b.Definite) (cc : Bool) :
    b.plant cc (b.tauOf (accQ b a c m) (vecOf b.dof a.qDes, 0), (vecOf b.dof a.qDes, 0)) = 0 :=
  plant_tauOf_zero h hD cc (opAcc_zero hA.zero)

theorem Aim.plant_deriv (hA : Aim E b a m c) (h : Reach E b d) (hD : b.Definite) (hd : 0 < b.dof)
    (cc : Bool) : HasFDerivAt (fun y => b.plant cc (b.tauOf (accQ b a c m) y, y)) (aimLin b a m c)
      (vecOf b.dof a.qDes, 0) :=
  plant_tauOf_deriv h hD cc (opAcc_deriv ((massQ_cd h _).inv (massQ_det h hD _))
    (rowsQ_cd h m (by omega) _ _) hA.rank (gram_det hA.rank) hA.zero hA.deriv)

/-- Near the goal the controller follows its law. -/
theorem Aim.near (hA : Aim E b a m c) (h : Reach E b d) (hD : b.Definite) (hd : 0 < b.dof)
    (h0 : (0 : ℝ) ∈ T) (hE : ∀ e ∈ T, E.LeastSquares e) (hL : C.Law U) :
    ∃ ρ > 0, ∀ dt t1 t2 t3 t4,
      Steers E b (Held E T) (b.tauOf (accQ b a c m)) (vecOf b.dof a.qDes, 0) ρ
        (fun B => B.opspaceControl E C
          { a with dt := dt, xThr := t1, dxThr := t2, oriThr := t3, wThr := t4 }) ∧
      (0 < dt → Shifts E b (Held E T) (b.tauOf (accQ b a c m)) (vecOf b.dof a.qDes, 0) ρ dt
        (fun B => B.opspaceControl E C
          { a with dt := dt, xThr := t1, dxThr := t2, oriThr := t3, wThr := t4 })) ∧
      ∀ y : State b.dof, ‖y - (vecOf b.dof a.qDes, 0)‖ ≤ ρ →
        (m = 3 ∧ singQ E b a.xTask y.1) ∨ (m = 6 ∧ ¬ singQ E b a.xTask y.1 ∧ a.dwMax ≤ 0) := by
  have hk : b.dof - 1 < b.dof := by omega
  obtain ⟨ρ1, hρ1, hm⟩ := hA.mode
  have hcont : ContinuousAt (fun q => (projInv (b.massQ q)⁻¹
      (b.rowsQ m (b.dof - 1) a.xTask q)).det) (vecOf b.dof a.qDes) := by
    have hK := rowsQ_cd h m hk a.xTask (vecOf b.dof a.qDes)
    exact (CdM.det ((hK.mul ((massQ_cd h _).inv (massQ_det h hD _))).mul hK.tr)).continuousAt
  obtain ⟨ρ2, hρ2, hX⟩ := Metric.eventually_nhds_iff.1 (hcont.eventually_ne hA.rank)
  have key : ∀ dt t1 t2 t3 t4 (y : State b.dof) B, ‖y - (vecOf b.dof a.qDes, 0)‖ ≤ min ρ1 (ρ2 / 2) → AtState E b y B →
      Held E T B → _ := fun dt t1 t2 t3 t4 y B hy hS hH =>
    hS.opspace (a := { a with dt := dt, xThr := t1, dxThr := t2, oriThr := t3, wThr := t4 }) hH h hD h0 hE hL hd hA.lim hA.frame hA.grav hA.post hA.c0
      (hm y.1 ((norm_fst_le (y - ((vecOf b.dof a.qDes, 0) : State b.dof))).trans (hy.trans (min_le_left _ _))))
      (hX (by
        rw [dist_eq_norm]
        have := (norm_fst_le (y - ((vecOf b.dof a.qDes, 0) : State b.dof))).trans (hy.trans (min_le_right _ _))
        exact lt_of_le_of_lt this (by linarith)))
  refine ⟨min ρ1 (ρ2 / 2), lt_min hρ1 (by linarith), fun dt t1 t2 t3 t4 => ⟨?_, ?_, ?_⟩⟩
  · intro y B hy hS hH
    obtain ⟨r, k1, k2, -⟩ := key dt t1 t2 t3 t4 y B hy hS hH
    exact ⟨r, k1, k2⟩
  · intro hdt y B hy hS hH
    obtain ⟨r, k1, k2, k3, k4⟩ := key dt t1 t2 t3 t4 y B hy hS hH
    exact ⟨r, k1, k3, k4 hdt⟩
  · intro y hy
    exact hm y.1 ((norm_fst_le (y - ((vecOf b.dof a.qDes, 0) : State b.dof))).trans (hy.trans (min_le_left _ _)))

/-- What the controller measures becomes small. -/
theorem Aim.small (hA : Aim E b a m c) (h : Reach E b d) (hd : 0 < b.dof) {ε : ℝ} (hε : 0 < ε) :
    ∃ δ > 0, ∀ y : State b.dof, ‖y - (vecOf b.dof a.qDes, 0)‖ ≤ δ →
      (∀ i, |errQ C b a c m y.1 i| < ε) ∧
      ∀ i < 6, |(jacVel b.dof (b.jacQ (b.dof - 1) a.xTask y.1) (padFin y.2)).entry i| < ε := by
  have hf : ContDiffAt ℝ 1 (fun y : State b.dof => y.1) (vecOf b.dof a.qDes, 0) := contDiffAt_fst
  have h1 : ContinuousAt (fun y : State b.dof => errQ C b a c m y.1) (vecOf b.dof a.qDes, 0) :=
    ContinuousAt.comp_of_eq (f := fun y : State b.dof => y.1) hA.cd.continuousAt continuousAt_fst rfl
  have h2 : ContinuousAt (fun y : State b.dof => b.rowsQ 6 (b.dof - 1) a.xTask y.1 *ᵥ y.2)
      (vecOf b.dof a.qDes, 0) :=
    (CdM.mulVec (A := fun y : State b.dof => b.rowsQ 6 (b.dof - 1) a.xTask y.1)
      (CdM.comp (f := fun y : State b.dof => y.1) (z := (vecOf b.dof a.qDes, 0))
        (rowsQ_cd h 6 (by omega) _ _) hf) contDiffAt_snd).continuousAt
  obtain ⟨δ1, hδ1, k1⟩ := Metric.continuousAt_iff.1 h1 ε hε
  obtain ⟨δ2, hδ2, k2⟩ := Metric.continuousAt_iff.1 h2 ε hε
  refine ⟨min δ1 δ2 / 2, by positivity, fun y hy => ?_⟩
  have hlt : dist y (vecOf b.dof a.qDes, 0) < min δ1 δ2 := by
    rw [dist_eq_norm]
    exact lt_of_le_of_lt hy (half_lt_self (lt_min hδ1 hδ2))
  have g1 := k1 (hlt.trans_le (min_le_left _ _))
  have g2 := k2 (hlt.trans_le (min_le_right _ _))
  dsimp only at g1 g2
  rw [hA.zero, dist_zero_right] at g1
  rw [Matrix.mulVec_zero, dist_zero_right] at g2
  refine ⟨fun i => (norm_le_pi_norm _ i).trans_lt g1, fun i hi => ?_⟩
  have := (norm_le_pi_norm _ ⟨i, hi⟩).trans_lt g2
  rw [rowsQ_mulVec] at this
  exact this

/-! ## Goals -/

theorem singularNear_mode (h : Reach E b d) (hD : b.Definite) (hd : 0 < b.dof) {off : Vec3}
    {goal : List ℝ} {P : Prop} (hs : b.SingularNear E off goal P) :
    ∃ ρ > 0, ∀ q, ‖q - vecOf b.dof goal‖ ≤ ρ → (singQ E b off q ↔ P) := by
  obtain ⟨ρ, hρ, hs⟩ := hs
  refine ⟨ρ, hρ, fun q hq => ?_⟩
  obtain ⟨b1, h1, hn⟩ := setQ_total (b := b) (q := List.ofFn q) (by simp)
  obtain ⟨hA, d', hr⟩ := atState_setQ h h1
  obtain ⟨j, hj⟩ := jacobian_total b1 (lastLink (b := b1) (by omega)) off
  obtain ⟨b4, p2⟩ := position_of_index hA.inv (lastLink (b := b1) (by omega)).index off
  obtain ⟨b5, o2⟩ := orientation_of_index hA.inv (lastLink (b := b1) (by omega)).index
  have eJ := (hA.reads hd ⟨⟨_, hj⟩, ⟨_, p2⟩, ⟨_, o2⟩⟩).1
  have e : (fun i : Fin b.dof => (List.ofFn q).getD i 0) = q := funext fun i => getD_ofFn _ i
  have := hs (List.ofFn q) b1 j.1 j.2 (fun i hi => by
    have e1 : (List.ofFn q).getD i 0 = q ⟨i, hi⟩ := getD_ofFn _ ⟨i, hi⟩
    rw [e1]
    exact (norm_le_pi_norm (q - vecOf b.dof goal) ⟨i, hi⟩).trans hq) h1 hj
  rw [← this, eJ]
  have h6 := hA.singular hr hD hd 6 (b.dof - 1) off 0.01
  refine Iff.trans ?_ h6.symm
  simp only [e]
  rfl

theorem point_aim (hG : PointGoal E b a) (h : Reach E b d) (hD : b.Definite) (hx : b.AxesOK)
    (hd : 0 < b.dof) : Aim E b a 3 1 := by
  obtain ⟨b1, J, R, h1, hR, hv⟩ := hG.reached
  obtain ⟨hA, d', hr⟩ := atState_setQ h h1
  obtain ⟨eJ, eX, -⟩ := hA.reads hd hR
  change J = b.jacQ (b.dof - 1) a.xTask (vecOf b.dof a.qDes) at eJ
  change a.xDes = b.pointQ (b.dof - 1) a.xTask (vecOf b.dof a.qDes) at eX
  have hde := errQ_deriv h hx hd a one_ne_zero (vecOf b.dof a.qDes) (m := 3) (.inl le_rfl)
  obtain ⟨ρ, hρ, hm⟩ := singularNear_mode h hD hd hG.singular
  obtain ⟨p1, p2, p3⟩ := hG.kp
  obtain ⟨v1, v2, v3⟩ := hG.kv
  refine ⟨one_ne_zero, ?_, ?_, hG.joint.1, hG.joint.2, hG.unlimited, hG.frame, hG.gravity, hG.posture,
    ⟨ρ, hρ, fun q hq => .inl ⟨rfl, (hm q hq).2 trivial⟩⟩, rank_det h hD _ fun v => ?_, ?_, hde.1,
    hde.2⟩
  · intro i; fin_cases i <;> assumption
  · intro i; fin_cases i <;> assumption
  · obtain ⟨w, hw⟩ := hv ⟨v 0, v 1, v 2⟩
    refine ⟨vec b.dof w, funext fun i => ?_⟩
    rw [rowsQ_mulVec, ← eJ]
    have : jacVel b.dof J (padFin (vec b.dof w)) = jacVel b.dof J w := by
      unfold jacVel
      refine sum_congr rfl fun j hj => ?_
      unfold padFin
      rw [dif_pos (mem_range.1 hj)]
      rfl
    rw [this]
    fin_cases i
    · exact congrArg Vec3.x hw
    · exact congrArg Vec3.y hw
    · exact congrArg Vec3.z hw
  · funext i
    unfold errQ
    rw [← eX]
    fin_cases i <;> simp [Motion.entry]

theorem pose_aim (hL : C.Law U) (hG : PoseGoal E U b a) (h : Reach E b d) (hD : b.Definite)
    (hx : b.AxesOK) (hd : 0 < b.dof) : ∃ c, Aim E b a 6 c := by
  obtain ⟨b1, J, h1, hR, hv⟩ := hG.reached
  obtain ⟨hA, d', hr⟩ := atState_setQ h h1
  obtain ⟨eJ, eX, eR⟩ := hA.reads hd hR
  change J = b.jacQ (b.dof - 1) a.xTask (vecOf b.dof a.qDes) at eJ
  change a.xDes = b.pointQ (b.dof - 1) a.xTask (vecOf b.dof a.qDes) at eX
  change C.toRot a.quatDes = (b.twAt (padFin (vecOf b.dof a.qDes)) (b.dof - 1)).R at eR
  obtain ⟨c, hc, ht⟩ := hG.tracks
  have hde := errQ_deriv h hx hd a hc.ne' (vecOf b.dof a.qDes) (m := 6) (.inr ⟨ht, eR.symm⟩)
  obtain ⟨ρ, hρ, hm⟩ := singularNear_mode h hD hd hG.regular
  obtain ⟨p1, p2, p3⟩ := hG.kp
  obtain ⟨v1, v2, v3⟩ := hG.kv
  obtain ⟨o1, o2⟩ := hG.ori
  have o3 : 0 < c * a.kpKvOri.1 := mul_pos hc o1
  refine ⟨c, hc.ne', ?_, ?_, hG.joint.1, hG.joint.2, hG.unlimited.1, hG.frame, hG.gravity, hG.posture,
    ⟨ρ, hρ, fun q hq => .inr ⟨rfl, fun hs => (hm q hq).1 hs, hG.unlimited.2⟩⟩,
    rank_det h hD _ fun v => ?_, ?_, hde.1, hde.2⟩
  · intro i; fin_cases i <;> assumption
  · intro i; fin_cases i <;> assumption
  · obtain ⟨w, hw⟩ := hv ⟨⟨v 0, v 1, v 2⟩, ⟨v 3, v 4, v 5⟩⟩
    refine ⟨vec b.dof w, funext fun i => ?_⟩
    rw [rowsQ_mulVec, ← eJ]
    have : jacVel b.dof J (padFin (vec b.dof w)) = jacVel b.dof J w := by
      unfold jacVel
      refine sum_congr rfl fun j hj => ?_
      unfold padFin
      rw [dif_pos (mem_range.1 hj)]
      rfl
    rw [this, hw]
    fin_cases i <;> rfl
  · have hrot := twAt_valid h.inv.tree h.inv.rigid (padFin (vecOf b.dof a.qDes)) (b.dof - 1) (by omega)
    have hz : C.oriErr (C.ofRot (b.twAt (padFin (vecOf b.dof a.qDes)) (b.dof - 1)).R) a.quatDes = 0 :=
      hL.ori_zero _ _ _ _ _ (hL.rot_unit _ hrot).1 hG.unit (by rw [(hL.rot_unit _ hrot).2, eR])
    funext i
    unfold errQ
    rw [← eX, hz]
    fin_cases i <;> simp [Motion.entry]

end

end Body
end SpatialDyn
