import Verif.Spec.Posture
import Verif.Lemmas.Control
import Verif.Props.Opspace

/-! The posture task of the controllers. -/

namespace SpatialDyn
open Matrix Body

section Algebra
variable {n m : ℕ}

/-- The projector of one task. -/
theorem projector_fixes {B : Matrix (Fin n) (Fin n) ℝ} {K : Matrix (Fin m) (Fin n) ℝ}
    {z : Fin n → ℝ} (hz : K *ᵥ z = 0) : (1 - dynInv B K * K) *ᵥ z = z := by
  rw [Matrix.sub_mulVec, Matrix.one_mulVec, ← Matrix.mulVec_mulVec, hz, Matrix.mulVec_zero, sub_zero]

/-- A least squares solution through the projected inertia. -/
theorem leastSquares_split {A N Y : Matrix (Fin n) (Fin n) ℝ} {K : Matrix (Fin m) (Fin n) ℝ}
    (hA : A.det ≠ 0) (hP : Projector A⁻¹ N) (hK : K * N = 0)
    (hfix : ∀ z, K *ᵥ z = 0 → N *ᵥ z = z)
    (h1 : N * A⁻¹ * Nᵀ * Y * (N * A⁻¹ * Nᵀ) = N * A⁻¹ * Nᵀ)
    (h2 : (N * A⁻¹ * Nᵀ * Y)ᵀ = N * A⁻¹ * Nᵀ * Y) (ddq : Fin n → ℝ) :
    K *ᵥ (A⁻¹ *ᵥ (Nᵀ *ᵥ (Y *ᵥ ddq))) = 0 ∧
    ∀ z, K *ᵥ z = 0 → (A⁻¹ *ᵥ (Nᵀ *ᵥ (Y *ᵥ ddq)) - ddq) ⬝ᵥ z = 0 := by
  have hX : A⁻¹ * Nᵀ = N * A⁻¹ * Nᵀ := by
    rw [hP.self, Matrix.mul_assoc, ← Matrix.transpose_mul, hP.idem]
  set X := N * A⁻¹ * Nᵀ with hXdef
  have e : A⁻¹ *ᵥ (Nᵀ *ᵥ (Y *ᵥ ddq)) = (X * Y) *ᵥ ddq := by
    rw [Matrix.mulVec_mulVec, Matrix.mulVec_mulVec, hX]
  rw [e]
  constructor
  · rw [Matrix.mulVec_mulVec, ← Matrix.mul_assoc]
    have : K * X = 0 := by rw [hXdef, ← Matrix.mul_assoc, ← Matrix.mul_assoc, hK]; simp
    rw [this]; simp
  · intro z hz
    have hz' : z = X *ᵥ (A *ᵥ z) := by
      rw [← hX, ← hP.self, Matrix.mulVec_mulVec, Matrix.mul_assoc,
        Matrix.nonsing_inv_mul _ (Ne.isUnit hA), Matrix.mul_one, hfix z hz]
    have hPz : (X * Y) *ᵥ z = z := by
      rw [hz', Matrix.mulVec_mulVec, h1]
    rw [sub_dotProduct]
    have : (X * Y) *ᵥ ddq ⬝ᵥ z = ddq ⬝ᵥ z := by
      rw [dotProduct_comm, Matrix.dotProduct_mulVec, ← Matrix.mulVec_transpose, h2, hPz,
        dotProduct_comm]
    rw [this, sub_self]

/-- Orthogonality gives the strict minimum. -/
theorem quad_min {A : Matrix (Fin n) (Fin n) ℝ} (hA : Aᵀ = A) (hpos : ∀ v, v ≠ 0 → 0 < v ⬝ᵥ (A *ᵥ v))
    {x y : Fin n → ℝ} (hne : y ≠ x) (ho : x ⬝ᵥ (A *ᵥ (y - x)) = 0) :
    x ⬝ᵥ (A *ᵥ x) < y ⬝ᵥ (A *ᵥ y) := by
  have h := hpos (y - x) (sub_ne_zero.2 hne)
  have hs : (y - x) ⬝ᵥ (A *ᵥ x) = 0 := by
    rw [Matrix.dotProduct_mulVec, ← Matrix.mulVec_transpose, hA, dotProduct_comm]; exact ho
  have e : y = x + (y - x) := by abel
  generalize y - x = z at *
  rw [e, Matrix.mulVec_add, add_dotProduct, dotProduct_add, dotProduct_add, ho, hs]
  linarith

theorem dot_pos {v : Fin n → ℝ} (hv : v ≠ 0) : 0 < v ⬝ᵥ v := by
  obtain ⟨i, hi⟩ := Function.ne_iff.1 hv
  exact Finset.sum_pos' (fun j _ => mul_self_nonneg _) ⟨i, Finset.mem_univ _, mul_self_pos.2 hi⟩

end Algebra

namespace Body
variable {E : Ext} {C : Ctl} {b b' : Body} {d : Bool} {T : Set ℝ}

theorem effort_pos (h : Reach E b d) (hd : b.Definite) {v : Fin b.dof → ℝ} (hv : v ≠ 0) :
    0 < v ⬝ᵥ (b.massM *ᵥ v) := by
  obtain ⟨i, hi⟩ := Function.ne_iff.1 hv
  have := C24_positive_definite h hd (padFin v) ⟨i, i.2, by simpa [padFin] using hi⟩
  refine this.trans_eq ?_
  rw [Finset.sum_range]
  unfold dotProduct
  refine Finset.sum_congr rfl fun i _ => ?_
  rw [Finset.sum_range, Matrix.mulVec, dotProduct, Finset.mul_sum]
  refine Finset.sum_congr rfl fun j _ => ?_
  simp [padFin, massM, toMat, mul_assoc]

/-- Torques of a plain task with nullspace matrix, whatever `PseudoInverse` answers. -/
theorem opsTask_force (h : Inv E b) (hs : Step E b b') (hd : PosMat b.massM) {J : DMat} {m : ℕ}
    {JM : Matrix (Fin m) (Fin b.dof) ℝ} (hJ : J.Is JM) {N : DMat}
    {NM : Matrix (Fin b.dof) (Fin b.dof) ℝ} (hN : NullIs N NM) {Y : Matrix (Fin m) (Fin m) ℝ}
    (hY : (E.pinv (DMat.ofM (b.taskInv (JM * NM))) 0).1.Is Y)
    {ddx : ℕ → ℝ} {r : (ℕ → ℝ) × DMat × Body} (hr : b'.opsTask E J ddx N = .ok r) :
    vec b.dof r.1 = (JM * NM)ᵀ *ᵥ (Y *ᵥ vec m ddx) := by
  obtain ⟨s, hs', rfl⟩ := opsTask_eq hr
  obtain ⟨l, s1, s2, s3, s4, hl, hs1, hs2, hs3, hs4, -, hr1, -⟩ :=
    opsInverseDynamics_parts (h.step hs) hs'
  have hK := hN.jx hJ
  have hL : l.1.Is Y := by
    obtain ⟨c', rfl, hc⟩ := id hs
    have e := massM_cast h hs
    have e2 := taskInv_cast h hs (JM * NM)
    have := (opsInertia_eq (h.step hs) (by rw [e]; exact hd) hK hl).1
    rw [this, e2]
    exact hY
  simp only [opsAdd, OpsOpts.make, Bool.false_eq_true, if_false] at hs1 hs2 hs3 hs4
  cases hs1; cases hs2; cases hs3; cases hs4
  show vec b.dof s.1 = _
  rw [hr1]
  rw [vec_mulVec_tr hK]
  congr 1
  funext i
  show clipForce _ _ _ i = _
  unfold clipForce
  rw [if_neg (fun hc => absurd hc.1 (not_lt.2 le_rfl))]
  exact hL.mulVec ddx i

/-- A task and the posture task in its nullspace. -/
theorem opsTask_shares (h : Careful E T b d) (hD : b.Definite) (h0 : (0 : ℝ) ∈ T)
    (hE : E.LeastSquares 0) (hs : Step E b b') (ht : TolC E T b'.c.ops) {K : DMat}
    (hR : b.Regular E T K) {N : DMat} (hN : NullIs N (1 : Matrix (Fin b.dof) (Fin b.dof) ℝ))
    {ddx : ℕ → ℝ} {t : (ℕ → ℝ) × DMat × Body} (hr : b'.opsTask E K ddx N = .ok t)
    {b2 : Body} (hs2 : Step E b b2) {ddq : ℕ → ℝ} {j : (ℕ → ℝ) × DMat × Body}
    (hj : b2.opsTask E (DMat.id b.dof) ddq t.2.1 = .ok j) :
    b.Shares (K.mat K.rows b.dof) (vec K.rows ddx) (vec b.dof ddq)
      (b.massM⁻¹ *ᵥ (vec b.dof t.1 + vec b.dof j.1)) := by
  have hm := hD.massive h.inv.tree
  have hd : PosMat b.massM := (hD.form h.reach).mat
  have hsym := massM_symm h.reach hm
  have hB := massM_inv_symm h.reach hm
  obtain ⟨k1, -, k3, -⟩ := opsTask_pair h hm (hD.form h.reach) h0 hs ht hR hN hr
  obtain ⟨hc, hX, hEx⟩ := hR
  set KM := K.mat K.rows b.dof with hKM
  have hK : K.Is KM := ⟨rfl, hc, fun _ _ => rfl⟩
  obtain ⟨s, hs', rfl⟩ := opsTask_eq hr
  obtain ⟨⟨F, f1, f2⟩, ⟨N', e1, -, e3⟩, st, tt⟩ := opsInverseDynamics_is h.inv hs ht hd hK hN
    (by rw [Matrix.mul_one]; exact hEx) h0 (by intro hc; cases hc) hs'
  have p1 : Projector b.massM⁻¹ (1 : Matrix (Fin b.dof) (Fin b.dof) ℝ) := Projector.one _
  have hX' : (projInv b.massM⁻¹ (KM * (1 : Matrix (Fin b.dof) (Fin b.dof) ℝ))).det ≠ 0 := by
    rw [Matrix.mul_one]; exact hX
  have p2 := p1.next (J := KM) hB hX'
  have p3 := p1.blocks (J := KM) hX'
  rw [Matrix.mul_one, Matrix.mul_one] at e3 p2
  rw [Matrix.mul_one, Matrix.mul_one] at p3
  have e1' : s.2.1.getD N = N' := by rw [e1]; rfl
  dsimp only at hj
  rw [e1'] at hj
  obtain ⟨Y, y1, y2, y3⟩ := hE b.dof
    (b.taskInv ((1 : Matrix (Fin b.dof) (Fin b.dof) ℝ) * (1 - dynInv b.massM⁻¹ KM * KM)))
  have hf := opsTask_force h.inv hs2 hd (DMat.id_is b.dof) e3 y1 hj
  rw [Matrix.one_mul] at hf y2 y3
  obtain ⟨g1, g2⟩ := leastSquares_split hd.det_ne p2 p3 (fun z hz => projector_fixes hz) y2 y3
    (vec b.dof ddq)
  rw [← hf] at g1 g2
  refine ⟨b.massM⁻¹ *ᵥ vec b.dof s.1, b.massM⁻¹ *ᵥ vec b.dof j.1, Matrix.mulVec_add _ _ _,
    ⟨k3, ?_⟩, ⟨g1, ?_⟩⟩
  · intro z hz hne
    refine quad_min hsym (fun v hv => effort_pos h.reach hD hv) hne ?_
    rw [Matrix.dotProduct_mulVec, ← Matrix.mulVec_transpose, hsym, Matrix.mulVec_mulVec,
      Matrix.mul_nonsing_inv _ (Ne.isUnit hd.det_ne), Matrix.one_mulVec, f1, Matrix.mul_one,
      dotProduct_comm, Matrix.dotProduct_mulVec, ← Matrix.mulVec_transpose,
      Matrix.transpose_transpose, Matrix.mulVec_sub, hz]
    have f1' : vec b.dof s.1 = KMᵀ *ᵥ F := by rw [f1, Matrix.mul_one]
    rw [show KM *ᵥ (b.massM⁻¹ *ᵥ (KMᵀ *ᵥ F)) = vec K.rows ddx from by rw [← f1']; exact k3, sub_self,
      zero_dotProduct]
  · intro z hz hne
    have := quad_min (A := (1 : Matrix (Fin b.dof) (Fin b.dof) ℝ)) (by simp)
      (fun v hv => by rw [Matrix.one_mulVec]; exact dot_pos hv)
      (x := b.massM⁻¹ *ᵥ vec b.dof j.1 - vec b.dof ddq) (y := z - vec b.dof ddq)
      (fun e => hne (sub_left_injective e)) (by
        rw [Matrix.one_mulVec, sub_sub_sub_cancel_right]
        exact g2 _ (by rw [Matrix.mulVec_sub, hz, g1, sub_zero]))
    simpa only [Matrix.one_mulVec] using this

/-- The torques of the controller. -/
theorem ctlTorque_shares (h : Careful E T b d) (hD : b.Definite) (h0 : (0 : ℝ) ∈ T)
    (hE : E.LeastSquares 0) (hs : Step E b b') (ht : TolC E T b'.c.ops) {a : CtlArgs C}
    {m : Measured} {t : (ℕ → ℝ) × (Bool × Bool) × Body} (hr : b'.ctlTorque E C a m = .ok t)
    {K : DMat} (hK : K = if t.2.1.1 then jac3 b.dof m.J else jac6 b.dof m.J)
    (hR : b.Regular E T K) :
    b.Shares (K.mat K.rows b.dof) (vec K.rows (ddxDw m.pos.1 m.ori.1))
      (C.pdN b.dof (vecOf b.dof b.q) (vecOf b.dof a.qDes) (vecOf b.dof b.dq) a.kpKvJoint 0).1
      (b.massM⁻¹ *ᵥ (vec b.dof t.1 -
        (if a.gravityComp then vec b.dof b.fresh.gravitySpec else 0))) := by
  have hdof := hs.dof_eq
  obtain ⟨s, hs', hr⟩ := Out.bind_ok hr
  obtain ⟨ddq, hddq, hr⟩ := Out.bind_ok hr
  obtain ⟨j, hj, hr⟩ := Out.bind_ok hr
  dsimp only at hr
  rw [hdof] at hj
  have htt : t.2.1.1 = s.2.2.1.1 := by
    split at hr <;> cases hr <;> rfl
  rw [htt] at hK
  have hpd : ∀ _ : Step E b s.2.2.2, vec b.dof ddq =
      (C.pdN b.dof (vecOf b.dof b.q) (vecOf b.dof a.qDes) (vecOf b.dof b.dq) a.kpKvJoint 0).1 := by
    intro hst
    obtain ⟨-, -, hddq⟩ := Out.bind_ok hddq
    cases hddq
    obtain ⟨c', e, -⟩ := id hst
    rw [e]
    funext i
    have hi : i.1 < Body.dof { b with c := c' } := i.2
    show padFin _ i.1 = _
    unfold padFin
    rw [dif_pos hi]
    rfl
  have hv : ∀ _ : Step E b s.2.2.2,
      vec b.dof t.1 - (if a.gravityComp then vec b.dof b.fresh.gravitySpec else 0) =
      vec b.dof s.1 + vec b.dof j.1 := by
    intro hst
    have h2 := hst.trans (opsTask_step (h.inv.step hst) hj)
    split at hr
    · next hg =>
      cases hr
      funext i
      have := (gravity_run (h.inv.step h2)).2 i (by rw [h2.dof_eq]; exact i.2)
      rw [h2.fresh_eq] at this
      simp [vec, this, hg]
    · next hg =>
      cases hr
      funext i
      simp [vec, hg]
  obtain ⟨s6, h6, hs'⟩ := Out.bind_ok hs'
  have st6 := hs.trans (opsIsSingular_run (h.inv.step hs) h6).1
  have t6 := opsIsSingular_tol ht h6
  rw [hdof] at h6 hs'
  cases e6 : s6.1 with
  | true =>
    rw [e6, if_pos rfl] at hs'
    obtain ⟨t', ht', hs'⟩ := Out.bind_ok hs'
    obtain ⟨s3, hs3, hs'⟩ := Out.bind_ok hs'
    cases hs'
    rw [if_pos rfl] at hK
    subst hK
    have k1 := st6.trans (opsTask_step (h.inv.step st6) ht')
    have k5 := k1.trans (opsIsSingular_run (h.inv.step k1) hs3).1
    rw [hv k5, ← hpd k5]
    exact opsTask_shares h hD h0 hE st6 t6 hR (id_nullIs _) ht' k5 hj
  | false =>
    rw [e6, if_neg (by simp)] at hs'
    obtain ⟨t', ht', hs'⟩ := Out.bind_ok hs'
    cases hs'
    rw [if_neg (by simp)] at hK
    subst hK
    have k1 := st6.trans (opsTask_step (h.inv.step st6) ht')
    rw [hv k1, ← hpd k1]
    exact opsTask_shares h hD h0 hE st6 t6 hR (id_nullIs _) ht' k1 hj

end Body
end SpatialDyn
