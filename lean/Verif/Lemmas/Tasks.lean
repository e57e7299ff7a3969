import Verif.Lemmas.DMatrix
import Verif.Props.Forward

/-! Matrices of the operational-space functions along a sequence of calls. -/

namespace SpatialDyn
open Matrix Body

variable {E : Ext} {b : Body} {d : Bool} {T : Set ℝ}

namespace Body

theorem massM_cast (h : Inv E b) {c' : Cache} (h1 : Step E b { b with c := c' }) :
    Body.massM { b with c := c' } = b.massM :=
  massM_step h h1 (inertia_run (h.step h1)).2.1

theorem taskInv_cast (h : Inv E b) {c' : Cache} (h1 : Step E b { b with c := c' }) {m : ℕ}
    (JM : Matrix (Fin m) (Fin b.dof) ℝ) :
    Body.taskInv { b with c := c' } JM = b.taskInv JM := by
  have := massM_cast h h1
  unfold taskInv
  rw [this]
  rfl

theorem opsInertia_is_step (h : Inv E b) {b' : Body} (hs : Step E b b') (hd : PosMat b.massM)
    {J : DMat} {m : ℕ} {JM : Matrix (Fin m) (Fin b.dof) ℝ} (hJ : J.Is JM) {eps : ℝ}
    (hE : Exact E (b.taskInv JM) eps) {r : DMat × Body}
    (hr : b'.opsInertia E J eps = .ok r) : r.1.Is (b.taskInv JM)⁻¹ := by
  obtain ⟨c', rfl, hc⟩ := id hs
  have e := massM_cast h hs
  have e2 := taskInv_cast h hs JM
  have := opsInertia_is (h.step hs) (by rw [e]; exact hd) hJ (eps := eps) (by rw [e2]; exact hE) hr
  rw [e2] at this
  exact this

theorem opsJbar_is_step (h : Inv E b) {b' : Body} (hs : Step E b b') (ht : TolC E T b'.c.ops)
    (hd : PosMat b.massM) {J : DMat} {m : ℕ} {JM : Matrix (Fin m) (Fin b.dof) ℝ} (hJ : J.Is JM)
    {eps : ℝ} (he : eps ∈ T) (hE : ∀ e ∈ T, Exact E (b.taskInv JM) e) {r : DMat × Body}
    (hr : b'.opsJbar E J eps = .ok r) : r.1.Is (dynInv b.massM⁻¹ JM) := by
  obtain ⟨c', rfl, hc⟩ := id hs
  have e := massM_cast h hs
  have e2 := taskInv_cast h hs JM
  have := opsJbar_is (h.step hs) ht (by rw [e]; exact hd) hJ he (by rw [e2]; exact hE) hr
  rw [e2, e] at this
  exact this

end Body

theorem massM_symm (h : Reach E b d) (hm : b.Massive) : b.massMᵀ = b.massM := by
  ext i j
  exact C24_symmetric h hm j i j.2 i.2

theorem massM_inv_symm (h : Reach E b d) (hm : b.Massive) : (b.massM⁻¹)ᵀ = b.massM⁻¹ := by
  rw [Matrix.transpose_nonsing_inv, massM_symm h hm]

/-- `ForwardDynamics` in matrix form. -/
theorem fd_matrix (h : Reach E b d) (hm : b.Massive) (hn : DefiniteForm b.dof b.inertia.1)
    (tau : ℕ → ℝ) (fext : FExt) (o : FDOpts) (hf : o.friction = false) :
    vec b.dof (b.fd E tau fext o).1 = b.massM⁻¹ *ᵥ (vec b.dof tau -
      vec b.dof (b.fresh.idSpec (fun _ => 0) fext o.cc o.gravity)) := by
  have hd : PosMat b.massM := hn.mat
  have key : b.massM *ᵥ vec b.dof (b.fd E tau fext o).1 = vec b.dof tau -
      vec b.dof (b.fresh.idSpec (fun _ => 0) fext o.cc o.gravity) := by
    funext i
    have := fd_solves h hm hn tau fext o i i.2
    unfold Sys.fdRhs at this
    simp only [hf, Bool.false_eq_true, if_false] at this
    show (toMat b.dof b.inertia.1 *ᵥ fun j : Fin b.dof => (b.fd E tau fext o).1 j) i = _
    rw [Sys.toMat_mulVec]
    rw [Finset.sum_congr rfl fun j hj => by
      rw [inertia_entry h hm i j i.2 (Finset.mem_range.1 hj)], this]
    rfl
  rw [← key, Matrix.mulVec_mulVec, Matrix.nonsing_inv_mul _ (Ne.isUnit hd.det_ne), Matrix.one_mulVec]

theorem effect_eq (h : Reach E b d) (hm : b.Massive) (hn : DefiniteForm b.dof b.inertia.1)
    (tau0 : ℕ → ℝ) (fext : FExt) (o : FDOpts) (hf : o.friction = false) (tau : ℕ → ℝ) :
    b.effect E tau0 fext o tau = b.massM⁻¹ *ᵥ vec b.dof tau := by
  unfold Body.effect
  rw [fd_matrix h hm hn _ _ _ hf, fd_matrix h hm hn _ _ _ hf, ← Matrix.mulVec_sub]
  congr 1
  funext i
  simp [vec]

/-- The matrix meant by the argument `N` of `opspace::InverseDynamics`. -/
def NullIs {n : ℕ} (N : DMat) (NM : Matrix (Fin n) (Fin n) ℝ) : Prop :=
  (N.size = 0 ∧ NM = 1) ∨ (0 < N.size ∧ N.Is NM)

theorem NullIs.jx {n m : ℕ} {N : DMat} {NM : Matrix (Fin n) (Fin n) ℝ} (hN : NullIs N NM)
    {J : DMat} {JM : Matrix (Fin m) (Fin n) ℝ} (hJ : J.Is JM) :
    (opsJx J (some N)).Is (JM * NM) := by
  unfold opsJx
  rcases hN with ⟨h1, h2⟩ | ⟨h1, h2⟩
  · simp only [h1, lt_irrefl, if_false]
    rw [h2, Matrix.mul_one]; exact hJ
  · simp only [h1, if_true]
    exact hJ.mul h2

/-- The nullspace matrix after a call. -/
theorem opsNull_is (h : Inv E b) {b' : Body} (hs : Step E b b') (ht : TolC E T b'.c.ops)
    (hd : PosMat b.massM) {K : DMat} {m : ℕ} {KM : Matrix (Fin m) (Fin b.dof) ℝ} (hK : K.Is KM)
    {N : DMat} {NM : Matrix (Fin b.dof) (Fin b.dof) ℝ} (hN : NullIs N NM)
    {eps : ℝ} (he : eps ∈ T) (hE : ∀ e ∈ T, Exact E (b.taskInv KM) e) {r : Option DMat × Body}
    (hr : b'.opsNull E K (some N) eps = .ok r) :
    ∃ N', r.1 = some N' ∧ N'.Is ((1 - dynInv b.massM⁻¹ KM * KM) * NM) ∧
      NullIs N' ((1 - dynInv b.massM⁻¹ KM * KM) * NM) := by
  obtain ⟨s, hs', hr⟩ := Out.bind_ok hr
  obtain ⟨-, -, hr⟩ := Out.bind_ok hr
  have h1 := opsJbar_is_step h hs ht hd hK he hE hs'
  cases hr
  have hP : ((DMat.id b'.dof).sub (s.1.mul K)).Is (1 - dynInv b.massM⁻¹ KM * KM) := by
    rw [hs.dof_eq]
    exact (DMat.id_is b.dof).sub (h1.mul hK)
  refine ⟨_, rfl, ?_, ?_⟩
  all_goals
    have hmain : (if N.size = 0 then (DMat.id b'.dof).sub (s.1.mul K)
        else ((DMat.id b'.dof).sub (s.1.mul K)).mul N).Is
        ((1 - dynInv b.massM⁻¹ KM * KM) * NM) := by
      rcases hN with ⟨h2, h3⟩ | ⟨h2, h3⟩
      · rw [if_pos h2, h3, Matrix.mul_one]; exact hP
      · rw [if_neg h2.ne']; exact hP.mul h3
  · exact hmain
  · rcases Nat.eq_zero_or_pos (if N.size = 0 then (DMat.id b'.dof).sub (s.1.mul K)
        else ((DMat.id b'.dof).sub (s.1.mul K)).mul N).size with h0 | h0
    · refine .inl ⟨h0, ?_⟩
      have h0 := (Nat.mul_eq_zero.1 h0)
      rw [hmain.rows, hmain.cols] at h0
      have h00 : b.dof = 0 := by simpa using h0
      ext i
      exact absurd i.2 (by omega)
    · exact .inr ⟨h0, hmain⟩

theorem vec_mulVec_tr {n m : ℕ} {K : DMat} {KM : Matrix (Fin m) (Fin n) ℝ} (hK : K.Is KM)
    (F : ℕ → ℝ) : vec n (K.tr.mulVec F) = KMᵀ *ᵥ vec m F := by
  funext i
  exact hK.tr.mulVec F i

/-- A call of `opspace::InverseDynamics` with a nullspace matrix: the torques act through the
projected Jacobian, and the nullspace matrix is updated. -/
theorem opsInverseDynamics_is (h : Inv E b) {b' : Body} (hs : Step E b b')
    (ht : TolC E T b'.c.ops) (hd : PosMat b.massM) {J : DMat} {m : ℕ}
    {JM : Matrix (Fin m) (Fin b.dof) ℝ} (hJ : J.Is JM)
    {N : DMat} {NM : Matrix (Fin b.dof) (Fin b.dof) ℝ} (hN : NullIs N NM)
    (hE : ∀ e ∈ T, Exact E (b.taskInv (JM * NM)) e) {ddx : ℕ → ℝ} {fext : FExt} {se : Bool}
    {o : OpsOpts} (he : o.svdEps ∈ T) (h0 : o.cc = true → (0 : ℝ) ∈ T)
    {r : (ℕ → ℝ) × Option DMat × Body}
    (hr : b'.opsInverseDynamics E J ddx (some N) fext se o = .ok r) :
    (∃ F : Fin m → ℝ, vec b.dof r.1 = (JM * NM)ᵀ *ᵥ F ∧
      (se = false → o.gravity = false → o.cc = false → o.friction = false → o.fAccMax ≤ 0 →
        F = (b.taskInv (JM * NM))⁻¹ *ᵥ vec m ddx)) ∧
    (∃ N', r.2.1 = some N' ∧ N'.Is ((1 - dynInv b.massM⁻¹ (JM * NM) * (JM * NM)) * NM) ∧
      NullIs N' ((1 - dynInv b.massM⁻¹ (JM * NM) * (JM * NM)) * NM)) ∧
    Step E b r.2.2 ∧ TolC E T r.2.2.c.ops := by
  have h' := h.step hs
  have tend := opsInverseDynamics_tol h' ht he h0 hr
  obtain ⟨l, s1, s2, s3, s4, hl, hs1, hs2, hs3, hs4, hNu, hr1, k0, k1, k2, k3, k4, k5⟩ :=
    opsInverseDynamics_parts h' hr
  have hK := hN.jx hJ
  have t0 := opsInertia_tol ht hl
  have t1 := opsAdd_tol t0 (fun _ r hr => opsExternal_tol (h'.step k0) t0 he hr) hs1
  have t2 := opsAdd_tol t1 (fun _ r hr => opsGravity_tol (h'.step k1) t1 he hr) hs2
  have t3 := opsAdd_tol t2 (fun hc r hr => opsCoriolis_tol (h'.step k2) t2 (h0 hc) hr) hs3
  have t4 := opsAdd_tol t3 (fun _ r hr => opsFriction_tol (h'.step k3) t3 he hr) hs4
  refine ⟨⟨vec m s4.1, by rw [hr1]; exact vec_mulVec_tr hK _, ?_⟩,
    opsNull_is h (hs.trans k4) t4 hd hK hN he hE hNu, hs.trans k5, tend⟩
  intro e1 e2 e3 e4 e5
  have hL := opsInertia_is_step h hs hd hK (hE _ he) hl
  simp only [opsAdd, e1, e2, e3, e4, Bool.false_eq_true, if_false] at hs1 hs2 hs3 hs4
  cases hs1; cases hs2; cases hs3; cases hs4
  funext i
  show clipForce _ _ _ i = _
  unfold clipForce
  rw [if_neg (fun hc => absurd hc.1 (not_lt.2 e5))]
  exact hL.mulVec ddx i

end SpatialDyn
