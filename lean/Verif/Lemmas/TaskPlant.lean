import Verif.Lemmas.TaskLoop
import Verif.Lemmas.LoopCode
import Verif.Lemmas.Kin
import Verif.Props.Posture

/-!
# A body under operational-space control as a dynamical system
-/

namespace SpatialDyn
open Finset Matrix OneStep Body
open scoped ContDiff

variable {E : Ext} {b : Body} {d : Bool} {n m : ℕ}

/-! ## The accelerations of two tasks, written out -/

/-- Full row rank does not depend on the metric. -/
theorem gram_det {B : Matrix (Fin n) (Fin n) ℝ} {K : Matrix (Fin m) (Fin n) ℝ}
    (hX : (projInv B K).det ≠ 0) : (K * Kᵀ).det ≠ 0 := by
  intro h0
  obtain ⟨v, hv, hz⟩ := Matrix.exists_mulVec_eq_zero_iff.2 h0
  have h1 : Kᵀ *ᵥ v = 0 := by
    by_contra hne
    have h2 := dot_pos hne
    rw [Matrix.dotProduct_mulVec, ← Matrix.mulVec_transpose, Matrix.transpose_transpose,
      Matrix.mulVec_mulVec, hz, zero_dotProduct] at h2
    exact lt_irrefl _ h2
  have h3 : projInv B K *ᵥ v = 0 := by
    show (K * B * Kᵀ) *ᵥ v = 0
    rw [← Matrix.mulVec_mulVec, h1, Matrix.mulVec_zero]
  exact hX (Matrix.exists_mulVec_eq_zero_iff.1 ⟨v, hv, h3⟩)

/-- The solution of the two nested minimisation problems. -/
theorem Body.Shares.eq {K : Matrix (Fin m) (Fin b.dof) ℝ} {ddx : Fin m → ℝ} {ddq a : Fin b.dof → ℝ}
    (hs : b.Shares K ddx ddq a) (hsym : b.massMᵀ = b.massM) (hdet : b.massM.det ≠ 0)
    (hpos : ∀ v : Fin b.dof → ℝ, v ≠ 0 → 0 < v ⬝ᵥ (b.massM *ᵥ v))
    (hX : (projInv b.massM⁻¹ K).det ≠ 0) :
    a = dynInv b.massM⁻¹ K *ᵥ ddx + restProj K *ᵥ ddq := by
  obtain ⟨a1, a2, rfl, ⟨h1, h2⟩, h3, h4⟩ := hs
  have hG := gram_det hX
  have e1 : dynInv b.massM⁻¹ K *ᵥ ddx = a1 := by
    by_contra hne
    set z := dynInv b.massM⁻¹ K *ᵥ ddx with hz
    have hKz : K *ᵥ z = ddx := by
      rw [hz, Matrix.mulVec_mulVec]
      have : K * dynInv b.massM⁻¹ K = 1 := by
        show K * (b.massM⁻¹ * Kᵀ * (projInv b.massM⁻¹ K)⁻¹) = 1
        rw [← Matrix.mul_assoc, ← Matrix.mul_assoc]
        exact Matrix.mul_nonsing_inv _ (Ne.isUnit hX)
      rw [this, Matrix.one_mulVec]
    have g1 := h2 z hKz hne
    have g2 := quad_min hsym hpos (x := z) (y := a1) (Ne.symm hne) (by
      rw [Matrix.dotProduct_mulVec, ← Matrix.mulVec_transpose, hsym]
      have : b.massM *ᵥ z = Kᵀ *ᵥ ((projInv b.massM⁻¹ K)⁻¹ *ᵥ ddx) := by
        rw [hz, Matrix.mulVec_mulVec, Matrix.mulVec_mulVec]
        congr 1
        show b.massM * (b.massM⁻¹ * Kᵀ * (projInv b.massM⁻¹ K)⁻¹) = _
        rw [← Matrix.mul_assoc, ← Matrix.mul_assoc, Matrix.mul_nonsing_inv _ (Ne.isUnit hdet),
          Matrix.one_mul]
      rw [this, dotProduct_comm, Matrix.dotProduct_mulVec, ← Matrix.mulVec_transpose,
        Matrix.transpose_transpose, Matrix.mulVec_sub, h1, hKz, sub_self, zero_dotProduct])
    exact lt_asymm g1 g2
  have e2 : restProj K *ᵥ ddq = a2 := by
    by_contra hne
    set z := restProj K *ᵥ ddq with hz
    have hKz : K *ᵥ z = 0 := by
      rw [hz, Matrix.mulVec_mulVec, mul_restProj hG, Matrix.zero_mulVec]
    have g1 := h4 z hKz hne
    have g2 := quad_min (A := (1 : Matrix (Fin b.dof) (Fin b.dof) ℝ)) (by simp)
      (fun v hv => by rw [Matrix.one_mulVec]; exact dot_pos hv)
      (x := z - ddq) (y := a2 - ddq) (fun e => hne (sub_left_injective e).symm) (by
        rw [Matrix.one_mulVec, sub_sub_sub_cancel_right]
        have hw : restProj K *ᵥ (a2 - z) = a2 - z :=
          restProj_fixes (by rw [Matrix.mulVec_sub, h3, hKz, sub_zero])
        rw [← hw, Matrix.dotProduct_mulVec, ← Matrix.mulVec_transpose, restProj_symm,
          Matrix.mulVec_sub, hz, Matrix.mulVec_mulVec, restProj_idem hG, sub_self, zero_dotProduct])
    rw [Matrix.one_mulVec, Matrix.one_mulVec] at g2
    exact lt_asymm g1 g2
  rw [e1, e2]

namespace Body

/-! ## Torques that realise given accelerations at rest -/

/-- Inertia matrix at given positions. -/
noncomputable def massQ (b : Body) (q : Fin b.dof → ℝ) : Matrix (Fin b.dof) (Fin b.dof) ℝ :=
  toMat b.dof (b.sysAt (padFin q) (fun _ => 0)).massSpec

/-- Torques against gravity at given positions. -/
noncomputable def gravQ (b : Body) (q : Fin b.dof → ℝ) : Fin b.dof → ℝ :=
  vec b.dof (b.sysAt (padFin q) (fun _ => 0)).gravitySpec

/-- Torques for the accelerations `f`. -/
noncomputable def tauOf (b : Body) (f : State b.dof → Fin b.dof → ℝ) (y : State b.dof) :
    Fin b.dof → ℝ := b.massQ y.1 *ᵥ f y + b.gravQ y.1

theorem massQ_eq (b : Body) (y : State b.dof) :
    b.massQ y.1 = toMat b.dof (b.sysAt (padFin y.1) (padFin y.2)).massSpec := rfl

theorem massQ_det (h : Reach E b d) (hd : b.Definite) (q : Fin b.dof → ℝ) : (b.massQ q).det ≠ 0 :=
  sysAt_det h hd (q, 0)

theorem plant_tauOf (h : Reach E b d) (hd : b.Definite) (f : State b.dof → Fin b.dof → ℝ) (cc : Bool)
    (y : State b.dof) : b.plant cc (b.tauOf f y, y) = (y.2, f y - b.ccAcc cc y) := by
  refine Prod.ext rfl ?_
  show b.accAt b.g (padFin (b.tauOf f y)) noExt cc true y = _
  unfold accAt ccAcc
  have hT : b.tauOf f y = toMat b.dof (b.sysAt (padFin y.1) (padFin y.2)).massSpec *ᵥ f y +
    vec b.dof (b.sysAt (padFin y.1) (padFin y.2)).gravitySpec := rfl
  rw [hT]
  set σ := b.sysAt (padFin y.1) (padFin y.2) with hσ
  have hg : (b.setG b.g).sysAt (padFin y.1) (padFin y.2) = σ := rfl
  have hdet : (toMat b.dof σ.massSpec).det ≠ 0 := sysAt_det h hd y
  rw [hg, vec_padFin]
  have e : toMat b.dof σ.massSpec *ᵥ f y + vec b.dof σ.gravitySpec -
      vec b.dof (σ.idSpec (fun _ => 0) noExt cc true) = toMat b.dof σ.massSpec *ᵥ f y -
        vec b.dof (fun i => if cc then σ.coriolisSpec i else 0) := by
    funext i
    have h0 : σ.extSpec noExt i = 0 := by
      simp [Sys.extSpec, Sys.genForce, noExt]
    simp only [Pi.sub_apply, Pi.add_apply, vec, Sys.idSpec, mul_zero, sum_const_zero, if_true, h0]
    ring
  rw [e, mulVec_sub, mulVec_mulVec, nonsing_inv_mul _ (isUnit_iff_ne_zero.2 hdet), one_mulVec]

theorem plant_tauOf_zero (h : Reach E b d) (hd : b.Definite) {f : State b.dof → Fin b.dof → ℝ}
    (cc : Bool) {q : Fin b.dof → ℝ} (h0 : f (q, 0) = 0) :
    b.plant cc (b.tauOf f (q, 0), (q, 0)) = 0 := by
  rw [plant_tauOf h hd]
  have := ccAcc_quadratic b cc q 0 0
  simp at this
  ext <;> simp [h0, this]

theorem plant_tauOf_deriv (h : Reach E b d) (hd : b.Definite) {f : State b.dof → Fin b.dof → ℝ}
    (cc : Bool) {q : Fin b.dof → ℝ} {f' : State b.dof →L[ℝ] Fin b.dof → ℝ}
    (hf : HasFDerivAt f f' (q, 0)) : HasFDerivAt (fun y => b.plant cc (b.tauOf f y, y))
      ((ContinuousLinearMap.snd ℝ _ _).prod f') (q, 0) := by
  rw [show (fun y => b.plant cc (b.tauOf f y, y)) = fun y => (y.2, f y - b.ccAcc cc y) from
    funext fun y => plant_tauOf h hd f cc y]
  have hc := quadratic_flat ((ccAcc_smooth h hd cc).differentiable (by simp) (q, 0))
    (ccAcc_quadratic b cc)
  have h2 := hasFDerivAt_snd.prodMk (hf.sub hc)
  rw [sub_zero] at h2
  exact h2

theorem massQ_cd (h : Reach E b d) (q : Fin b.dof → ℝ) : CdM b.massQ q := fun i j => by
  have := massSpec_smooth h.inv.tree (q := fun p : Fin b.dof → ℝ => padFin p) (w := fun _ _ => 0)
    (fun i _ => padFin_smooth contDiff_id i) i j
  exact (this.of_le (by simp)).contDiffAt

theorem tauOf_cd (h : Reach E b d) {f : State b.dof → Fin b.dof → ℝ} {y : State b.dof}
    (hf : ContDiffAt ℝ 1 f y) : ContDiffAt ℝ 1 (b.tauOf f) y := by
  refine ContDiffAt.add (CdM.mulVec (A := fun y : State b.dof => b.massQ y.1)
    (CdM.comp (f := fun y : State b.dof => y.1) (massQ_cd h _) contDiffAt_fst) hf) ?_
  refine contDiffAt_pi.2 fun i => ?_
  have := gravitySpec_smooth h.inv.tree (q := fun p : State b.dof => padFin p.1) (w := fun _ _ => 0)
    (fun i _ => padFin_smooth contDiff_fst i) i
  exact (this.of_le (by simp)).contDiffAt

/-! ## The point of a link -/

/-- The point `x` of link `k` at given positions. -/
noncomputable def pointQ (b : Body) (k : ℕ) (x : Vec3) (q : Fin b.dof → ℝ) : Vec3 :=
  (b.twAt (padFin q) k).app x

/-- Columns of its Jacobian. -/
noncomputable def jacQ (b : Body) (k : ℕ) (x : Vec3) (q : Fin b.dof → ℝ) (j : ℕ) : Motion :=
  ((b.sysAt (padFin q) (fun _ => 0)).Jw k j).atPoint (b.pointQ k x q)

theorem pointQ_smooth (h : Reach E b d) {k : ℕ} (hk : k < b.dof) (x : Vec3) :
    SmVec (b.pointQ k x) := by
  have hT := twAt_smooth h.inv.tree (q := fun p : Fin b.dof → ℝ => padFin p)
    (fun i _ => padFin_smooth contDiff_id i) k hk
  exact (hT.R.mulVec (SmVec.const x)).add hT.t

theorem rotQ_smooth (h : Reach E b d) {k : ℕ} (hk : k < b.dof) :
    SmMat fun q : Fin b.dof → ℝ => (b.twAt (padFin q) k).R :=
  (twAt_smooth h.inv.tree (q := fun p : Fin b.dof → ℝ => padFin p)
    (fun i _ => padFin_smooth contDiff_id i) k hk).R

theorem jacQ_smooth (h : Reach E b d) {k : ℕ} (hk : k < b.dof) (x : Vec3) (j : ℕ) :
    SmMotion fun q => b.jacQ k x q j := by
  have hJ := Jw_smooth h.inv.tree (q := fun p : Fin b.dof → ℝ => padFin p) (w := fun _ _ => 0)
    (fun i _ => padFin_smooth contDiff_id i) k j
  exact ⟨hJ.lin.add (hJ.ang.cross (pointQ_smooth h hk x)), hJ.ang⟩

theorem SmMotion.entry {X : Type*} [NormedAddCommGroup X] [NormedSpace ℝ X] {f : X → Motion}
    (h : SmMotion f) (i : ℕ) : Sm fun p => (f p).entry i := by
  match i with
  | 0 => exact h.lin.x
  | 1 => exact h.lin.y
  | 2 => exact h.lin.z
  | 3 => exact h.ang.x
  | 4 => exact h.ang.y
  | 5 => exact h.ang.z
  | _ + 6 => exact contDiff_const

/-- The rows `0 … m-1` of the Jacobian. -/
noncomputable def rowsQ (b : Body) (m k : ℕ) (x : Vec3) (q : Fin b.dof → ℝ) :
    Matrix (Fin m) (Fin b.dof) ℝ := Matrix.of fun i j => (b.jacQ k x q j).entry i

theorem rowsQ_cd (h : Reach E b d) (m : ℕ) {k : ℕ} (hk : k < b.dof) (x : Vec3) (q : Fin b.dof → ℝ) :
    CdM (b.rowsQ m k x) q := fun i j =>
  ((SmMotion.entry (jacQ_smooth h hk x j) i).of_le (by simp)).contDiffAt

theorem entry_sum (N : ℕ) (J : ℕ → Motion) (w : ℕ → ℝ) (i : ℕ) :
    (∑ j ∈ range N, w j • J j).entry i = ∑ j ∈ range N, w j * (J j).entry i := by
  induction N with
  | zero =>
    match i with
    | 0 => rfl
    | 1 => rfl
    | 2 => rfl
    | 3 => rfl
    | 4 => rfl
    | 5 => rfl
    | _ + 6 => rfl
  | succ N ih =>
    rw [sum_range_succ, sum_range_succ, ← ih]
    match i with
    | 0 => rfl
    | 1 => rfl
    | 2 => rfl
    | 3 => rfl
    | 4 => rfl
    | 5 => rfl
    | _ + 6 => simp [Motion.entry]

theorem rowsQ_mulVec (b : Body) (m k : ℕ) (x : Vec3) (q v : Fin b.dof → ℝ) (i : Fin m) :
    (b.rowsQ m k x q *ᵥ v) i = (jacVel b.dof (b.jacQ k x q) (padFin v)).entry i := by
  unfold jacVel
  rw [entry_sum, Finset.sum_range]
  unfold rowsQ Matrix.mulVec dotProduct
  refine sum_congr rfl fun j _ => ?_
  show (b.jacQ k x q j).entry i * v j = _
  rw [mul_comm]
  congr 1
  exact (congrFun (vec_padFin v) j).symm

/-- Velocities of the point and of the frame. -/
theorem pointQ_deriv (h : Reach E b d) (ha : b.AxesOK) {k : ℕ} (hk : k < b.dof) (x : Vec3)
    (q v : Fin b.dof → ℝ) :
    HasDerivVec (fun s : ℝ => b.pointQ k x (q + s • v))
      (jacVel b.dof (b.jacQ k x q) (padFin v)).lin 0 ∧
    HasDerivMat (fun s : ℝ => (b.twAt (padFin (q + s • v)) k).R)
      (skew (jacVel b.dof (b.jacQ k x q) (padFin v)).ang * (b.twAt (padFin q) k).R) 0 := by
  have htw := twAt_twist h.inv.tree h.inv.rigid ha (u := fun s : ℝ => padFin (q + s • v))
    (w := padFin v) (s := 0) (fun i _ => hasDerivAt_pad q v i) (fun _ => 0) k hk
  have e0 : q + (0 : ℝ) • v = q := by simp
  have hV : jacVel b.dof (b.jacQ k x q) (padFin v) =
      ((b.sysAt (padFin q) fun _ => 0).V (padFin v) k).atPoint (b.pointQ k x q) :=
    (Motion.atPoint_sum _ _ _ _).symm
  have h1 := htw.app x
  have h2 := htw.rot
  rw [e0] at h1 h2
  rw [hV]
  exact ⟨h1, h2⟩

/-- A derivative from its directions. -/
theorem hasFDerivAt_of_lines {N : ℕ} {f : (Fin N → ℝ) → ℝ} {q : Fin N → ℝ}
    {L : (Fin N → ℝ) →L[ℝ] ℝ} (hf : DifferentiableAt ℝ f q)
    (h : ∀ v, HasDerivAt (fun s : ℝ => f (q + s • v)) (L v) 0) : HasFDerivAt f L q := by
  have e : fderiv ℝ f q = L := by
    refine ContinuousLinearMap.ext fun v => ?_
    have l1 : HasDerivAt (fun s : ℝ => q + s • v) v 0 := by
      have := ((hasDerivAt_id (0 : ℝ)).smul_const v).const_add q
      simpa using this
    have l2 := HasFDerivAt.comp_hasDerivAt_of_eq (0 : ℝ) hf.hasFDerivAt l1 (by simp)
    exact l2.unique (h v)
  rw [← e]
  exact hf.hasFDerivAt

end Body
end SpatialDyn
