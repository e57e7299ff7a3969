import Verif.Lemmas.Cascade
import Verif.Lemmas.DMatrix
import Mathlib.Analysis.Calculus.ContDiff.FiniteDimension

/-!
# Operational-space control as a dynamical system

A task with Jacobian `K` and error `e`, controlled through the dynamically consistent inverse, and a
joint task in the remaining directions: near a configuration where the error vanishes and the Jacobian
has full rank this is, to first order, a stable system driving another one.
-/

namespace SpatialDyn
open Finset Matrix OneStep
open scoped ContDiff Topology

/-! ## Smooth matrices -/

section SmoothAt
variable {X : Type*} [NormedAddCommGroup X] [NormedSpace ℝ X] {x : X} {k m n p : ℕ}

/-- Entries with continuous derivatives near a point. -/
def CdM (A : X → Matrix (Fin m) (Fin n) ℝ) (x : X) : Prop :=
  ∀ i j, ContDiffAt ℝ 1 (fun p => A p i j) x

theorem CdM.const (A : Matrix (Fin m) (Fin n) ℝ) : CdM (fun _ => A) x := fun _ _ => contDiffAt_const

theorem CdM.mul {A : X → Matrix (Fin m) (Fin n) ℝ} {B : X → Matrix (Fin n) (Fin k) ℝ}
    (hA : CdM A x) (hB : CdM B x) : CdM (fun p => A p * B p) x := fun i j => by
  simp only [Matrix.mul_apply]
  exact ContDiffAt.sum fun l _ => (hA i l).mul (hB l j)

theorem CdM.sub {A B : X → Matrix (Fin m) (Fin n) ℝ} (hA : CdM A x) (hB : CdM B x) :
    CdM (fun p => A p - B p) x := fun i j => (hA i j).sub (hB i j)

theorem CdM.tr {A : X → Matrix (Fin m) (Fin n) ℝ} (hA : CdM A x) : CdM (fun p => (A p)ᵀ) x :=
  fun i j => hA j i

theorem CdM.det {A : X → Matrix (Fin n) (Fin n) ℝ} (hA : CdM A x) :
    ContDiffAt ℝ 1 (fun p => (A p).det) x := by
  simp only [Matrix.det_apply']
  exact ContDiffAt.sum fun σ _ => contDiffAt_const.mul (contDiffAt_prod fun i _ => hA _ _)

theorem CdM.inv {A : X → Matrix (Fin n) (Fin n) ℝ} (hA : CdM A x) (hd : (A x).det ≠ 0) :
    CdM (fun p => (A p)⁻¹) x := fun i j => by
  have hadj : ContDiffAt ℝ 1 (fun p => (A p).adjugate i j) x := by
    simp only [Matrix.adjugate_apply]
    refine CdM.det fun k l => ?_
    by_cases hk : k = j
    · subst hk
      simp only [Matrix.updateRow_self]
      exact contDiffAt_const
    · simp only [Matrix.updateRow_ne hk]
      exact hA k l
  have e : (fun p => (A p)⁻¹ i j) = fun p => ((A p).det)⁻¹ * (A p).adjugate i j := by
    funext p
    simp [Matrix.inv_def, Ring.inverse_eq_inv']
  rw [e]
  exact (hA.det.inv hd).mul hadj

theorem CdM.mulVec {A : X → Matrix (Fin m) (Fin n) ℝ} {r : X → Fin n → ℝ} (hA : CdM A x)
    (hr : ContDiffAt ℝ 1 r x) : ContDiffAt ℝ 1 (fun p => A p *ᵥ r p) x :=
  contDiffAt_pi.2 fun i => by
    simp only [Matrix.mulVec, dotProduct]
    exact ContDiffAt.sum fun j _ => (hA i j).mul (contDiffAt_pi.1 hr j)

theorem CdM.comp {Z : Type*} [NormedAddCommGroup Z] [NormedSpace ℝ Z] {z : Z} {f : Z → X}
    {A : X → Matrix (Fin m) (Fin n) ℝ} (hA : CdM A (f z)) (hf : ContDiffAt ℝ 1 f z) :
    CdM (fun p => A (f p)) z := fun i j => (hA i j).comp z hf

/-- A matrix as a linear map. -/
noncomputable def mv (A : Matrix (Fin m) (Fin n) ℝ) : (Fin n → ℝ) →L[ℝ] (Fin m → ℝ) :=
  LinearMap.toContinuousLinearMap (Matrix.mulVecLin A)

theorem mv_apply (A : Matrix (Fin m) (Fin n) ℝ) (v : Fin n → ℝ) : mv A v = A *ᵥ v := rfl

/-- Derivative of a product whose second factor vanishes. -/
theorem HasFDerivAt.mul_vanish {f g : X → ℝ} {g' : X →L[ℝ] ℝ} (hf : ContDiffAt ℝ 1 f x)
    (hg : HasFDerivAt g g' x) (h0 : g x = 0) : HasFDerivAt (fun p => f p * g p) (f x • g') x := by
  have := (hf.differentiableAt (by simp)).hasFDerivAt.mul hg
  rw [h0, zero_smul, add_zero] at this
  exact this

theorem HasFDerivAt.mulVec_vanish {A : X → Matrix (Fin m) (Fin n) ℝ} {r : X → Fin n → ℝ}
    {r' : X →L[ℝ] Fin n → ℝ} (hA : CdM A x) (hr : HasFDerivAt r r' x) (h0 : r x = 0) :
    HasFDerivAt (fun p => A p *ᵥ r p) ((mv (A x)).comp r') x := by
  refine hasFDerivAt_pi'.2 fun i => ?_
  have h1 := HasFDerivAt.fun_sum (u := univ) fun j _ =>
    HasFDerivAt.mul_vanish (hA i j) (hasFDerivAt_pi'.1 hr j) (congrFun h0 j)
  have e : (ContinuousLinearMap.proj (R := ℝ) (φ := fun _ : Fin m => ℝ) i).comp ((mv (A x)).comp r') =
      ∑ j, A x i j • (ContinuousLinearMap.proj (R := ℝ) (φ := fun _ : Fin n => ℝ) j).comp r' := by
    ext v
    simp [mv_apply, Matrix.mulVec, dotProduct]
  rw [e]
  exact h1

/-- A map that is smooth near a point, continued to all points. -/
theorem exists_global {Y : Type*} [NormedAddCommGroup Y] [NormedSpace ℝ Y] [FiniteDimensional ℝ X]
    {u : X → Y} (hu : ContDiffAt ℝ 1 u x) :
    ∃ u' : X → Y, ContDiff ℝ 1 u' ∧ ∃ ρ > 0, ∀ y, ‖y - x‖ ≤ ρ → u' y = u y := by
  obtain ⟨δ, hδ, h⟩ := Metric.eventually_nhds_iff.1 (hu.eventually (by simp))
  set χ : ContDiffBump x := ⟨δ / 3, δ / 2, by linarith, by linarith⟩ with hχ
  refine ⟨fun y => χ y • u y, ?_, δ / 3, by positivity, fun y hy => ?_⟩
  · refine contDiff_iff_contDiffAt.2 fun y => ?_
    by_cases hy : y ∈ tsupport fun y => χ y • u y
    swap
    · exact contDiffAt_const (c := (0 : Y)) |>.congr_of_eventuallyEq
        (notMem_tsupport_iff_eventuallyEq.1 hy)
    have h1 : y ∈ tsupport χ := closure_mono (Function.support_smul_subset_left _ _) hy
    rw [χ.tsupport_eq, Metric.mem_closedBall] at h1
    have h2 : dist y x < δ := lt_of_le_of_lt h1 (show δ / 2 < δ by linarith)
    exact (χ.contDiff (n := 1)).contDiffAt.smul (h h2)
  · have : χ y = 1 := χ.one_of_mem_closedBall (by rwa [mem_closedBall_iff_norm])
    show χ y • u y = u y
    rw [this, one_smul]

end SmoothAt

/-! ## The linear part -/

section Linear
variable {m n : ℕ}

/-- Projector on the directions the task does not notice. -/
noncomputable def restProj (K : Matrix (Fin m) (Fin n) ℝ) : Matrix (Fin n) (Fin n) ℝ :=
  1 - Kᵀ * (K * Kᵀ)⁻¹ * K

variable {K : Matrix (Fin m) (Fin n) ℝ} {W : Matrix (Fin n) (Fin m) ℝ}

theorem mul_restProj (hK : (K * Kᵀ).det ≠ 0) : K * restProj K = 0 := by
  unfold restProj
  rw [Matrix.mul_sub, Matrix.mul_one, ← Matrix.mul_assoc, ← Matrix.mul_assoc,
    Matrix.mul_nonsing_inv _ (Ne.isUnit hK), Matrix.one_mul, sub_self]

theorem restProj_symm : (restProj K)ᵀ = restProj K := by
  unfold restProj
  have h : (K * Kᵀ)ᵀ = K * Kᵀ := by rw [Matrix.transpose_mul, Matrix.transpose_transpose]
  rw [Matrix.transpose_sub, Matrix.transpose_one, Matrix.transpose_mul, Matrix.transpose_mul,
    Matrix.transpose_transpose, Matrix.transpose_nonsing_inv, h, Matrix.mul_assoc]

theorem restProj_idem (hK : (K * Kᵀ).det ≠ 0) : restProj K * restProj K = restProj K := by
  conv_lhs => arg 1; unfold restProj
  rw [Matrix.sub_mul, Matrix.one_mul, Matrix.mul_assoc _ K, mul_restProj hK, Matrix.mul_zero, sub_zero]

theorem restProj_fixes {z : Fin n → ℝ} (hz : K *ᵥ z = 0) : restProj K *ᵥ z = z := by
  unfold restProj
  rw [Matrix.sub_mulVec, Matrix.one_mulVec, ← Matrix.mulVec_mulVec, hz, Matrix.mulVec_zero, sub_zero]

/-- Laws for the task, by coordinates. -/
def taskLaw (kp kv : Fin m → ℝ) (e w : Fin m → ℝ) : Fin m → ℝ := fun i => -(kp i * e i) - kv i * w i

/-- The laws as a linear map. -/
noncomputable def taskLin (kp kv : Fin m → ℝ) : State m →L[ℝ] (Fin m → ℝ) :=
  ContinuousLinearMap.pi fun i => -(kp i • cq i) - kv i • cv i

theorem taskLin_apply (kp kv : Fin m → ℝ) (e : State m) : taskLin kp kv e = taskLaw kp kv e.1 e.2 := rfl

/-- The closed loop to first order: `W` a right inverse of `K`. -/
noncomputable def opLin (K : Matrix (Fin m) (Fin n) ℝ) (W : Matrix (Fin n) (Fin m) ℝ)
    (kp kv : Fin m → ℝ) (lp lv : ℝ) : State n →L[ℝ] State n :=
  (ContinuousLinearMap.snd ℝ _ _).prod
    ((mv W).comp ((taskLin kp kv).comp ((mv K).prodMap (mv K))) +
      (mv (restProj K)).comp (-(lp • ContinuousLinearMap.fst ℝ _ _) - lv • ContinuousLinearMap.snd ℝ _ _))

theorem opLin_apply (kp kv : Fin m → ℝ) (lp lv : ℝ) (e : State n) :
    opLin K W kp kv lp lv e = (e.2, W *ᵥ taskLaw kp kv (K *ᵥ e.1) (K *ᵥ e.2) +
      restProj K *ᵥ (-(lp • e.1) - lv • e.2)) := rfl

/-- It is stable. -/
theorem exists_opLyap (hK : (K * Kᵀ).det ≠ 0) (hW : K * W = 1) {kp kv : Fin m → ℝ}
    (hp : ∀ i, 0 < kp i) (hv : ∀ i, 0 < kv i) {lp lv : ℝ} (hlp : 0 < lp) (hlv : 0 < lv) :
    Nonempty (Lyap (opLin K W kp kv lp lv)) := by
  obtain ⟨L1⟩ := exists_pdLyapV hp hv
  set P := restProj K with hP
  set Q : Matrix (Fin n) (Fin m) ℝ := Kᵀ * (K * Kᵀ)⁻¹ with hQ
  let D : State m →L[ℝ] State n :=
    (0 : State m →L[ℝ] (Fin n → ℝ)).prod ((mv (P * W)).comp (taskLin kp kv))
  let Φ : State n →L[ℝ] State m × State n :=
    ((mv K).prodMap (mv K)).prod ((mv P).prodMap (mv P))
  let Ψ : State m × State n →L[ℝ] State n :=
    ((mv Q).prodMap (mv Q)).comp (ContinuousLinearMap.fst ℝ _ _) + ContinuousLinearMap.snd ℝ _ _
  have hsum : ∀ v : Fin n → ℝ, Q *ᵥ (K *ᵥ v) + P *ᵥ v = v := by
    intro v
    rw [hP, restProj, Matrix.sub_mulVec, Matrix.one_mulVec, Matrix.mulVec_mulVec]
    abel
  refine ⟨(L1.cascade (pdLyap n hlp hlv) D).pull Φ Ψ (fun e => ?_) (fun e => ?_)⟩
  · exact Prod.ext (hsum e.1) (hsum e.2)
  · rw [cascade_apply, opLin_apply]
    have h1 : K *ᵥ (W *ᵥ taskLaw kp kv (K *ᵥ e.1) (K *ᵥ e.2) + P *ᵥ (-(lp • e.1) - lv • e.2)) =
        taskLaw kp kv (K *ᵥ e.1) (K *ᵥ e.2) := by
      rw [Matrix.mulVec_add, Matrix.mulVec_mulVec, hW, Matrix.one_mulVec, Matrix.mulVec_mulVec,
        mul_restProj hK, Matrix.zero_mulVec, add_zero]
    have h2 : P *ᵥ (W *ᵥ taskLaw kp kv (K *ᵥ e.1) (K *ᵥ e.2) + P *ᵥ (-(lp • e.1) - lv • e.2)) =
        -(lp • (P *ᵥ e.1)) - lv • (P *ᵥ e.2) + (P * W) *ᵥ taskLaw kp kv (K *ᵥ e.1) (K *ᵥ e.2) := by
      rw [Matrix.mulVec_add, Matrix.mulVec_mulVec, Matrix.mulVec_mulVec, restProj_idem hK,
        Matrix.mulVec_sub, Matrix.mulVec_neg, Matrix.mulVec_smul, Matrix.mulVec_smul, add_comm]
    refine Prod.ext (Prod.ext rfl h1) (Prod.ext ?_ h2)
    show P *ᵥ e.2 = P *ᵥ e.2 + 0
    rw [add_zero]

end Linear

/-! ## The nonlinear law -/

section Law
variable {m n : ℕ}

/-- Accelerations of the two tasks: `B` the inverse of the inertia matrix, `K` the Jacobian and `e` the
error of the task as functions of the positions. -/
noncomputable def opAcc (B : (Fin n → ℝ) → Matrix (Fin n) (Fin n) ℝ)
    (K : (Fin n → ℝ) → Matrix (Fin m) (Fin n) ℝ) (e : (Fin n → ℝ) → Fin m → ℝ) (kp kv : Fin m → ℝ)
    (goal : Fin n → ℝ) (lp lv : ℝ) (y : State n) : Fin n → ℝ :=
  dynInv (B y.1) (K y.1) *ᵥ taskLaw kp kv (e y.1) (K y.1 *ᵥ y.2) +
    restProj (K y.1) *ᵥ pdLaw goal lp lv y

variable {B : (Fin n → ℝ) → Matrix (Fin n) (Fin n) ℝ} {K : (Fin n → ℝ) → Matrix (Fin m) (Fin n) ℝ}
  {e : (Fin n → ℝ) → Fin m → ℝ} {kp kv : Fin m → ℝ} {goal : Fin n → ℝ} {lp lv : ℝ}

theorem dynInv_cd {q : Fin n → ℝ} (hB : CdM B q) (hK : CdM K q)
    (hX : (projInv (B q) (K q)).det ≠ 0) : CdM (fun q => dynInv (B q) (K q)) q :=
  (hB.mul hK.tr).mul (((hK.mul hB).mul hK.tr).inv hX)

theorem restProj_cd {q : Fin n → ℝ} (hK : CdM K q) (hX : (K q * (K q)ᵀ).det ≠ 0) :
    CdM (fun q => restProj (K q)) q :=
  (CdM.const 1).sub ((hK.tr.mul ((hK.mul hK.tr).inv hX)).mul hK)

theorem opAcc_zero (h0 : e goal = 0) : opAcc B K e kp kv goal lp lv (goal, 0) = 0 := by
  have h1 : taskLaw kp kv (e goal) (K goal *ᵥ 0) = 0 := by
    funext i
    simp [taskLaw, h0]
  unfold opAcc
  simp only [h1]
  simp [pdLaw]

theorem opAcc_deriv (hB : CdM B goal) (hK : CdM K goal) (hX : (projInv (B goal) (K goal)).det ≠ 0)
    (hX' : (K goal * (K goal)ᵀ).det ≠ 0) (h0 : e goal = 0) (he : HasFDerivAt e (mv (K goal)) goal) :
    HasFDerivAt (opAcc B K e kp kv goal lp lv)
      ((mv (dynInv (B goal) (K goal))).comp ((taskLin kp kv).comp ((mv (K goal)).prodMap (mv (K goal)))) +
        (mv (restProj (K goal))).comp
          (-(lp • ContinuousLinearMap.fst ℝ _ _) - lv • ContinuousLinearMap.snd ℝ _ _)) (goal, 0) := by
  have hf : ContDiffAt ℝ 1 (fun y : State n => y.1) (goal, 0) := contDiffAt_fst
  have h1 : HasFDerivAt (fun y : State n => K y.1 *ᵥ y.2)
      ((mv (K goal)).comp (ContinuousLinearMap.snd ℝ _ _)) (goal, 0) :=
    HasFDerivAt.mulVec_vanish (A := fun y : State n => K y.1) (x := (goal, 0))
      (CdM.comp (f := fun y : State n => y.1) (z := (goal, 0)) hK hf) hasFDerivAt_snd rfl
  have h2 : HasFDerivAt (fun y : State n => e y.1)
      ((mv (K goal)).comp (ContinuousLinearMap.fst ℝ _ _)) (goal, 0) :=
    HasFDerivAt.comp (g := e) (goal, 0) he hasFDerivAt_fst
  have h3 : HasFDerivAt (fun y : State n => taskLaw kp kv (e y.1) (K y.1 *ᵥ y.2))
      ((taskLin kp kv).comp ((mv (K goal)).prodMap (mv (K goal)))) (goal, 0) :=
    (taskLin kp kv).hasFDerivAt.comp (goal, 0) (h2.prodMk h1)
  have h4 : HasFDerivAt (pdLaw goal lp lv)
      (-(lp • ContinuousLinearMap.fst ℝ _ _) - lv • ContinuousLinearMap.snd ℝ _ _)
      ((goal, 0) : State n) :=
    ((hasFDerivAt_fst.sub_const goal).const_smul lp).neg.sub (hasFDerivAt_snd.const_smul lv)
  refine (HasFDerivAt.mulVec_vanish (A := fun y : State n => dynInv (B y.1) (K y.1)) (x := (goal, 0))
    (CdM.comp (f := fun y : State n => y.1) (z := (goal, 0)) (dynInv_cd hB hK hX) hf) h3 ?_).add
    (HasFDerivAt.mulVec_vanish (A := fun y : State n => restProj (K y.1)) (x := (goal, 0))
      (CdM.comp (f := fun y : State n => y.1) (z := (goal, 0)) (restProj_cd hK hX') hf) h4 ?_)
  · funext i
    simp [taskLaw, h0]
  · simp [pdLaw]

theorem opAcc_cd (hB : CdM B goal) (hK : CdM K goal) (hX : (projInv (B goal) (K goal)).det ≠ 0)
    (hX' : (K goal * (K goal)ᵀ).det ≠ 0) (he : ContDiffAt ℝ 1 e goal) :
    ContDiffAt ℝ 1 (opAcc B K e kp kv goal lp lv) (goal, 0) := by
  have hf : ContDiffAt ℝ 1 (fun y : State n => y.1) (goal, 0) := contDiffAt_fst
  have h1 : ContDiffAt ℝ 1 (fun y : State n => K y.1 *ᵥ y.2) (goal, 0) :=
    CdM.mulVec (A := fun y : State n => K y.1)
      (CdM.comp (f := fun y : State n => y.1) (z := (goal, 0)) hK hf) contDiffAt_snd
  have h2 : ContDiffAt ℝ 1 (fun y : State n => e y.1) (goal, 0) :=
    ContDiffAt.comp (g := e) (goal, 0) he hf
  have h3 : ContDiffAt ℝ 1 (fun y : State n => taskLaw kp kv (e y.1) (K y.1 *ᵥ y.2)) (goal, 0) :=
    (taskLin kp kv).contDiff.contDiffAt.comp (goal, 0) (h2.prodMk h1)
  have h4 : ContDiffAt ℝ 1 (pdLaw goal lp lv) ((goal, 0) : State n) := by
    unfold pdLaw
    fun_prop
  exact (CdM.mulVec (A := fun y : State n => dynInv (B y.1) (K y.1))
    (CdM.comp (f := fun y : State n => y.1) (z := (goal, 0)) (dynInv_cd hB hK hX) hf) h3).add
    (CdM.mulVec (A := fun y : State n => restProj (K y.1))
      (CdM.comp (f := fun y : State n => y.1) (z := (goal, 0)) (restProj_cd hK hX') hf) h4)

end Law
end SpatialDyn
