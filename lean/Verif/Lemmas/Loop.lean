import Verif.Lemmas.Frozen
import Verif.Lemmas.Field
import Verif.Lemmas.Growth
import Verif.Lemmas.Drift

/-!
# Joint-space control as a dynamical system

The closed loop of the joint-space controller and a body: linear up to the velocity products, which
vanish to second order at rest.
-/

namespace SpatialDyn
open Finset Matrix OneStep
open scoped ContDiff

variable {E : Ext} {b : Body} {d : Bool} {n : ℕ}

/-! ## The linear part -/

/-- Proportional-derivative law. -/
def pdLaw (goal : Fin n → ℝ) (kp kv : ℝ) (y : State n) : Fin n → ℝ :=
  -(kp • (y.1 - goal)) - kv • y.2

/-- The linear system of the law. -/
noncomputable def pdLin (n : ℕ) (kp kv : ℝ) : State n →L[ℝ] State n :=
  (ContinuousLinearMap.snd ℝ _ _).prod
    (-(kp • ContinuousLinearMap.fst ℝ _ _) - kv • ContinuousLinearMap.snd ℝ _ _)

theorem pdLin_apply (kp kv : ℝ) (e : State n) :
    pdLin n kp kv e = (e.2, -(kp • e.1) - kv • e.2) := rfl

/-- Coordinates. -/
noncomputable def cq (i : Fin n) : State n →L[ℝ] ℝ :=
  (ContinuousLinearMap.proj i).comp (ContinuousLinearMap.fst ℝ (Fin n → ℝ) (Fin n → ℝ))

/-- Coordinates. -/
noncomputable def cv (i : Fin n) : State n →L[ℝ] ℝ :=
  (ContinuousLinearMap.proj i).comp (ContinuousLinearMap.snd ℝ (Fin n → ℝ) (Fin n → ℝ))

theorem cq_apply (i : Fin n) (e : State n) : cq i e = e.1 i := rfl
theorem cv_apply (i : Fin n) (e : State n) : cv i e = e.2 i := rfl

theorem state_coord (e : State n) (i : Fin n) : |e.1 i| ≤ ‖e‖ ∧ |e.2 i| ≤ ‖e‖ :=
  ⟨(norm_le_pi_norm e.1 i).trans (norm_fst_le e), (norm_le_pi_norm e.2 i).trans (norm_snd_le e)⟩

theorem state_norm_le {e : State n} {r : ℝ} (hr : 0 ≤ r) (h : ∀ i, |e.1 i| ≤ r ∧ |e.2 i| ≤ r) :
    ‖e‖ ≤ r := by
  rw [Prod.norm_def]
  exact max_le ((pi_norm_le_iff_of_nonneg hr).2 fun i => (h i).1)
    ((pi_norm_le_iff_of_nonneg hr).2 fun i => (h i).2)

/-- Weighted sums of squares bound the norm. -/
theorem state_sum_lower {α β : ℝ} (hα : 0 < α) (hβ : 0 < β) (e : State n) :
    min α β * ‖e‖ ^ 2 ≤ ∑ i, (α * e.2 i ^ 2 + β * e.1 i ^ 2) := by
  set S := ∑ i, (α * e.2 i ^ 2 + β * e.1 i ^ 2) with hS
  have hm : 0 < min α β := lt_min hα hβ
  have hS0 : 0 ≤ S := sum_nonneg fun i _ => by positivity
  have hi : ∀ i, min α β * e.1 i ^ 2 ≤ S ∧ min α β * e.2 i ^ 2 ≤ S := by
    intro i
    have h1 : α * e.2 i ^ 2 + β * e.1 i ^ 2 ≤ S :=
      single_le_sum (f := fun i => α * e.2 i ^ 2 + β * e.1 i ^ 2) (fun i _ => by positivity)
        (mem_univ i)
    have h2 : min α β * e.1 i ^ 2 ≤ β * e.1 i ^ 2 := by have := min_le_right α β; gcongr
    have h3 : min α β * e.2 i ^ 2 ≤ α * e.2 i ^ 2 := by have := min_le_left α β; gcongr
    have h4 : 0 ≤ α * e.2 i ^ 2 := by positivity
    have h5 : 0 ≤ β * e.1 i ^ 2 := by positivity
    constructor <;> linarith
  have hn : ‖e‖ ≤ Real.sqrt (S / min α β) := by
    refine state_norm_le (Real.sqrt_nonneg _) fun i => ⟨?_, ?_⟩ <;> apply Real.abs_le_sqrt
    · rw [le_div_iff₀ hm]; linarith [(hi i).1]
    · rw [le_div_iff₀ hm]; linarith [(hi i).2]
  have h1 : ‖e‖ ^ 2 ≤ S / min α β := by
    have := pow_le_pow_left₀ (norm_nonneg e) hn 2
    rwa [Real.sq_sqrt (by positivity)] at this
  rw [le_div_iff₀ hm] at h1
  linarith

/-- The Lyapunov form of the law. -/
noncomputable def pdForm (n : ℕ) (kp kv : ℝ) : State n →L[ℝ] State n →L[ℝ] ℝ :=
  ∑ i, ((cv i).smulRight (cv i) + (kv / 2) • ((cq i).smulRight (cv i) + (cv i).smulRight (cq i)) +
    (kp + kv ^ 2 / 2) • (cq i).smulRight (cq i))

theorem pdForm_apply (kp kv : ℝ) (e f : State n) : pdForm n kp kv e f =
    ∑ i, (e.2 i * f.2 i + kv / 2 * (e.1 i * f.2 i + e.2 i * f.1 i) +
      (kp + kv ^ 2 / 2) * (e.1 i * f.1 i)) := by
  unfold pdForm
  rw [ContinuousLinearMap.sum_apply, ContinuousLinearMap.sum_apply]
  refine sum_congr rfl fun i _ => ?_
  simp [cq_apply, cv_apply]
  ring

/-- The law is stable. -/
noncomputable def pdLyap (n : ℕ) {kp kv : ℝ} (hp : 0 < kp) (hv : 0 < kv) :
    Lyap (pdLin n kp kv) where
  B := pdForm n kp kv
  symm e f := by
    rw [pdForm_apply, pdForm_apply]
    exact sum_congr rfl fun i _ => by ring
  m := min (1 / 2) kp
  M := n * (1 + kv + (kp + kv ^ 2 / 2)) + 1
  c := kv * min 1 kp
  m_pos := lt_min (by norm_num) hp
  M_pos := by positivity
  c_pos := mul_pos hv (lt_min one_pos hp)
  lower e := by
    refine (state_sum_lower (by norm_num) hp e).trans ?_
    rw [pdForm_apply]
    refine sum_le_sum fun i _ => ?_
    nlinarith [sq_nonneg (e.2 i + kv * e.1 i)]
  upper e f := by
    rw [pdForm_apply]
    have key : ∀ i ∈ (univ : Finset (Fin n)),
        |e.2 i * f.2 i + kv / 2 * (e.1 i * f.2 i + e.2 i * f.1 i) +
          (kp + kv ^ 2 / 2) * (e.1 i * f.1 i)| ≤ (1 + kv + (kp + kv ^ 2 / 2)) * (‖e‖ * ‖f‖) := by
      intro i _
      have hm : ∀ a c : ℝ, |a| ≤ ‖e‖ → |c| ≤ ‖f‖ → |a * c| ≤ ‖e‖ * ‖f‖ := fun a c ha hc => by
        rw [abs_mul]; exact mul_le_mul ha hc (abs_nonneg _) (norm_nonneg _)
      obtain ⟨e1, e2⟩ := state_coord e i
      obtain ⟨f1, f2⟩ := state_coord f i
      have a1 := abs_le.1 (hm _ _ e2 f2)
      have a2 := abs_le.1 (hm _ _ e1 f2)
      have a3 := abs_le.1 (hm _ _ e2 f1)
      have a4 := abs_le.1 (hm _ _ e1 f1)
      have hk : 0 < kp + kv ^ 2 / 2 := by positivity
      rw [abs_le]
      constructor <;> nlinarith
    refine (abs_sum_le_sum_abs _ _).trans ((sum_le_sum key).trans ?_)
    rw [sum_const, card_univ, Fintype.card_fin, nsmul_eq_mul]
    have : 0 ≤ ‖e‖ * ‖f‖ := by positivity
    nlinarith
  decay e := by
    rw [pdForm_apply]
    have h1 := mul_le_mul_of_nonneg_left (state_sum_lower one_pos hp e) hv.le
    have h2 : 2 * ∑ i, (e.2 i * (pdLin n kp kv e).2 i + kv / 2 * (e.1 i * (pdLin n kp kv e).2 i +
        e.2 i * (pdLin n kp kv e).1 i) + (kp + kv ^ 2 / 2) * (e.1 i * (pdLin n kp kv e).1 i)) =
        -(kv * ∑ i, (1 * e.2 i ^ 2 + kp * e.1 i ^ 2)) := by
      rw [mul_sum, mul_sum, ← sum_neg_distrib]
      refine sum_congr rfl fun i _ => ?_
      rw [pdLin_apply]
      simp
      ring
    rw [h2]
    linarith

/-! ## The velocity products -/

theorem sysAt_V_smul (b : Body) (q w u : ℕ → ℝ) (s : ℝ) (k : ℕ) :
    (b.sysAt q (fun i => s * w i)).V (fun i => s * u i) k = s • (b.sysAt q w).V u k := by
  unfold Sys.V
  rw [smul_sum]
  refine sum_congr rfl fun j _ => ?_
  rw [smul_smul]
  rfl

/-- The velocity products are homogeneous of degree two in the rates. -/
theorem coriolis_quadratic (b : Body) (q w : ℕ → ℝ) (s : ℝ) (i : ℕ) :
    (b.sysAt q (fun i => s * w i)).coriolisSpec i = s ^ 2 * (b.sysAt q w).coriolisSpec i := by
  have hb : ∀ k, (b.sysAt q (fun i => s * w i)).bias k = s ^ 2 • (b.sysAt q w).bias k := by
    intro k
    show ∑ j ∈ range _, (s * w j) • ((b.sysAt q (fun i => s * w i)).V (fun i => s * w i) j).crossM _ =
      s ^ 2 • ∑ j ∈ range _, _
    rw [smul_sum]
    refine sum_congr rfl fun j _ => ?_
    rw [sysAt_V_smul, Motion.smul_crossM, smul_smul, smul_smul]
    show (s * w j * s) • _ = (s ^ 2 * w j) • _
    rw [show s * w j * s = s ^ 2 * w j by ring]
    rfl
  show ∑ k ∈ range _, _ = s ^ 2 * ∑ k ∈ range _, _
  rw [mul_sum]
  refine sum_congr rfl fun k _ => ?_
  have hV := sysAt_V_smul b q w w s k
  show ((b.sysAt q w).Jw k i).dot ((b.sysAt q w).Iw k ((b.sysAt q (fun i => s * w i)).bias k) +
    ((b.sysAt q (fun i => s * w i)).V (fun i => s * w i) k).crossF
      ((b.sysAt q w).Iw k ((b.sysAt q (fun i => s * w i)).V (fun i => s * w i) k))) = s ^ 2 *
    ((b.sysAt q w).Jw k i).dot ((b.sysAt q w).Iw k ((b.sysAt q w).bias k) +
      ((b.sysAt q w).V w k).crossF ((b.sysAt q w).Iw k ((b.sysAt q w).V w k)))
  rw [hb, hV, Sys.Iw_smul, Sys.Iw_smul, Motion.smul_crossF, Motion.crossF_smul, smul_smul, ← pow_two,
    ← smul_add, Motion.dot_smul]

theorem padFin_smul (s : ℝ) (v : Fin n → ℝ) : padFin (s • v) = fun i => s * padFin v i := by
  funext i
  unfold padFin
  split <;> simp

/-- A smooth function that is homogeneous of degree two in the rates has no derivative at rest. -/
theorem quadratic_flat {V : Type*} [NormedAddCommGroup V] [NormedSpace ℝ V] {h : State n → V}
    {q : Fin n → ℝ} (hs : DifferentiableAt ℝ h (q, 0))
    (hq : ∀ (p v : Fin n → ℝ) (s : ℝ), h (p, s • v) = s ^ 2 • h (p, v)) :
    HasFDerivAt h (0 : State n →L[ℝ] V) (q, 0) := by
  have h0 : ∀ p, h (p, 0) = 0 := fun p => by have := hq p 0 0; simpa using this
  suffices e : fderiv ℝ h (q, 0) = 0 by
    have := hs.hasFDerivAt
    rwa [e] at this
  refine ContinuousLinearMap.ext fun z => ?_
  obtain ⟨u, v⟩ := z
  have e1 : fderiv ℝ h (q, 0) (u, 0) = 0 := by
    have l1 : HasDerivAt (fun t : ℝ => ((q, 0) : State n) + t • (u, 0)) (u, 0) 0 := by
      have := ((hasDerivAt_id (0 : ℝ)).smul_const ((u, 0) : State n)).const_add (q, 0)
      simpa using this
    have l2 := HasFDerivAt.comp_hasDerivAt_of_eq (0 : ℝ) hs.hasFDerivAt l1 (by simp)
    have l3 : (h ∘ fun t : ℝ => ((q, 0) : State n) + t • (u, 0)) = fun _ => 0 := by
      funext t
      simp [h0]
    rw [l3] at l2
    exact l2.unique (hasDerivAt_const _ _)
  have e2 : fderiv ℝ h (q, 0) (0, v) = 0 := by
    have l1 : HasDerivAt (fun t : ℝ => ((q, 0) : State n) + t • (0, v)) (0, v) 0 := by
      have := ((hasDerivAt_id (0 : ℝ)).smul_const ((0, v) : State n)).const_add (q, 0)
      simpa using this
    have l2 := HasFDerivAt.comp_hasDerivAt_of_eq (0 : ℝ) hs.hasFDerivAt l1 (by simp)
    have l3 : (h ∘ fun t : ℝ => ((q, 0) : State n) + t • (0, v)) = fun t => t ^ 2 • h (q, v) := by
      funext t
      simp [← hq]
    rw [l3] at l2
    have l4 := ((hasDerivAt_pow 2 (0 : ℝ)).smul_const (h (q, v)))
    simp at l4
    exact l2.unique l4
  have : (u, v) = ((u, 0) : State n) + (0, v) := by simp
  rw [this, map_add, e1, e2]
  simp

namespace Body

/-! ## The closed loop -/

/-- Torques of the controller. -/
noncomputable def pdTau (b : Body) (goal : Fin b.dof → ℝ) (kp kv : ℝ) (y : State b.dof) :
    Fin b.dof → ℝ :=
  vec b.dof ((b.sysAt (padFin y.1) (padFin y.2)).idSpec (padFin (pdLaw goal kp kv y)) noExt false true)

/-- The body under torques. -/
noncomputable def plant (b : Body) (cc : Bool) (p : (Fin b.dof → ℝ) × State b.dof) : State b.dof :=
  (p.2.2, b.accAt b.g (padFin p.1) noExt cc true p.2)

/-- Accelerations by the velocity products. -/
noncomputable def ccAcc (b : Body) (cc : Bool) (y : State b.dof) : Fin b.dof → ℝ :=
  (toMat b.dof (b.sysAt (padFin y.1) (padFin y.2)).massSpec)⁻¹ *ᵥ
    vec b.dof (fun i => if cc then (b.sysAt (padFin y.1) (padFin y.2)).coriolisSpec i else 0)

theorem vec_padFin (v : Fin n → ℝ) : vec n (padFin v) = v := by
  funext i
  simp [vec, padFin]

theorem pdTau_smooth (h : Reach E b d) (goal : Fin b.dof → ℝ) (kp kv : ℝ) :
    ContDiff ℝ ∞ (b.pdTau goal kp kv) := by
  have hq : ∀ i < b.dof, Sm fun y : State b.dof => padFin y.1 i :=
    fun i _ => padFin_smooth contDiff_fst i
  have hw : ∀ i < b.dof, Sm fun y : State b.dof => padFin y.2 i :=
    fun i _ => padFin_smooth contDiff_snd i
  refine contDiff_pi.2 fun i => idSpec_smooth h.inv.tree hq hw (fun j _ => padFin_smooth ?_ j) noExt
    false true i
  unfold pdLaw
  fun_prop

theorem plant_smooth (h : Reach E b d) (hd : b.Definite) (cc : Bool) :
    ContDiff ℝ ∞ (b.plant cc) := by
  refine (contDiff_snd.comp contDiff_snd).prodMk (contDiff_pi.2 fun i => ?_)
  have hq : ∀ i < b.dof, Sm fun p : (Fin b.dof → ℝ) × State b.dof => padFin p.2.1 i :=
    fun i _ => padFin_smooth (contDiff_fst.comp contDiff_snd) i
  have hw : ∀ i < b.dof, Sm fun p : (Fin b.dof → ℝ) × State b.dof => padFin p.2.2 i :=
    fun i _ => padFin_smooth (contDiff_snd.comp contDiff_snd) i
  have hk : Reach E (b.setG b.g) _ := h.step (.setG _) trivial rfl
  refine Sm.inv_mulVec (fun k l => ?_) (fun k => ?_) (fun y => ?_) i
  · exact massSpec_smooth h.inv.tree hq k l
  · exact (padFin_smooth contDiff_fst k).sub (idSpec_smooth (b := b.setG b.g) hk.inv.tree hq hw
      (fun _ _ => contDiff_const) noExt cc true k)
  · exact sysAt_det h hd y.2

theorem ccAcc_smooth (h : Reach E b d) (hd : b.Definite) (cc : Bool) :
    ContDiff ℝ ∞ (b.ccAcc cc) := by
  have hq : ∀ i < b.dof, Sm fun y : State b.dof => padFin y.1 i :=
    fun i _ => padFin_smooth contDiff_fst i
  have hw : ∀ i < b.dof, Sm fun y : State b.dof => padFin y.2 i :=
    fun i _ => padFin_smooth contDiff_snd i
  refine contDiff_pi.2 fun i => Sm.inv_mulVec (fun k l => ?_) (fun k => ?_) (fun y => ?_) i
  · exact massSpec_smooth h.inv.tree hq k l
  · cases cc
    · exact contDiff_const
    · exact coriolisSpec_smooth h.inv.tree hq hw k
  · exact sysAt_det h hd y

theorem ccAcc_quadratic (b : Body) (cc : Bool) (p v : Fin b.dof → ℝ) (s : ℝ) :
    b.ccAcc cc (p, s • v) = s ^ 2 • b.ccAcc cc (p, v) := by
  unfold ccAcc
  rw [← mulVec_smul]
  have e : vec b.dof (fun i => if cc then
      (b.sysAt (padFin p) (padFin (s • v))).coriolisSpec i else 0) =
      s ^ 2 • vec b.dof (fun i => if cc then (b.sysAt (padFin p) (padFin v)).coriolisSpec i else 0) := by
    funext i
    cases cc
    · simp [vec]
    · simp only [vec, if_true, Pi.smul_apply, smul_eq_mul]
      rw [padFin_smul, coriolis_quadratic]
  rw [e]
  rfl

/-- The closed loop: the law, up to the velocity products. -/
theorem loop_eq (h : Reach E b d) (hd : b.Definite) (goal : Fin b.dof → ℝ) (kp kv : ℝ) (cc : Bool)
    (y : State b.dof) : b.plant cc (b.pdTau goal kp kv y, y) =
      (y.2, pdLaw goal kp kv y - b.ccAcc cc y) := by
  refine Prod.ext rfl ?_
  show b.accAt b.g (padFin (b.pdTau goal kp kv y)) noExt cc true y = _
  unfold accAt ccAcc
  set σ := b.sysAt (padFin y.1) (padFin y.2) with hσ
  have hg : (b.setG b.g).sysAt (padFin y.1) (padFin y.2) = σ := rfl
  have hdet : (toMat b.dof σ.massSpec).det ≠ 0 := sysAt_det h hd y
  rw [hg, vec_padFin]
  have e : b.pdTau goal kp kv y - vec b.dof (σ.idSpec (fun _ => 0) noExt cc true) =
      toMat b.dof σ.massSpec *ᵥ pdLaw goal kp kv y -
        vec b.dof (fun i => if cc then σ.coriolisSpec i else 0) := by
    funext i
    have h1 := Sys.toMat_mulVec b.dof σ.massSpec (padFin (pdLaw goal kp kv y)) i
    have h2 : (fun j : Fin b.dof => padFin (pdLaw goal kp kv y) j) = pdLaw goal kp kv y :=
      vec_padFin _
    rw [h2] at h1
    simp only [Pi.sub_apply, h1]
    unfold pdTau vec Sys.idSpec
    rw [← hσ]
    simp only [mul_zero, sum_const_zero, Bool.false_eq_true, if_false, if_true]
    show ∑ j ∈ range b.dof, _ + _ + _ + _ - _ = _
    ring
  rw [e, mulVec_sub, mulVec_mulVec, nonsing_inv_mul _ (isUnit_iff_ne_zero.2 hdet), one_mulVec]

theorem loop_zero (h : Reach E b d) (hd : b.Definite) (goal : Fin b.dof → ℝ) (kp kv : ℝ) (cc : Bool) :
    b.plant cc (b.pdTau goal kp kv (goal, 0), (goal, 0)) = 0 := by
  rw [loop_eq h hd]
  have := ccAcc_quadratic b cc goal 0 0
  simp at this
  ext <;> simp [pdLaw, this]

theorem loop_deriv (h : Reach E b d) (hd : b.Definite) (goal : Fin b.dof → ℝ) (kp kv : ℝ)
    (cc : Bool) : HasFDerivAt (fun y => b.plant cc (b.pdTau goal kp kv y, y)) (pdLin b.dof kp kv)
      (goal, 0) := by
  have e : (fun y => b.plant cc (b.pdTau goal kp kv y, y)) =
      fun y : State b.dof => (y.2, -(kp • (y.1 - goal)) - kv • y.2 - b.ccAcc cc y) :=
    funext fun y => loop_eq h hd goal kp kv cc y
  rw [e]
  have hc := quadratic_flat ((ccAcc_smooth h hd cc).differentiable (by simp) (goal, 0))
    (ccAcc_quadratic b cc)
  have h1 : HasFDerivAt (fun y : State b.dof => -(kp • (y.1 - goal)) - kv • y.2)
      (-(kp • ContinuousLinearMap.fst ℝ _ _) - kv • ContinuousLinearMap.snd ℝ _ _) (goal, 0) :=
    ((hasFDerivAt_fst.sub_const goal).const_smul kp).neg.sub (hasFDerivAt_snd.const_smul kv)
  have h2 := hasFDerivAt_snd.prodMk (h1.sub hc)
  rw [sub_zero] at h2
  exact h2

theorem loop_smooth (h : Reach E b d) (hd : b.Definite) (goal : Fin b.dof → ℝ) (kp kv : ℝ)
    (cc : Bool) : ContDiff ℝ 1 (fun y => b.plant cc (b.pdTau goal kp kv y, y)) :=
  ((plant_smooth h hd cc).comp ((pdTau_smooth h goal kp kv).prodMk contDiff_id)).of_le (by simp)

/-- Without velocity products the closed loop is linear. -/
theorem loop_linear (h : Reach E b d) (hd : b.Definite) (goal : Fin b.dof → ℝ) (kp kv : ℝ)
    (y : State b.dof) : b.plant false (b.pdTau goal kp kv y, y) =
      pdLin b.dof kp kv (y - (goal, 0)) := by
  rw [loop_eq h hd, pdLin_apply]
  have : b.ccAcc false y = 0 := by
    unfold ccAcc
    have : vec b.dof (fun i => if false = true then
        (b.sysAt (padFin y.1) (padFin y.2)).coriolisSpec i else 0) = 0 := by
      funext i; simp [vec]
    rw [this, mulVec_zero]
  rw [this]
  simp [pdLaw]

end Body
end SpatialDyn
