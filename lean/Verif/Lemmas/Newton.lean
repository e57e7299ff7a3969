import Verif.Lemmas.RootFind
import Mathlib.Analysis.SpecificLimits.Basic
import Mathlib.Topology.MetricSpace.ProperSpace

/-! The corrections of the root finding of `discrete::Integrate`, uniformly over bounded states. -/

namespace SpatialDyn

open Finset Filter Asymptotics Topology Matrix
open scoped ContDiff

/-! ## A perturbed identity -/

section
variable {W : Type*} [NormedAddCommGroup W] {f : W → W} {r δ : ℝ} {c : W} {x : ℕ → W}

/-- Corrections by a map close to the identity shrink geometrically and stay near the start. -/
theorem newton_geom (hr0 : 0 ≤ r) (hr1 : r < 1)
    (hf : ∀ x y, ‖x‖ ≤ δ → ‖y‖ ≤ δ → ‖f x - f y - (x - y)‖ ≤ r * ‖x - y‖)
    (hx : ∀ k, x (k + 1) = x k - (f (x k) + c))
    (h0 : ‖x 0‖ + ‖f (x 0) + c‖ / (1 - r) ≤ δ) (k : ℕ) :
    ‖x k‖ ≤ ‖x 0‖ + ‖f (x 0) + c‖ * (1 - r ^ k) / (1 - r) ∧
      ‖x (k + 1) - x k‖ ≤ r ^ k * ‖f (x 0) + c‖ := by
  have h1 : 0 < 1 - r := by linarith
  have bound : ∀ k, ‖x 0‖ + ‖f (x 0) + c‖ * (1 - r ^ k) / (1 - r) ≤ δ := by
    intro k
    refine le_trans ?_ h0
    have : ‖f (x 0) + c‖ * (1 - r ^ k) ≤ ‖f (x 0) + c‖ := by
      have h2 : (0 : ℝ) ≤ r ^ k := pow_nonneg hr0 k
      have h3 := norm_nonneg (f (x 0) + c)
      nlinarith
    have := div_le_div_of_nonneg_right this h1.le
    linarith
  induction k with
  | zero =>
    refine ⟨by simp, ?_⟩
    have : x (0 + 1) - x 0 = -(f (x 0) + c) := by rw [hx 0]; abel
    rw [this, norm_neg, pow_zero, one_mul]
  | succ k ih =>
    obtain ⟨a, s⟩ := ih
    have a' : ‖x (k + 1)‖ ≤ ‖x 0‖ + ‖f (x 0) + c‖ * (1 - r ^ (k + 1)) / (1 - r) := by
      have h2 : ‖x (k + 1)‖ ≤ ‖x k‖ + ‖x (k + 1) - x k‖ := by
        have := norm_add_le (x k) (x (k + 1) - x k)
        rwa [add_sub_cancel] at this
      have h3 : ‖f (x 0) + c‖ * (1 - r ^ (k + 1)) / (1 - r) =
          ‖f (x 0) + c‖ * (1 - r ^ k) / (1 - r) + r ^ k * ‖f (x 0) + c‖ := by
        field_simp
        ring
      rw [h3]
      linarith
    refine ⟨a', ?_⟩
    have e : x (k + 2) - x (k + 1) = -(f (x (k + 1)) - f (x k) - (x (k + 1) - x k)) := by
      have e1 := hx (k + 1)
      have e2 := hx k
      have e3 : x (k + 1) - x k = -(f (x k) + c) := by rw [e2]; abel
      rw [show k + 2 = k + 1 + 1 from rfl, e1, e3]
      abel
    rw [e, norm_neg]
    refine (hf _ _ (a'.trans (bound _)) (a.trans (bound _))).trans ?_
    rw [pow_succ, mul_comm (r ^ k) r, mul_assoc]
    exact mul_le_mul_of_nonneg_left s hr0

/-- They converge to the only root nearby. -/
theorem newton_root [CompleteSpace W] (hr0 : 0 ≤ r) (hr1 : r < 1)
    (hf : ∀ x y, ‖x‖ ≤ δ → ‖y‖ ≤ δ → ‖f x - f y - (x - y)‖ ≤ r * ‖x - y‖)
    (hx : ∀ k, x (k + 1) = x k - (f (x k) + c))
    (h0 : ‖x 0‖ + ‖f (x 0) + c‖ / (1 - r) ≤ δ) :
    ∃ z, f z + c = 0 ∧ ‖z‖ ≤ ‖x 0‖ + ‖f (x 0) + c‖ / (1 - r) ∧
      (∀ k, ‖x k - z‖ ≤ ‖f (x 0) + c‖ * r ^ k / (1 - r)) ∧
      ∀ y, ‖y‖ ≤ δ → (1 - r) * ‖y - z‖ ≤ ‖f y + c‖ := by
  have h1 : 0 < 1 - r := by linarith
  have hg := newton_geom hr0 hr1 hf hx h0
  have bound : ∀ k, ‖x k‖ ≤ ‖x 0‖ + ‖f (x 0) + c‖ / (1 - r) := by
    intro k
    refine (hg k).1.trans ?_
    have : ‖f (x 0) + c‖ * (1 - r ^ k) ≤ ‖f (x 0) + c‖ := by
      have h2 : (0 : ℝ) ≤ r ^ k := pow_nonneg hr0 k
      have h3 := norm_nonneg (f (x 0) + c)
      nlinarith
    have := div_le_div_of_nonneg_right this h1.le
    linarith
  have hd : ∀ k, dist (x k) (x (k + 1)) ≤ ‖f (x 0) + c‖ * r ^ k := fun k => by
    rw [dist_comm, dist_eq_norm, mul_comm]
    exact (hg k).2
  obtain ⟨z, hz⟩ := cauchySeq_tendsto_of_complete (cauchySeq_of_le_geometric r _ hr1 hd)
  have hzb : ‖z‖ ≤ ‖x 0‖ + ‖f (x 0) + c‖ / (1 - r) :=
    le_of_tendsto hz.norm (Eventually.of_forall bound)
  have hzk : ∀ k, ‖x k - z‖ ≤ ‖f (x 0) + c‖ * r ^ k / (1 - r) := fun k => by
    rw [← dist_eq_norm]
    exact dist_le_of_le_geometric_of_tendsto r _ hr1 hd hz k
  have hroot : f z + c = 0 := by
    have l1 : Tendsto (fun k => f (x k) + c) atTop (𝓝 0) := by
      have e : (fun k => f (x k) + c) = fun k => x k - x (k + 1) := by
        funext k; rw [hx k]; abel
      rw [e]
      simpa using hz.sub (hz.comp (tendsto_add_atTop_nat 1))
    have l2 : Tendsto (fun k => f (x k) - f z) atTop (𝓝 0) := by
      have l3 : Tendsto (fun k => (1 + r) * ‖x k - z‖) atTop (𝓝 0) := by
        have := (tendsto_iff_norm_sub_tendsto_zero.1 hz).const_mul (1 + r)
        simpa using this
      refine squeeze_zero_norm (fun k => ?_) l3
      have := hf (x k) z ((bound k).trans h0) (hzb.trans h0)
      have h4 := norm_add_le (f (x k) - f z - (x k - z)) (x k - z)
      rw [sub_add_cancel] at h4
      linarith
    have l4 := l1.sub l2
    have e : (fun k => f (x k) + c - (f (x k) - f z)) = fun _ => f z + c := by
      funext k; abel
    rw [e, sub_zero] at l4
    exact tendsto_nhds_unique tendsto_const_nhds l4
  refine ⟨z, hroot, hzb, hzk, fun y hy => ?_⟩
  have h4 := hf y z hy (hzb.trans h0)
  have e : f y - f z = f y + c := by
    rw [show f y - f z = (f y + c) - (f z + c) by abel, hroot, sub_zero]
  rw [e, norm_sub_rev] at h4
  have h5 := norm_add_le (y - z - (f y + c)) (f y + c)
  rw [sub_add_cancel] at h5
  linarith

end

/-! ## Uniformity over bounded positions -/

/-- A map with strict derivative the second projection at every `(q, 0)` is uniformly close to the
identity in the second argument, over bounded sets of the first. -/
theorem strict_uniform {W : Type*} [NormedAddCommGroup W] [NormedSpace ℝ W] [ProperSpace W]
    {N : W × W → W} (hN : ∀ q, HasStrictFDerivAt N (ContinuousLinearMap.snd ℝ W W) (q, 0))
    {r : ℝ} (hr : 0 < r) (M : ℝ) : ∃ δ > 0, ∀ q : W, ‖q‖ ≤ M → ∀ x y : W, ‖x‖ ≤ δ → ‖y‖ ≤ δ →
      ‖N (q, x) - N (q, y) - (x - y)‖ ≤ r * ‖x - y‖ := by
  have hc : IsCompact (Metric.closedBall (0 : W) M) := isCompact_closedBall 0 M
  have key : ∃ δ > 0, ∀ q ∈ Metric.closedBall (0 : W) M, ∀ x y : W, ‖x‖ ≤ δ → ‖y‖ ≤ δ →
      ‖N (q, x) - N (q, y) - (x - y)‖ ≤ r * ‖x - y‖ := by
    refine hc.induction_on (p := fun S => ∃ δ > 0, ∀ q ∈ S, ∀ x y : W, ‖x‖ ≤ δ → ‖y‖ ≤ δ →
      ‖N (q, x) - N (q, y) - (x - y)‖ ≤ r * ‖x - y‖) ?_ ?_ ?_ ?_
    · exact ⟨1, one_pos, fun q hq => absurd hq (Set.notMem_empty q)⟩
    · rintro S T hST ⟨δ, hδ, hT⟩
      exact ⟨δ, hδ, fun q hq => hT q (hST hq)⟩
    · rintro S T ⟨δ, hδ, hS⟩ ⟨ε, hε, hT⟩
      refine ⟨min δ ε, lt_min hδ hε, fun q hq x y hx hy => ?_⟩
      rcases hq with hq | hq
      · exact hS q hq x y (hx.trans (min_le_left _ _)) (hy.trans (min_le_left _ _))
      · exact hT q hq x y (hx.trans (min_le_right _ _)) (hy.trans (min_le_right _ _))
    · intro q0 _
      have h1 := (isLittleO_iff.1 (hN q0).isLittleO) hr
      obtain ⟨ε, hε, h2⟩ := Metric.eventually_nhds_iff.1 h1
      refine ⟨Metric.ball q0 ε, mem_nhdsWithin_of_mem_nhds (Metric.ball_mem_nhds q0 hε), ε / 2,
        half_pos hε, fun q hq x y hx hy => ?_⟩
      have h3 := h2 (y := ((q, x), (q, y))) (by
        have hq : dist q q0 < ε := hq
        have hx : dist x 0 < ε := by rw [dist_zero_right]; linarith
        have hy : dist y 0 < ε := by rw [dist_zero_right]; linarith
        simp only [Prod.dist_eq]
        exact max_lt (max_lt hq hx) (max_lt hq hy))
      simpa [Prod.norm_def] using h3
  obtain ⟨δ, hδ, h⟩ := key
  exact ⟨δ, hδ, fun q hq => h q (by simpa using hq)⟩

theorem _root_.Real.sqrt_sum_sq_le {ι : Type*} (s : Finset ι) (f : ι → ℝ) :
    Real.sqrt (∑ i ∈ s, f i ^ 2) ≤ ∑ i ∈ s, |f i| := by
  refine Real.sqrt_le_iff.2 ⟨sum_nonneg fun i _ => abs_nonneg _, ?_⟩
  have := sum_sq_le_sq_sum_of_nonneg (s := s) (f := fun i => |f i|) fun i _ => abs_nonneg (f i)
  simpa using this

/-- A continuous function is bounded over bounded states. -/
theorem bounded_on {W : Type*} [NormedAddCommGroup W] [ProperSpace W] {f : W → ℝ}
    (hf : Continuous f) (M : ℝ) : ∃ K, 0 ≤ K ∧ ∀ q : W, ‖q‖ ≤ M → |f q| ≤ K := by
  obtain ⟨K, hK⟩ := (isCompact_closedBall (0 : W) M).exists_bound_of_continuousOn hf.continuousOn
  refine ⟨max K 0, le_max_right _ _, fun q hq => ?_⟩
  exact (hK q (by simpa using hq)).trans (le_max_left _ _)

namespace Body
variable {E : Ext} {b : Body} {d : Bool}

theorem massAt_smooth (h : Inv E b) (i j : Fin b.dof) :
    Sm fun y : State b.dof => b.massAt y.1 i j :=
  massSpec_smooth (w := fun _ _ => 0) h.tree (fun i _ => padFin_smooth contDiff_fst i) i j

theorem massAt_pos (h : Reach E b d) (hd : b.Definite) (q : Fin b.dof → ℝ) : PosMat (b.massAt q) := by
  have := sysAt_pos h hd (q, 0)
  have e : padFin (0 : Fin b.dof → ℝ) = fun _ => 0 := by funext i; simp [padFin]
  simp only [e] at this
  exact this

theorem massAt_det (h : Reach E b d) (hd : b.Definite) (q : Fin b.dof → ℝ) :
    (b.massAt q).det ≠ 0 := (massAt_pos h hd q).det_ne

theorem invMass_smooth (h : Reach E b d) (hd : b.Definite) (i j : Fin b.dof) :
    Sm fun y : State b.dof => (b.massAt y.1)⁻¹ i j := by
  have := Sm.inv_mulVec (A := fun y : State b.dof => b.massAt y.1) (r := fun _ => Pi.single j 1)
    (massAt_smooth h.inv) (fun k => contDiff_const) (fun y => massAt_det h hd y.1) i
  simpa using this

/-- The generalised momentum, solved for the rates, to first order is the displacement. -/
theorem solved_strict (h : Reach E b d) (hd : b.Definite) {P : State b.dof → Fin b.dof → ℝ}
    {q0 : Fin b.dof → ℝ} (hP : ∀ i, HasStrictFDerivAt (fun y => P y i)
      (∑ j, b.massAt q0 i j • (ContinuousLinearMap.proj (R := ℝ) (φ := fun _ : Fin b.dof => ℝ) j).comp
        (ContinuousLinearMap.snd ℝ (Fin b.dof → ℝ) (Fin b.dof → ℝ))) (q0, 0))
    (h0 : ∀ i, P (q0, 0) i = 0) :
    HasStrictFDerivAt (fun y : State b.dof => (b.massAt y.1)⁻¹ *ᵥ P y)
      (ContinuousLinearMap.snd ℝ (Fin b.dof → ℝ) (Fin b.dof → ℝ)) (q0, 0) := by
  refine hasStrictFDerivAt_pi'.2 fun i => ?_
  have hs : HasStrictFDerivAt (fun y : State b.dof => ∑ j, (b.massAt y.1)⁻¹ i j * P y j) _ (q0, 0) :=
    HasStrictFDerivAt.fun_sum fun j _ => ((invMass_smooth h hd i j).contDiffAt.hasStrictFDerivAt
      (x := (q0, 0)) (by simp)).mul (hP j)
  refine hs.congr_fderiv (ContinuousLinearMap.ext fun v => ?_)
  simp only [h0, zero_smul, add_zero, _root_.sum_apply, _root_.smul_apply,
    ContinuousLinearMap.comp_apply, ContinuousLinearMap.proj_apply, smul_eq_mul,
    ContinuousLinearMap.coe_snd']
  have : (b.massAt q0)⁻¹ *ᵥ (b.massAt q0 *ᵥ v.2) = v.2 := by
    rw [Matrix.mulVec_mulVec, Matrix.nonsing_inv_mul _ (isUnit_iff_ne_zero.2 (massAt_det h hd q0)),
      Matrix.one_mulVec]
  exact congrFun this i

theorem nextMom_zero (h : Inv E b) (hE : E.NearLog) (q : Fin b.dof → ℝ) (i : Fin b.dof) :
    b.nextMom E (q, 0) i = 0 := by
  unfold nextMom momSum
  refine sum_eq_zero fun k hk => ?_
  have : b.aheadF k (q, 0) = 1 := by
    unfold aheadF; simp only [add_zero]; exact disp_self h _ (mem_range.1 hk)
  rw [this, hE.log_one, Inertia.app_zero, hE.dlogT_one, Motion.dot_zero]

theorem prevMom_zero (h : Inv E b) (hE : E.NearLog) (q : Fin b.dof → ℝ) (i : Fin b.dof) :
    b.prevMom E (q, 0) i = 0 := by
  unfold prevMom momSum
  refine sum_eq_zero fun k hk => ?_
  have : b.behindF k (q, 0) = 1 := by
    unfold behindF; simp only [sub_zero]; exact disp_self h _ (mem_range.1 hk)
  rw [this, hE.log_one, Inertia.app_zero, hE.dlogT_one, Motion.dot_zero]

/-! ## The defect in terms of the displacements -/

/-- Generalised forces that act during a step: gravity and external forces, less the torques. -/
noncomputable def pull (b : Body) (tau : ℕ → ℝ) (fext : FExt) (g : Bool) (q : Fin b.dof → ℝ)
    (i : Fin b.dof) : ℝ :=
  (if g then (b.sysAt (padFin q) fun _ => 0).gravitySpec i else 0) +
    (b.sysAt (padFin q) fun _ => 0).extSpec fext i - tau i

/-- Positions of a body as a vector. -/
def qv (b B : Body) : Fin b.dof → ℝ := fun i => B.pos i

theorem StateOnly.eq_atState {B : Body} (h : StateOnly b B) :
    ∃ q dq c, B = { b with q := q, dq := dq, c := c } := by
  obtain ⟨h1, h2, h3, h4, h5, h6, h7, -, -⟩ := h
  refine ⟨B.q, B.dq, B.c, ?_⟩
  rw [← h1, ← h2, ← h3, ← h4, ← h5, ← h6, ← h7]

/-- The discrete Euler–Lagrange impulse from the momenta of the displacements. -/
theorem discreteSpec_mom (h : Inv E b) (hE : E.NearLog) {dt : ℝ} (qp qn : ℕ → ℝ) (fext : FExt)
    (i : Fin b.dof) : b.discreteSpec E b.own dt qp qn fext i =
      1 / dt * (b.nextMom E (b.qv b, fun j => qn j - b.pos j) i -
        b.prevMom E (b.qv b, fun j => b.pos j - qp j) i) +
        dt * (b.sysAt (padFin (b.qv b)) fun _ => 0).extSpec fext i := by
  have hpad : padFin (b.qv b) = b.pos := by
    funext j
    unfold padFin qv
    split
    · rfl
    · next hj =>
      unfold Body.pos
      rw [List.getD_eq_getElem?_getD, List.getElem?_eq_none (by rw [h.tree.lq]; omega)]
      rfl
  have hmom : ∀ k T, discMom E b.own dt k T =
      (1 / dt) • E.dlogT T ((b.rb k).inertia.app (E.log T)) := fun k T => by
    unfold discMom own
    rw [Inertia.app_smul, hE.dlogT_smul]
  have hn : ∀ k < b.dof, b.disp b.pos qn k = b.aheadF k (b.qv b, fun j => qn j - b.pos j) := by
    intro k hk
    unfold aheadF
    refine disp_congr h (fun j _ => by simp only; rw [hpad]) (fun j hj => ?_) k hk
    unfold padFin qv
    simp [hj]
  have hp : ∀ k < b.dof, b.disp qp b.pos k = b.behindF k (b.qv b, fun j => b.pos j - qp j) := by
    intro k hk
    unfold behindF
    refine disp_congr h (fun j hj => ?_) (fun j _ => by simp only; rw [hpad]) k hk
    unfold padFin qv
    simp [hj]
  unfold discreteSpec Sys.extSpec nextMom prevMom momSum Sys.genForce
  simp only [mul_sub, mul_sum, mul_neg]
  rw [← sum_sub_distrib, ← sub_eq_add_neg]
  show ∑ k ∈ range b.dof, _ = _ - ∑ k ∈ range b.dof, _
  rw [← sum_sub_distrib]
  refine sum_congr rfl fun k hk => ?_
  have hk : k < b.dof := mem_range.1 hk
  have hv := twAt_valid h.tree h.rigid b.pos k hk
  have hB := disp_valid h qp b.pos hk
  rw [hmom, hmom, Motion.dot_sub, hv.dot_actF, Motion.dot_sub, hB.inv.dot_actF, hB.inv_inv,
    Motion.dot_smul, Motion.dot_smul, Motion.dot_smul, hn k hk, hp k hk, hpad]
  rfl

theorem defect_mom {B : Body} {dB : Bool} {p : Prev} (h : DReach E B dB p) (hs : StateOnly b B)
    (hE : E.NearLog) {tau : ℕ → ℝ} {dt : ℝ} (hdt : dt ≠ 0) {fext : FExt} {g : Bool} (x : ℕ → ℝ)
    (i : Fin b.dof) : dt * B.defect E tau dt fext g x i =
      b.nextMom E (b.qv B, fun j => x j - B.pos j) i -
        b.prevMom E (b.qv B, fun j => B.pos j - B.before p dt j) i +
        dt * dt * b.pull tau fext g (b.qv B) i := by
  obtain ⟨q, dq, c, hB⟩ := hs.eq_atState
  have hpad : padFin (B.qv B) = B.pos := by
    funext j
    unfold padFin qv
    split
    · rfl
    · next hj =>
      unfold Body.pos
      rw [List.getD_eq_getElem?_getD, List.getElem?_eq_none
        (by rw [h.reach.inv.tree.lq]; omega)]
      rfl
  have hi : (i : ℕ) < B.dof := by rw [hB]; exact i.2
  have h1 := (discreteID_run h.reach.inv h.dcoh x dt fext g).1 i hi
  have h2 := discreteSpec_mom h.reach.inv hE (dt := dt) (B.before p dt) x fext ⟨i, hi⟩
  unfold defect
  simp only at h2
  rw [h1, h2]
  have e1 : B.nextMom E (B.qv B, fun j => x j - B.pos j) ⟨i, hi⟩ =
      b.nextMom E (b.qv B, fun j => x j - B.pos j) i := by subst hB; rfl
  have e2 : B.prevMom E (B.qv B, fun j => B.pos j - B.before p dt j) ⟨i, hi⟩ =
      b.prevMom E (b.qv B, fun j => B.pos j - B.before p dt j) i := by subst hB; rfl
  have e3 : (B.sysAt (padFin (B.qv B)) fun _ => 0).extSpec fext i =
      (b.sysAt (padFin (b.qv B)) fun _ => 0).extSpec fext i := by subst hB; rfl
  have e4 : B.fresh.gravitySpec i = (b.sysAt (padFin (b.qv B)) fun _ => 0).gravitySpec i := by
    have : B.fresh.gravitySpec i = (B.sysAt (padFin (B.qv B)) fun _ => 0).gravitySpec i := by
      rw [hpad]; rfl
    rw [this]
    subst hB; rfl
  rw [e1, e2, e3, e4]
  unfold pull
  cases g <;> simp <;> field_simp <;> ring

theorem pull_smooth (h : Inv E b) (tau : ℕ → ℝ) (fext : FExt) (g : Bool) (i : Fin b.dof) :
    Sm fun y : State b.dof => b.pull tau fext g y.1 i := by
  have hq : ∀ i < b.dof, Sm fun y : State b.dof => padFin y.1 i :=
    fun i _ => padFin_smooth contDiff_fst i
  unfold pull
  refine (ContDiff.add ?_ (extSpec_smooth (w := fun _ _ => 0) h.tree hq fext i)).sub contDiff_const
  cases g
  · exact contDiff_const
  · exact gravitySpec_smooth (w := fun _ _ => 0) h.tree hq i

theorem padFin_pos {B : Body} (h : Inv E B) (hs : StateOnly b B) : padFin (b.qv B) = B.pos := by
  have hn : B.dof = b.dof := by unfold Body.dof; rw [hs.rbs]
  funext l
  unfold padFin qv
  split
  · rfl
  · next hl =>
    unfold Body.pos
    rw [List.getD_eq_getElem?_getD, List.getElem?_eq_none (by rw [h.tree.lq, hn]; omega)]
    rfl

theorem padFin_vel {B : Body} (h : Inv E B) (hs : StateOnly b B) :
    padFin (fun i : Fin b.dof => B.vel i) = B.vel := by
  have hn : B.dof = b.dof := by unfold Body.dof; rw [hs.rbs]
  funext l
  unfold padFin
  split
  · rfl
  · next hl =>
    unfold Body.vel
    rw [List.getD_eq_getElem?_getD, List.getElem?_eq_none (by rw [h.tree.ldq, hn]; omega)]
    rfl

theorem atState_of {B : Body} {dB : Bool} (h : Reach E B dB) (hs : StateOnly b B) :
    AtState E b (b.qv B, fun i => B.vel i) B := by
  have hn : B.dof = b.dof := by unfold Body.dof; rw [hs.rbs]
  refine ⟨hs, h.inv, ?_, ?_⟩
  · refine List.ext_getElem (by simp [h.inv.tree.lq, hn]) fun i h1 h2 => ?_
    simp [qv, Body.pos, List.getD_eq_getElem?_getD, h1]
  · refine List.ext_getElem (by simp [h.inv.tree.ldq, hn]) fun i h1 h2 => ?_
    simp [Body.vel, List.getD_eq_getElem?_getD, h1]

/-- The solver applied to a right-hand side. -/
theorem solve_mass {B : Body} {dB : Bool} (h : Reach E B dB) (hs : StateOnly b B) {d : Bool}
    (hb : Reach E b d) (hd : b.Definite) (x : ℕ → ℝ) (i : Fin b.dof) :
    E.solve B.dof B.inertiaInverse.1 x i = ((b.massAt (b.qv B))⁻¹ *ᵥ fun j => x j) i := by
  have hn : B.dof = b.dof := by unfold Body.dof; rw [hs.rbs]
  have hD := hs.definite hd
  have hm := hD.massive h.inv.tree
  have hA : toMat b.dof B.inertiaInverse.1 = b.massAt (b.qv B) := by
    ext j k
    have hj : (j : ℕ) < B.dof := lt_of_lt_of_eq j.2 hn.symm
    have hk : (k : ℕ) < B.dof := lt_of_lt_of_eq k.2 hn.symm
    have e1 := IsA.unique h.inv.wf (inertiaInverse_run h.inv).2 (inertia_run h.inv).2.1 j hj k hk
    show B.inertiaInverse.1 j k = (b.sysAt (padFin (b.qv B)) fun _ => 0).massSpec j k
    rw [e1, inertia_entry h hm j k hj hk, hs.fresh]
    rw [padFin_pos h.inv hs]
    rfl
  rw [hn, solve_is (by rw [hA]; exact massAt_pos hb hd _), hA]

/-- Momentum of the displacements ahead, solved for the rates. -/
noncomputable def nextRate (b : Body) (E : Ext) (y : State b.dof) : Fin b.dof → ℝ :=
  (b.massAt y.1)⁻¹ *ᵥ b.nextMom E y

/-- Momentum of the displacements behind, solved for the rates. -/
noncomputable def prevRate (b : Body) (E : Ext) (y : State b.dof) : Fin b.dof → ℝ :=
  (b.massAt y.1)⁻¹ *ᵥ b.prevMom E y

/-- Bounds that hold over bounded states. -/
structure Bounds (E : Ext) (b : Body) (tau : ℕ → ℝ) (fext : FExt) (g : Bool)
    (m r δ1 δ2 K1 K2 K3 K4 : ℝ) : Prop where
  pos1 : 0 < δ1
  pos2 : 0 < δ2
  nn1 : 0 ≤ K1
  nn2 : 0 ≤ K2
  nn3 : 0 ≤ K3
  nn4 : 0 ≤ K4
  next : ∀ q : Fin b.dof → ℝ, ‖q‖ ≤ m → ∀ x y : Fin b.dof → ℝ, ‖x‖ ≤ δ1 → ‖y‖ ≤ δ1 →
    ‖b.nextRate E (q, x) - b.nextRate E (q, y) - (x - y)‖ ≤ r * ‖x - y‖
  prev : ∀ q : Fin b.dof → ℝ, ‖q‖ ≤ m → ∀ x y : Fin b.dof → ℝ, ‖x‖ ≤ δ2 → ‖y‖ ≤ δ2 →
    ‖b.prevRate E (q, x) - b.prevRate E (q, y) - (x - y)‖ ≤ 1 * ‖x - y‖
  next0 : ∀ q, b.nextRate E (q, 0) = 0
  prev0 : ∀ q, b.prevRate E (q, 0) = 0
  pull : ∀ q : Fin b.dof → ℝ, ‖q‖ ≤ m → ‖(b.massAt q)⁻¹ *ᵥ b.pull tau fext g q‖ ≤ K1
  acc : ∀ y : State b.dof, ‖y‖ ≤ m → ‖b.accAt b.g tau fext true g y‖ ≤ K2
  mass : ∀ q : Fin b.dof → ℝ, ‖q‖ ≤ m → ∀ u : Fin b.dof → ℝ,
    ∑ i, |(b.massAt q *ᵥ u) i| ≤ K3 * ‖u‖
  imass : ∀ q : Fin b.dof → ℝ, ‖q‖ ≤ m → ∀ u : Fin b.dof → ℝ,
    ‖(b.massAt q)⁻¹ *ᵥ u‖ ≤ K4 * ‖u‖
  det : ∀ q, IsUnit (b.massAt q).det

theorem bounds_of (h : Reach E b d) (hd : b.Definite) (ha : b.AxesOK)
    (hl : ∀ k < b.dof, b.load k = none) (hE : E.NearLog) (tau : ℕ → ℝ) (fext : FExt) (g : Bool)
    (m : ℝ) {r : ℝ} (hr0 : 0 < r) :
    ∃ δ1 δ2 K1 K2 K3 K4, Bounds E b tau fext g m r δ1 δ2 K1 K2 K3 K4 := by
  have sN : ∀ q, HasStrictFDerivAt (b.nextRate E)
      (ContinuousLinearMap.snd ℝ (Fin b.dof → ℝ) (Fin b.dof → ℝ)) (q, 0) := fun q =>
    solved_strict h hd (fun i => nextMom_strict h.inv hE ha hl q i) (nextMom_zero h.inv hE q)
  have sQ : ∀ q, HasStrictFDerivAt (b.prevRate E)
      (ContinuousLinearMap.snd ℝ (Fin b.dof → ℝ) (Fin b.dof → ℝ)) (q, 0) := fun q =>
    solved_strict h hd (fun i => prevMom_strict h.inv hE ha hl q i) (prevMom_zero h.inv hE q)
  obtain ⟨δ1, hδ1, uN⟩ := strict_uniform sN hr0 m
  obtain ⟨δ2, hδ2, uQ⟩ := strict_uniform sQ one_pos m
  have cq : Continuous fun q : Fin b.dof → ℝ => ((q, 0) : State b.dof) :=
    continuous_id.prodMk continuous_const
  have c1 : Continuous fun y : State b.dof => ‖(b.massAt y.1)⁻¹ *ᵥ b.pull tau fext g y.1‖ :=
    (continuous_pi fun i => (Sm.inv_mulVec (A := fun y : State b.dof => b.massAt y.1)
      (r := fun y => b.pull tau fext g y.1) (massAt_smooth h.inv)
      (pull_smooth h.inv tau fext g) (fun y => massAt_det h hd y.1) i).continuous).norm
  obtain ⟨K1, hK1, bK1⟩ := bounded_on c1 m
  obtain ⟨K2, hK2, bK2⟩ := bounded_on
    (accAt_smooth h hd b.g tau fext true g).continuous.norm m
  have c3 : Continuous fun y : State b.dof => ∑ i, ∑ j, |b.massAt y.1 i j| :=
    continuous_finset_sum _ fun i _ => continuous_finset_sum _ fun j _ =>
      (massAt_smooth h.inv i j).continuous.abs
  obtain ⟨K3, hK3, bK3⟩ := bounded_on c3 m
  have c4 : Continuous fun y : State b.dof => ∑ i, ∑ j, |(b.massAt y.1)⁻¹ i j| :=
    continuous_finset_sum _ fun i _ => continuous_finset_sum _ fun j _ =>
      (invMass_smooth h hd i j).continuous.abs
  obtain ⟨K4, hK4, bK4⟩ := bounded_on c4 m
  have nz : ∀ q : Fin b.dof → ℝ, ‖((q, 0) : State b.dof)‖ = ‖q‖ := fun q => by
    simp [Prod.norm_def]
  have row : ∀ (A : Matrix (Fin b.dof) (Fin b.dof) ℝ) (u : Fin b.dof → ℝ),
      ∑ i, |(A *ᵥ u) i| ≤ (∑ i, ∑ j, |A i j|) * ‖u‖ := by
    intro A u
    simp only [sum_mul]
    refine sum_le_sum fun i _ => ?_
    refine (abs_sum_le_sum_abs (fun j => A i j * u j) univ).trans (sum_le_sum fun j _ => ?_)
    rw [abs_mul]
    exact mul_le_mul_of_nonneg_left (norm_le_pi_norm u j) (abs_nonneg _)
  refine ⟨δ1, δ2, K1, K2, K3, K4, hδ1, hδ2, hK1, hK2, hK3, hK4, uN, uQ, fun q => ?_, fun q => ?_,
    fun q hq => ?_, fun y hy => ?_, fun q hq u => ?_, fun q hq u => ?_,
    fun q => isUnit_iff_ne_zero.2 (massAt_det h hd q)⟩
  · have : b.nextMom E (q, 0) = 0 := funext (nextMom_zero h.inv hE q)
    unfold nextRate
    rw [this, Matrix.mulVec_zero]
  · have : b.prevMom E (q, 0) = 0 := funext (prevMom_zero h.inv hE q)
    unfold prevRate
    rw [this, Matrix.mulVec_zero]
  · have := bK1 (q, 0) ((nz q).trans_le hq)
    rwa [abs_of_nonneg (norm_nonneg _)] at this
  · have := bK2 y hy
    rwa [abs_of_nonneg (norm_nonneg _)] at this
  · refine (row _ u).trans (mul_le_mul_of_nonneg_right ?_ (norm_nonneg u))
    have := bK3 (q, 0) ((nz q).trans_le hq)
    rwa [abs_of_nonneg (sum_nonneg fun i _ => sum_nonneg fun j _ => abs_nonneg _)] at this
  · have h1 := bK4 (q, 0) ((nz q).trans_le hq)
    rw [abs_of_nonneg (sum_nonneg fun i _ => sum_nonneg fun j _ => abs_nonneg _)] at h1
    refine (pi_norm_le_iff_of_nonneg (by positivity)).2 fun i => ?_
    refine (single_le_sum (f := fun i => |((b.massAt q)⁻¹ *ᵥ u) i|) (fun i _ => abs_nonneg _)
      (mem_univ i)).trans ((row _ u).trans (mul_le_mul_of_nonneg_right h1 (norm_nonneg u)))

/-- The constant part of the corrections. -/
noncomputable def rest (b : Body) (E : Ext) (tau : ℕ → ℝ) (dt : ℝ) (fext : FExt) (g : Bool)
    (q z : Fin b.dof → ℝ) : Fin b.dof → ℝ :=
  -b.prevRate E (q, z) + (dt * dt) • ((b.massAt q)⁻¹ *ᵥ b.pull tau fext g q)

/-- Last displacement of a body, as a vector. -/
noncomputable def lastMove (b B : Body) (p : Prev) (dt : ℝ) : Fin b.dof → ℝ :=
  fun j => B.pos j - B.before p dt j

/-- Displacement to a position, as a vector. -/
def moveTo (b B : Body) (y : ℕ → ℝ) : Fin b.dof → ℝ := fun j => y j - B.pos j

/-- The defect as an image of the correction. -/
theorem defect_rate {B : Body} {dB : Bool} {p : Prev} {dt : ℝ} (hB : DReach E B dB p)
    (hs : StateOnly b B) (hE : E.NearLog) (hdet : IsUnit (b.massAt (b.qv B)).det) (hdt : dt ≠ 0)
    (tau : ℕ → ℝ) (fext : FExt) (g : Bool) (y : ℕ → ℝ) :
    (fun i : Fin b.dof => dt * B.defect E tau dt fext g y i) =
      b.massAt (b.qv B) *ᵥ (b.nextRate E (b.qv B, b.moveTo B y) +
        b.rest E tau dt fext g (b.qv B) (b.lastMove B p dt)) := by
  have e1 : (fun i : Fin b.dof => dt * B.defect E tau dt fext g y i) =
      b.nextMom E (b.qv B, b.moveTo B y) - b.prevMom E (b.qv B, b.lastMove B p dt) +
        (dt * dt) • b.pull tau fext g (b.qv B) := by
    funext i
    exact defect_mom hB hs hE hdt y i
  rw [e1]
  unfold rest nextRate prevRate
  rw [Matrix.mulVec_add, Matrix.mulVec_add, Matrix.mulVec_neg, Matrix.mulVec_smul]
  simp only [Matrix.mulVec_mulVec, Matrix.mul_nonsing_inv _ hdet, Matrix.one_mulVec]
  abel

/-- One correction of a candidate. -/
theorem candidate_step (h : Reach E b d) (hd : b.Definite) {B : Body} {dB : Bool} {p : Prev}
    {dt : ℝ} (hB : DReach E B dB p)
    (hs : StateOnly b B) (hE : E.NearLog) (hdet : IsUnit (b.massAt (b.qv B)).det) (hdt : dt ≠ 0)
    (tau : ℕ → ℝ) (fext : FExt) (g : Bool) (k : ℕ) :
    b.moveTo B (B.candidate E tau dt fext g (k + 1)) =
      b.moveTo B (B.candidate E tau dt fext g k) -
        (b.nextRate E (b.qv B, b.moveTo B (B.candidate E tau dt fext g k)) +
          b.rest E tau dt fext g (b.qv B) (b.lastMove B p dt)) := by
  funext j
  have e1 := solve_mass hB.reach hs h hd
    (B.defect E tau dt fext g (B.candidate E tau dt fext g k)) j
  have e2 := defect_rate hB hs hE hdet hdt tau fext g (B.candidate E tau dt fext g k)
  have e3 : (b.massAt (b.qv B))⁻¹ *ᵥ (fun i : Fin b.dof => dt * B.defect E tau dt fext g
      (B.candidate E tau dt fext g k) i) =
        b.nextRate E (b.qv B, b.moveTo B (B.candidate E tau dt fext g k)) +
          b.rest E tau dt fext g (b.qv B) (b.lastMove B p dt) := by
    rw [e2, Matrix.mulVec_mulVec, Matrix.nonsing_inv_mul _ hdet, Matrix.one_mulVec]
  have e4 : (b.massAt (b.qv B))⁻¹ *ᵥ (fun i : Fin b.dof => dt * B.defect E tau dt fext g
      (B.candidate E tau dt fext g k) i) = dt • ((b.massAt (b.qv B))⁻¹ *ᵥ fun i : Fin b.dof =>
        B.defect E tau dt fext g (B.candidate E tau dt fext g k) i) := by
    rw [← Matrix.mulVec_smul]; rfl
  have e5 := congrFun (e3.symm.trans e4) j
  show B.candidate E tau dt fext g k j - dt * E.solve B.dof B.inertiaInverse.1
    (B.defect E tau dt fext g (B.candidate E tau dt fext g k)) j - B.pos j = _
  rw [e1, Pi.sub_apply, e5, Pi.smul_apply, smul_eq_mul]
  unfold moveTo
  ring

/-- The first candidate. -/
theorem candidate_zero (hd : b.Definite) {B : Body} {dB : Bool} {p : Prev}
    {dt : ℝ} (hB : DReach E B dB p) (hs : StateOnly b B) (tau : ℕ → ℝ) (fext : FExt) (g : Bool) :
    b.moveTo B (B.candidate E tau dt fext g 0) = dt • (fun i : Fin b.dof => B.vel i) +
      (dt * dt) • b.accAt b.g tau fext true g (b.qv B, fun i => B.vel i) := by
  funext j
  have hf : B.fresh = b.sysAt (padFin (b.qv B)) (padFin fun i : Fin b.dof => B.vel i) := by
    rw [padFin_pos hB.reach.inv hs, padFin_vel hB.reach.inv hs]
    exact hs.fresh
  have := (atState_of hB.reach hs).fd_val hB.reach hd hf tau fext ⟨g, true, false, 0.01⟩ rfl j
  show B.pos j + dt * B.vel j + dt * dt * (B.fd E tau fext ⟨g, true, false, 0.01⟩).1 j - B.pos j = _
  rw [this]
  simp only [Pi.add_apply, Pi.smul_apply, smul_eq_mul]
  ring

/-- Everything about the root finding, uniformly over bounded states. -/
theorem root_uniform (h : Reach E b d) (hd : b.Definite) (ha : b.AxesOK) (hl : ∀ k < b.dof, b.load k = none)
    (hE : E.NearLog) (tau : ℕ → ℝ) (fext : FExt) (g : Bool) (M : ℝ) {r : ℝ} (hr0 : 0 < r)
    (hr1 : r < 1) : ∃ t0 > 0, ∃ C, ∃ ρ > 0, ∀ (B : Body) (dB : Bool) (p : Prev) (dt : ℝ),
      DReach E B dB p → StateOnly b B → (∀ i < b.dof, |B.pos i| ≤ M ∧ |B.vel i| ≤ M ∧
        |B.pos i - B.before p dt i| ≤ M * dt) → 0 < dt → dt < t0 →
      (∀ k, Real.sqrt (∑ i ∈ range b.dof,
        B.defect E tau dt fext g (B.candidate E tau dt fext g k) i ^ 2) ≤ C * r ^ k) ∧
      ∃ x : ℕ → ℝ, (∀ i < b.dof, B.defect E tau dt fext g x i = 0 ∧ |x i - B.pos i| ≤ C * dt) ∧
        (∀ k, ∀ i < b.dof, |B.candidate E tau dt fext g k i - x i| ≤ C * dt * r ^ k) ∧
        (∀ k, ∀ i < b.dof, |B.candidate E tau dt fext g k i - B.pos i| ≤ ρ) ∧
        (∀ y : ℕ → ℝ, (∀ i < b.dof, |y i - B.pos i| ≤ ρ) → ∀ i < b.dof, |y i - x i| ≤
          C * dt * Real.sqrt (∑ j ∈ range b.dof, B.defect E tau dt fext g y j ^ 2)) := by
  set m : ℝ := max M 0 with hm
  have hm0 : 0 ≤ m := le_max_right _ _
  have hMm : M ≤ m := le_max_left _ _
  obtain ⟨δ1, δ2, K1, K2, K3, K4, hbd⟩ := bounds_of h hd ha hl hE tau fext g m hr0
  have hδ1 := hbd.pos1
  have hδ2 := hbd.pos2
  have hK1 := hbd.nn1
  have hK2 := hbd.nn2
  have hK3 := hbd.nn3
  have hK4 := hbd.nn4
  have hK5 : 0 ≤ K4 / (1 - r) := div_nonneg hK4 (by linarith)
  have h1r : 0 < 1 - r := by linarith
  set a0 : ℝ := 2 * (m + K2) + 2 * m + K1 with ha0
  have ha0' : 0 ≤ a0 := by positivity
  set C1 : ℝ := m + K2 + a0 / (1 - r) with hC1
  have hq1 : 0 ≤ a0 / (1 - r) := div_nonneg ha0' h1r.le
  have hC1' : 0 ≤ C1 := by positivity
  refine ⟨min 1 (min (δ1 / (C1 + 1)) (δ2 / (m + 1))), lt_min one_pos (lt_min (by positivity)
    (by positivity)), K3 * a0 + C1 + K4 / (1 - r), δ1, hδ1, fun B dB p dt hB hs hb hdt0 hdt => ?_⟩
  have t1 : dt ≤ 1 := (hdt.trans_le (min_le_left _ _)).le
  have t2 : dt * C1 ≤ δ1 := by
    have := (hdt.trans_le ((min_le_right _ _).trans (min_le_left _ _))).le
    rw [le_div_iff₀ (by positivity)] at this
    linarith
  have t3 : dt * m ≤ δ2 := by
    have := (hdt.trans_le ((min_le_right _ _).trans (min_le_right _ _))).le
    rw [le_div_iff₀ (by positivity)] at this
    linarith
  have hdt' : dt ≠ 0 := hdt0.ne'
  set q : Fin b.dof → ℝ := b.qv B with hq
  have nq : ‖q‖ ≤ m := (pi_norm_le_iff_of_nonneg hm0).2 fun i => (hb i i.2).1.trans hMm
  set v : Fin b.dof → ℝ := fun i => B.vel i with hv
  have nv : ‖v‖ ≤ m := (pi_norm_le_iff_of_nonneg hm0).2 fun i => (hb i i.2).2.1.trans hMm
  set z : Fin b.dof → ℝ := b.lastMove B p dt with hz
  have nz : ‖z‖ ≤ dt * m := (pi_norm_le_iff_of_nonneg (by positivity)).2 fun i => by
    refine (hb i i.2).2.2.trans ?_
    rw [mul_comm]
    exact mul_le_mul_of_nonneg_left hMm hdt0.le
  have hdet := hbd.det q
  set c : Fin b.dof → ℝ := b.rest E tau dt fext g q z with hc
  have hdef : ∀ y : ℕ → ℝ, (fun i : Fin b.dof => dt * B.defect E tau dt fext g y i) =
      b.massAt q *ᵥ (b.nextRate E (q, b.moveTo B y) + c) :=
    defect_rate hB hs hE hdet hdt' tau fext g
  set x : ℕ → Fin b.dof → ℝ := fun k => b.moveTo B (B.candidate E tau dt fext g k) with hx
  have hstep : ∀ k, x (k + 1) = x k - (b.nextRate E (q, x k) + c) :=
    candidate_step h hd hB hs hE hdet hdt' tau fext g
  have x0 : x 0 = dt • v + (dt * dt) • b.accAt b.g tau fext true g (q, v) :=
    candidate_zero hd hB hs tau fext g
  have nacc : ‖b.accAt b.g tau fext true g (q, v)‖ ≤ K2 := hbd.acc (q, v) (max_le nq nv)
  have npull := hbd.pull q nq
  have uN := hbd.next q nq
  have uQ := hbd.prev q nq
  have hdt2 : dt * dt ≤ dt := by nlinarith
  have nx0 : ‖x 0‖ ≤ dt * (m + K2) := by
    rw [x0]
    refine (norm_add_le _ _).trans ?_
    rw [norm_smul, norm_smul, Real.norm_of_nonneg hdt0.le, Real.norm_of_nonneg (by positivity)]
    have := mul_le_mul_of_nonneg_left nv hdt0.le
    have := mul_le_mul hdt2 nacc (norm_nonneg _) hdt0.le
    linarith
  have nQ : ‖b.prevRate E (q, z)‖ ≤ 2 * (dt * m) := by
    have := uQ z 0 (nz.trans t3) (by simpa using hδ2.le)
    rw [hbd.prev0, sub_zero, sub_zero, one_mul] at this
    have h4 := norm_add_le (b.prevRate E (q, z) - z) z
    rw [sub_add_cancel] at h4
    linarith
  have nc : ‖b.nextRate E (q, x 0) + c‖ ≤ dt * a0 := by
    have h2 : ‖x 0‖ ≤ δ1 := nx0.trans ((mul_le_mul_of_nonneg_left (by linarith) hdt0.le).trans t2)
    have := uN (x 0) 0 h2 (by simpa using hδ1.le)
    rw [hbd.next0, sub_zero, sub_zero] at this
    have h4 := norm_add_le (b.nextRate E (q, x 0) - x 0) (x 0)
    rw [sub_add_cancel] at h4
    have h5 : ‖c‖ ≤ 2 * (dt * m) + dt * K1 := by
      rw [hc]
      unfold rest
      refine (norm_add_le _ _).trans ?_
      rw [norm_neg, norm_smul, Real.norm_of_nonneg (by positivity)]
      have := mul_le_mul hdt2 npull (norm_nonneg _) hdt0.le
      linarith
    have h6 := norm_add_le (b.nextRate E (q, x 0)) c
    have h7 : r * ‖x 0‖ ≤ ‖x 0‖ := by
      have := norm_nonneg (x 0)
      nlinarith
    rw [ha0]
    nlinarith
  have start : ‖x 0‖ + ‖b.nextRate E (q, x 0) + c‖ / (1 - r) ≤ dt * C1 := by
    have := div_le_div_of_nonneg_right nc h1r.le
    rw [hC1, mul_add, mul_div_assoc']
    linarith
  have geo := newton_geom (f := fun x => b.nextRate E (q, x)) hr0.le hr1 uN hstep (start.trans t2)
  obtain ⟨w, hw, nw, hwk, huniq⟩ :=
    newton_root (f := fun x => b.nextRate E (q, x)) hr0.le hr1 uN hstep (start.trans t2)
  have Kle := hbd.mass q nq
  refine ⟨fun k => ?_, fun i => B.pos i + padFin w i, fun i hi => ?_, fun k i hi => ?_,
    fun k i hi => ?_, fun y hy i hi => ?_⟩
  · -- the defects
    have e1 := hdef (B.candidate E tau dt fext g k)
    have e2 : b.nextRate E (q, x k) + c = -(x (k + 1) - x k) := by rw [hstep k]; abel
    have h2 : ∑ i : Fin b.dof, |dt * B.defect E tau dt fext g (B.candidate E tau dt fext g k) i| ≤
        K3 * (r ^ k * (dt * a0)) := by
      have h3 := Kle (b.nextRate E (q, x k) + c)
      rw [← e1] at h3
      refine h3.trans (mul_le_mul_of_nonneg_left ?_ hK3)
      rw [e2, norm_neg]
      exact (geo k).2.trans (mul_le_mul_of_nonneg_left nc (pow_nonneg hr0.le k))
    have h3 : dt * ∑ i : Fin b.dof, |B.defect E tau dt fext g (B.candidate E tau dt fext g k) i| ≤
        dt * (K3 * a0 * r ^ k) := by
      rw [mul_sum]
      simp only [abs_mul, abs_of_pos hdt0] at h2
      linarith
    have h4 := le_of_mul_le_mul_left h3 hdt0
    refine (Real.sqrt_sum_sq_le _ _).trans ?_
    rw [← Fin.sum_univ_eq_sum_range (fun i => |B.defect E tau dt fext g
      (B.candidate E tau dt fext g k) i|)]
    refine h4.trans (mul_le_mul_of_nonneg_right ?_ (pow_nonneg hr0.le k))
    linarith
  · refine ⟨?_, ?_⟩
    · have e1 := hdef (fun i => B.pos i + padFin w i)
      have e2 : b.moveTo B (fun i => B.pos i + padFin w i) = w := by
        funext j; unfold moveTo; beta_reduce; rw [padFin_at]; ring
      rw [e2, hw, Matrix.mulVec_zero] at e1
      have := congrFun e1 ⟨i, hi⟩
      exact (mul_eq_zero.1 this).resolve_left hdt'
    · have : B.pos i + padFin w i - B.pos i = w ⟨i, hi⟩ := by
        rw [show padFin w i = w ⟨i, hi⟩ from padFin_at w ⟨i, hi⟩]; ring
      rw [this]
      refine (norm_le_pi_norm w ⟨i, hi⟩).trans ((nw.trans start).trans ?_)
      rw [mul_comm]
      refine mul_le_mul_of_nonneg_right ?_ hdt0.le
      have := mul_nonneg hK3 ha0'
      linarith
  · have : B.candidate E tau dt fext g k i - (B.pos i + padFin w i) = (x k - w) ⟨i, hi⟩ := by
      rw [show padFin w i = w ⟨i, hi⟩ from padFin_at w ⟨i, hi⟩, Pi.sub_apply]
      show _ = B.candidate E tau dt fext g k i - B.pos i - w ⟨i, hi⟩
      ring
    rw [this]
    refine (norm_le_pi_norm (x k - w) ⟨i, hi⟩).trans ((hwk k).trans ?_)
    have h2 : ‖b.nextRate E (q, x 0) + c‖ * r ^ k / (1 - r) ≤ dt * a0 * r ^ k / (1 - r) :=
      div_le_div_of_nonneg_right (mul_le_mul_of_nonneg_right nc (pow_nonneg hr0.le k)) h1r.le
    refine h2.trans ?_
    have e : dt * a0 * r ^ k / (1 - r) = a0 / (1 - r) * dt * r ^ k := by ring
    rw [e]
    refine mul_le_mul_of_nonneg_right (mul_le_mul_of_nonneg_right ?_ hdt0.le) (pow_nonneg hr0.le k)
    have := mul_nonneg hK3 ha0'
    linarith
  · refine (norm_le_pi_norm (x k) ⟨i, hi⟩).trans ((geo k).1.trans (le_trans ?_ (start.trans t2)))
    have h3 : ‖b.nextRate E (q, x 0) + c‖ * (1 - r ^ k) ≤ ‖b.nextRate E (q, x 0) + c‖ := by
      have h2 : (0 : ℝ) ≤ r ^ k := pow_nonneg hr0.le k
      have h3 := norm_nonneg (b.nextRate E (q, x 0) + c)
      nlinarith
    have := div_le_div_of_nonneg_right h3 h1r.le
    linarith
  · have e1 := hdef y
    have e3 : b.nextRate E (q, b.moveTo B y) + c =
        (b.massAt q)⁻¹ *ᵥ (dt • fun i : Fin b.dof => B.defect E tau dt fext g y i) := by
      have : (b.massAt q)⁻¹ *ᵥ (b.massAt q *ᵥ (b.nextRate E (q, b.moveTo B y) + c)) =
          (b.massAt q)⁻¹ *ᵥ (dt • fun i : Fin b.dof => B.defect E tau dt fext g y i) := by
        rw [← e1]; rfl
      rwa [Matrix.mulVec_mulVec, Matrix.nonsing_inv_mul _ hdet, Matrix.one_mulVec] at this
    have e4 := huniq (b.moveTo B y) ((pi_norm_le_iff_of_nonneg hδ1.le).2 fun j => hy j j.2)
    beta_reduce at e4
    rw [e3] at e4
    have e5 := hbd.imass q nq (dt • fun i : Fin b.dof => B.defect E tau dt fext g y i)
    rw [norm_smul, Real.norm_of_nonneg hdt0.le] at e5
    set s := Real.sqrt (∑ j ∈ range b.dof, B.defect E tau dt fext g y j ^ 2) with hsq
    have e6 : ‖fun i : Fin b.dof => B.defect E tau dt fext g y i‖ ≤ s := by
      refine (pi_norm_le_iff_of_nonneg (Real.sqrt_nonneg _)).2 fun j => ?_
      rw [Real.norm_eq_abs]
      refine Real.abs_le_sqrt ?_
      exact single_le_sum (f := fun j => B.defect E tau dt fext g y j ^ 2)
        (fun j _ => sq_nonneg _) (mem_range.2 j.2)
    have e7 : ‖b.moveTo B y - w‖ ≤ K4 / (1 - r) * dt * s := by
      have h8 : K4 * (dt * ‖fun i : Fin b.dof => B.defect E tau dt fext g y i‖) ≤ K4 * (dt * s) :=
        mul_le_mul_of_nonneg_left (mul_le_mul_of_nonneg_left e6 hdt0.le) hK4
      rw [show K4 / (1 - r) * dt * s = K4 * (dt * s) / (1 - r) by ring, le_div_iff₀ h1r]
      linarith
    have e8 : y i - (B.pos i + padFin w i) = (b.moveTo B y - w) ⟨i, hi⟩ := by
      rw [show padFin w i = w ⟨i, hi⟩ from padFin_at w ⟨i, hi⟩, Pi.sub_apply]
      unfold moveTo
      ring
    beta_reduce
    rw [e8]
    refine (norm_le_pi_norm (b.moveTo B y - w) ⟨i, hi⟩).trans (e7.trans ?_)
    have := mul_nonneg hK3 ha0'
    refine mul_le_mul_of_nonneg_right (mul_le_mul_of_nonneg_right ?_ hdt0.le) (Real.sqrt_nonneg _)
    linarith

end Body
end SpatialDyn
