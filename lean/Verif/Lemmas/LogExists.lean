import Verif.Lemmas.TrueLog
import Verif.Props.RootFind

/-! The group of rigid motions has a logarithm in the sense of `Ext.TrueLog`. -/

namespace SpatialDyn

open Matrix NormedSpace Finset Filter Topology
open scoped ContDiff Matrix.Norms.Operator

/-! ## A rotation close to none is determined by its antisymmetric part -/

theorem sym_unique {ε η D : Fin 3 → Fin 3 → ℝ} {e : ℝ} (he : e < 1 / 9)
    (h1 : ∀ i j, |ε i j| ≤ e) (h2 : ∀ i j, |η i j| ≤ e) (hs : ∀ i j, D i j = D j i)
    (h : ∀ i j, D i j + D j i + ∑ k, (ε k i * D k j + D k i * η k j) = 0) : ∀ i j, D i j = 0 := by
  set s := ∑ i, ∑ j, |D i j| with hsd
  have e0 : 0 ≤ e := (abs_nonneg _).trans (h1 0 0)
  have hcol : ∀ j, ∑ k, |D k j| ≤ s := fun j => by
    rw [hsd, sum_comm]
    exact single_le_sum (f := fun j => ∑ k, |D k j|) (fun _ _ => sum_nonneg fun _ _ => abs_nonneg _)
      (mem_univ j)
  have hij : ∀ i j, |D i j| ≤ e * s := by
    intro i j
    have a1 : |∑ k, (ε k i * D k j + D k i * η k j)| ≤ e * s + e * s := by
      refine (abs_sum_le_sum_abs _ _).trans ?_
      refine (sum_le_sum (g := fun k => e * |D k j| + e * |D k i|) fun k _ => ?_).trans ?_
      · refine (abs_add_le _ _).trans (add_le_add ?_ ?_)
        · rw [abs_mul]; exact mul_le_mul_of_nonneg_right (h1 k i) (abs_nonneg _)
        · rw [abs_mul, mul_comm]; exact mul_le_mul_of_nonneg_right (h2 k j) (abs_nonneg _)
      · rw [sum_add_distrib, ← mul_sum, ← mul_sum]
        exact add_le_add (mul_le_mul_of_nonneg_left (hcol j) e0)
          (mul_le_mul_of_nonneg_left (hcol i) e0)
    have a2 := h i j
    rw [← hs i j] at a2
    rw [abs_le] at a1 ⊢
    constructor <;> linarith [a1.1, a1.2]
  have hsum : s ≤ 9 * (e * s) := by
    calc s ≤ ∑ _i : Fin 3, ∑ _j : Fin 3, e * s := sum_le_sum fun i _ => sum_le_sum fun j _ => hij i j
      _ = _ := by simp; ring
  have s0 : 0 ≤ s := sum_nonneg fun _ _ => sum_nonneg fun _ _ => abs_nonneg _
  have sz : s = 0 := by
    by_contra hne
    have : 0 < s := lt_of_le_of_ne s0 (Ne.symm hne)
    nlinarith
  intro i j
  have := hij i j
  rw [sz, mul_zero] at this
  exact abs_eq_zero.1 (le_antisymm this (abs_nonneg _))

/-- The entries of a matrix. -/
def Mat3.fn (A : Mat3) : Fin 3 → Fin 3 → ℝ :=
  ![![A.m00, A.m01, A.m02], ![A.m10, A.m11, A.m12], ![A.m20, A.m21, A.m22]]

theorem Mat3.fn_gap (A B : Mat3) (i j : Fin 3) : |A.fn i j - B.fn i j| ≤ (A - B).size := by
  have p := fun x : ℝ => abs_nonneg x
  fin_cases i <;> fin_cases j <;> simp [Mat3.fn, Mat3.size] <;>
    linarith [p (A.m00 - B.m00), p (A.m01 - B.m01), p (A.m02 - B.m02), p (A.m10 - B.m10),
      p (A.m11 - B.m11), p (A.m12 - B.m12), p (A.m20 - B.m20), p (A.m21 - B.m21), p (A.m22 - B.m22)]

theorem Iso.twist_injective {T U : Iso} (hT : T.Valid) (hU : U.Valid) (gT : T.gap 1 < 1 / 9)
    (gU : U.gap 1 < 1 / 9) (h : T.twist = U.twist) : T = U := by
  have hl : T.t = U.t := congrArg Motion.lin h
  have hx : (T.R.m21 - T.R.m12) / 2 = (U.R.m21 - U.R.m12) / 2 := congrArg (fun m => m.ang.x) h
  have hy : (T.R.m02 - T.R.m20) / 2 = (U.R.m02 - U.R.m20) / 2 := congrArg (fun m => m.ang.y) h
  have hz : (T.R.m10 - T.R.m01) / 2 = (U.R.m10 - U.R.m01) / 2 := congrArg (fun m => m.ang.z) h
  have hsz : ∀ W : Iso, (W.R - (1 : Iso).R).size ≤ W.gap 1 := fun W => by
    unfold Iso.gap
    linarith [Vec3.size_nonneg (W.t - (1 : Iso).t)]
  have key := sym_unique (ε := fun i j => U.R.fn i j - (1 : Iso).R.fn i j)
    (η := fun i j => T.R.fn i j - (1 : Iso).R.fn i j) (D := fun i j => T.R.fn i j - U.R.fn i j)
    (e := max (T.gap 1) (U.gap 1)) (max_lt gT gU)
    (fun i j => (Mat3.fn_gap _ _ i j).trans ((hsz U).trans (le_max_right _ _)))
    (fun i j => (Mat3.fn_gap _ _ i j).trans ((hsz T).trans (le_max_left _ _)))
    (fun i j => by fin_cases i <;> fin_cases j <;> simp [Mat3.fn] <;> linarith)
    (fun i j => by
      have a' := Mat3.ext_iff.1 (show Mat3.mul T.R.T T.R = 1 from hT.1)
      have c' := Mat3.ext_iff.1 (show Mat3.mul U.R.T U.R = 1 from hU.1)
      simp only [Mat3.mul, Mat3.T] at a' c'
      obtain ⟨a0, a1, a2, a3, a4, a5, a6, a7, a8⟩ := a'
      obtain ⟨c0, c1, c2, c3, c4, c5, c6, c7, c8⟩ := c'
      fin_cases i <;> fin_cases j <;> simp [Mat3.fn, Fin.sum_univ_succ]
      · linear_combination a0 - c0
      · linear_combination a1 - c1
      · linear_combination a2 - c2
      · linear_combination a3 - c3
      · linear_combination a4 - c4
      · linear_combination a5 - c5
      · linear_combination a6 - c6
      · linear_combination a7 - c7
      · linear_combination a8 - c8)
  have k : ∀ i j, T.R.fn i j = U.R.fn i j := fun i j => sub_eq_zero.1 (key i j)
  have hR : T.R = U.R := Mat3.ext (k 0 0) (k 0 1) (k 0 2) (k 1 0) (k 1 1) (k 1 2) (k 2 0) (k 2 1)
    (k 2 2)
  exact Iso.ext hR hl

/-! ## The logarithm -/

theorem expTw_deriv' : HasStrictFDerivAt expTw
    ((ContinuousLinearEquiv.refl ℝ (Fin 6 → ℝ) : (Fin 6 → ℝ) ≃L[ℝ] (Fin 6 → ℝ)) :
      (Fin 6 → ℝ) →L[ℝ] (Fin 6 → ℝ)) 0 := expTw_deriv

/-- The twist that leads to a displacement. -/
noncomputable def logTw : (Fin 6 → ℝ) → Fin 6 → ℝ :=
  (expTw_smooth.contDiffAt (n := ∞) (x := 0)).localInverse expTw_deriv'.hasFDerivAt (by simp)

theorem logTw_zero : logTw 0 = 0 := by
  have := (expTw_smooth.contDiffAt (n := ∞) (x := 0)).localInverse_apply_image
    expTw_deriv'.hasFDerivAt (by simp)
  rwa [expTw_zero] at this

theorem logTw_smooth : ContDiffAt ℝ 1 logTw 0 := by
  have := (expTw_smooth.contDiffAt (n := ∞) (x := 0)).to_localInverse
    expTw_deriv'.hasFDerivAt (by simp)
  rw [expTw_zero] at this
  exact this.of_le (by simp)

theorem expTw_logTw : ∀ᶠ y in 𝓝 0, expTw (logTw y) = y := by
  have := ((expTw_smooth.contDiffAt (n := ∞) (x := 0)).hasStrictFDerivAt' expTw_deriv'.hasFDerivAt
    (by simp)).eventually_right_inverse
  rwa [expTw_zero] at this

theorem logTw_diff : ∀ᶠ y in 𝓝 0, DifferentiableAt ℝ logTw y :=
  (logTw_smooth.eventually (by simp)).mono fun _ h => h.differentiableAt (by simp)

theorem logTw_tendsto : Tendsto logTw (𝓝 0) (𝓝 0) := by
  have := logTw_smooth.continuousAt
  unfold ContinuousAt at this
  rwa [logTw_zero] at this

/-- What holds for all small vectors holds for displacements close to none. -/
theorem twist_eventually {p : (Fin 6 → ℝ) → Prop} (h : ∀ᶠ y in 𝓝 0, p y) :
    ∃ δ > 0, ∀ T : Iso, T.gap 1 < δ → p T.twist.comps := by
  obtain ⟨δ, hδ, H⟩ := Metric.eventually_nhds_iff.1 h
  refine ⟨δ, hδ, fun T hT => H ?_⟩
  rw [dist_zero_right]
  have := Iso.twist_norm T 1
  rw [Iso.twist_one, Motion.comps_zero, sub_zero] at this
  exact this.trans_lt hT

theorem flowOf_near : Tendsto (fun x => (flowOf (Motion.ofComps x) 1).gap 1) (𝓝 0) (𝓝 0) := by
  have hc : Continuous fun x => (flowOf (Motion.ofComps x) 1).gap 1 := by
    simp only [Iso.gap_entry]
    refine continuous_finsetSum _ fun i _ => Continuous.abs (Continuous.sub ?_ continuous_const)
    have he : ∀ a c : Fin 4, Continuous fun x => exp (hatM x) a c := fun a c =>
      (Matrix.entryLinearMap ℝ ℝ a c).toContinuousLinearMap.continuous.comp expM_smooth.continuous
    simp only [flowOf, one_smul, Motion.comps_ofComps]
    fin_cases i
    · exact he 0 0
    · exact he 0 1
    · exact he 0 2
    · exact he 1 0
    · exact he 1 1
    · exact he 1 2
    · exact he 2 0
    · exact he 2 1
    · exact he 2 2
    · exact he 0 3
    · exact he 1 3
    · exact he 2 3
  have := hc.tendsto 0
  have e : (flowOf (Motion.ofComps 0) 1).gap 1 = 0 := by
    have : flowOf (Motion.ofComps 0) 1 = 1 := by
      unfold flowOf
      rw [Motion.comps_ofComps, map_zero, smul_zero, exp_zero]
      ext <;> simp [isoOf]
    rw [this, Iso.gap_self]
  rwa [e] at this

/-- External functions with the logarithm of the group of rigid motions and its derivative. -/
noncomputable def extLog : Ext := { ext0 with
  log := fun T => Motion.ofComps (logTw T.twist.comps)
  dlogT := fun T f => Force.ofComps fun j => ∑ i,
    fderiv ℝ logTw T.twist.comps (twM (hatM (Motion.unit j).comps * isoM T)) i * f.comps i }

theorem Motion.comps_sum (V : Motion) : V.comps = ∑ j, V.comps j • (Motion.unit j).comps := by
  funext i
  simp [Motion.unit, Motion.comps_ofComps, Pi.single_apply]

theorem extLog_dot (V : Motion) (T : Iso) (f : Force) : V.dot (extLog.dlogT T f) =
    ∑ i, fderiv ℝ logTw T.twist.comps (twM (hatM V.comps * isoM T)) i * f.comps i := by
  have e : fderiv ℝ logTw T.twist.comps (twM (hatM V.comps * isoM T)) = ∑ j, V.comps j •
      fderiv ℝ logTw T.twist.comps (twM (hatM (Motion.unit j).comps * isoM T)) := by
    conv_lhs => rw [Motion.comps_sum V, map_sum, sum_mul, map_sum, map_sum]
    refine sum_congr rfl fun j _ => ?_
    rw [map_smul, smul_mul_assoc, map_smul, map_smul]
  rw [e, dot_comps]
  show ∑ j, V.comps j * (Force.ofComps _).comps j = _
  simp only [Force.comps_ofComps, Finset.sum_apply, Pi.smul_apply, smul_eq_mul, sum_mul, mul_sum]
  rw [sum_comm]
  exact sum_congr rfl fun i _ => sum_congr rfl fun j _ => by ring

theorem extLog_true : extLog.TrueLog where
  dlogT_add T f g := by
    apply Force.comps_injective
    funext j
    have e : (f + g).comps = f.comps + g.comps := by funext i; fin_cases i <;> rfl
    have e2 : ∀ a c : Force, (a + c).comps = a.comps + c.comps := fun a c => by
      funext i; fin_cases i <;> rfl
    rw [e2]
    show (Force.ofComps _).comps j = (Force.ofComps _).comps j + (Force.ofComps _).comps j
    simp only [Force.comps_ofComps, e, Pi.add_apply, mul_add, sum_add_distrib]
  dlogT_smul T c f := by
    apply Force.comps_injective
    funext j
    have e2 : ∀ a : Force, (c • a).comps = c • a.comps := fun a => by
      funext i; fin_cases i <;> rfl
    rw [e2]
    show (Force.ofComps _).comps j = c • (Force.ofComps _).comps j
    simp only [Force.comps_ofComps, e2, Pi.smul_apply, smul_eq_mul, mul_sum]
    exact sum_congr rfl fun i _ => by ring
  log_small ε hε := by
    have h1 : ∀ᶠ y in 𝓝 (0 : Fin 6 → ℝ), ‖logTw y‖ < ε / 6 := by
      have := logTw_tendsto.norm
      rw [norm_zero] at this
      exact this.eventually (gt_mem_nhds (by positivity))
    obtain ⟨δ, hδ, H⟩ := twist_eventually h1
    refine ⟨δ, hδ, fun T _ hg => ?_⟩
    refine (Motion.size_norm _).trans_lt ?_
    have e : (extLog.log T).comps = logTw T.twist.comps := Motion.comps_ofComps _
    rw [e]
    have := H T hg
    linarith
  log_path := by
    have h1 : ∀ᶠ y in 𝓝 (0 : Fin 6 → ℝ), expTw (logTw y) = y ∧
        (flowOf (Motion.ofComps (logTw y)) 1).gap 1 < 1 / 9 :=
      expTw_logTw.and ((flowOf_near.comp logTw_tendsto).eventually (gt_mem_nhds (by norm_num)))
    obtain ⟨δ, hδ, H⟩ := twist_eventually h1
    refine ⟨min δ (1 / 9), lt_min hδ (by norm_num), fun T hT hg => ?_⟩
    obtain ⟨e1, e2⟩ := H T (hg.trans_le (min_le_left _ _))
    refine ⟨flowOf (extLog.log T), flowOf_zero _, ?_, flowOf_twist _⟩
    refine Iso.twist_injective (HasTwist.rot_const (by rw [flowOf_zero]; exact Iso.valid_one)
      (flowOf_twist _) 1) hT e2 (hg.trans_le (min_le_right _ _)) ?_
    have e3 := isoM_flow (flowOf_zero (extLog.log T)) (flowOf_twist _) 1
    have e4 : (flowOf (extLog.log T) 1).twist.comps = T.twist.comps := by
      rw [← twM_isoM, e3, one_smul]
      show twM (exp (hatM (Motion.ofComps _).comps)) = _
      rw [Motion.comps_ofComps]
      exact e1
    rw [← Motion.ofComps_comps (flowOf (extLog.log T) 1).twist, e4, Motion.ofComps_comps]
  log_rate := by
    obtain ⟨δ, hδ, H⟩ := twist_eventually logTw_diff
    refine ⟨δ, hδ, fun T _ hg P V hP0 _ hPt f => ?_⟩
    have d2 : HasDerivAt (fun s => twM (isoM (P s))) (twM (hatM V.comps * isoM (P 0))) 0 :=
      twM.toContinuousLinearMap.hasFDerivAt.comp_hasDerivAt (0 : ℝ) hPt.isoM
    have e0 : twM (isoM (P 0)) = T.twist.comps := by rw [hP0, twM_isoM]
    have d1 : HasFDerivAt logTw (fderiv ℝ logTw T.twist.comps) (twM (isoM (P 0))) := by
      rw [e0]; exact (H T hg).hasFDerivAt
    have d3 := d1.comp_hasDerivAt (0 : ℝ) d2
    have d4 := hasDerivAt_pi.1 d3
    rw [extLog_dot, ← hP0]
    rw [hP0] at *
    have e : HasDerivAt (fun s => ∑ i, (logTw (twM (isoM (P s)))) i * f.comps i)
        (∑ i, fderiv ℝ logTw T.twist.comps (twM (hatM V.comps * isoM T)) i * f.comps i) 0 :=
      HasDerivAt.fun_sum fun i _ => (d4 i).mul_const _
    refine e.congr_of_eventuallyEq (Eventually.of_forall fun s => ?_)
    simp only
    rw [dot_comps]
    show ∑ i, (Motion.ofComps _).comps i * _ = _
    rw [Motion.comps_ofComps]
    simp only [twM_isoM]

end SpatialDyn
