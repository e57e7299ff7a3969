import Verif.Lemmas.ExpMap
import Verif.Spec.TrueLog

/-! The logarithm of rigid motions satisfies the estimates near the identity. -/

namespace SpatialDyn

open Matrix NormedSpace Finset
open scoped ContDiff Matrix.Norms.Operator

theorem lip_ball {W U : Type*} [NormedAddCommGroup W] [NormedSpace ℝ W] [ProperSpace W]
    [NormedAddCommGroup U] [NormedSpace ℝ U] {f : W → U} (hf : ContDiff ℝ 1 f) (m : ℝ) :
    ∃ L, 0 ≤ L ∧ ∀ x y : W, ‖x‖ ≤ m → ‖y‖ ≤ m → ‖f x - f y‖ ≤ L * ‖x - y‖ := by
  obtain ⟨L, hL⟩ := (isCompact_closedBall (0 : W) m).exists_bound_of_continuousOn
    (hf.continuous_fderiv (by simp)).continuousOn
  refine ⟨max L 0, le_max_right _ _, fun x y hx hy => ?_⟩
  exact (convex_closedBall (0 : W) m).norm_image_sub_le_of_norm_fderiv_le (f := f) (𝕜 := ℝ)
    (fun x _ => (hf.differentiable (by simp)).differentiableAt)
    (fun z hz => (hL z hz).trans (le_max_left _ _)) (by simpa using hy) (by simpa using hx)

/-- Close to zero the exponential is nearly the identity. -/
theorem expTw_near : ∃ δ > 0, ∃ L, 0 ≤ L ∧
    (∀ x y, ‖x‖ < δ → ‖y‖ < δ →
      ‖expTw x - expTw y - (x - y)‖ ≤ L * (‖x‖ + ‖y‖) * ‖x - y‖ ∧
      ‖x - y‖ ≤ 2 * ‖expTw x - expTw y‖ ∧
      ‖fderiv ℝ expTw x - fderiv ℝ expTw y‖ ≤ L * ‖x - y‖) ∧
    ∀ x, ‖x‖ < δ → ∀ v, ‖v‖ ≤ 2 * ‖fderiv ℝ expTw x v‖ := by
  have hd : ContDiff ℝ 1 (fderiv ℝ expTw) := (expTw_smooth.fderiv_right (m := ∞) (by simp)).of_le (by simp)
  obtain ⟨L, hL, HL⟩ := lip_ball hd 1
  have h0 : fderiv ℝ expTw 0 = ContinuousLinearMap.id ℝ (Fin 6 → ℝ) := expTw_deriv.hasFDerivAt.fderiv
  have hdiff : ∀ x, HasFDerivAt expTw (fderiv ℝ expTw x) x := fun x =>
    (expTw_smooth.differentiable (by simp) x).hasFDerivAt
  have hid : ∀ z, ‖z‖ ≤ 1 → ‖fderiv ℝ expTw z - ContinuousLinearMap.id ℝ (Fin 6 → ℝ)‖ ≤ L * ‖z‖ := by
    intro z hz
    have := HL z 0 hz (by simp)
    rwa [h0, sub_zero] at this
  set δ := 1 / (4 * L + 1) with hδ
  have hδ0 : 0 < δ := by positivity
  have hδ1 : δ ≤ 1 := by rw [hδ, div_le_one (by positivity)]; linarith
  have hLδ : L * δ ≤ 1 / 4 := by
    rw [hδ, mul_one_div, div_le_iff₀ (by positivity)]; linarith
  have ha : ∀ x y, ‖x‖ < δ → ‖y‖ < δ →
      ‖expTw x - expTw y - (x - y)‖ ≤ L * (‖x‖ + ‖y‖) * ‖x - y‖ := by
    intro x y hx hy
    set r := ‖x‖ + ‖y‖ with hr
    have nx := norm_nonneg x
    have ny := norm_nonneg y
    have hmax : max ‖x‖ ‖y‖ ≤ 1 := max_le (hx.le.trans hδ1) (hy.le.trans hδ1)
    have e := (convex_closedBall (0 : Fin 6 → ℝ) (max ‖x‖ ‖y‖)).norm_image_sub_le_of_norm_hasFDerivWithin_le
      (f := fun z => expTw z - z) (f' := fun z => fderiv ℝ expTw z - ContinuousLinearMap.id ℝ (Fin 6 → ℝ))
      (C := L * r)
      (fun z _ => ((hdiff z).sub (hasFDerivAt_id z)).hasFDerivWithinAt)
      (fun z hz => by
        have hz' : ‖z‖ ≤ max ‖x‖ ‖y‖ := by simpa using hz
        refine (hid z (hz'.trans hmax)).trans (mul_le_mul_of_nonneg_left (hz'.trans ?_) hL)
        exact max_le (by linarith) (by linarith))
      (x := y) (y := x) (by simp) (by simp)
    have e2 : expTw x - expTw y - (x - y) = expTw x - x - (expTw y - y) := by abel
    rw [e2]
    exact e
  refine ⟨δ, hδ0, L, hL, fun x y hx hy => ⟨ha x y hx hy, ?_,
    HL x y (hx.le.trans hδ1) (hy.le.trans hδ1)⟩, fun x hx v => ?_⟩
  · have h1 := ha x y hx hy
    have h2 : L * (‖x‖ + ‖y‖) ≤ 1 / 2 := by nlinarith
    have h3 := mul_le_mul_of_nonneg_right h2 (norm_nonneg (x - y))
    have h4 := norm_sub_le (expTw x - expTw y) (expTw x - expTw y - (x - y))
    rw [sub_sub_cancel] at h4
    linarith
  · have h1 := (fderiv ℝ expTw x - ContinuousLinearMap.id ℝ (Fin 6 → ℝ)).le_opNorm v
    have h2 := hid x (hx.le.trans hδ1)
    have h3 : L * ‖x‖ ≤ 1 / 4 := (mul_le_mul_of_nonneg_left hx.le hL).trans hLδ
    have h4 : ‖(fderiv ℝ expTw x - ContinuousLinearMap.id ℝ (Fin 6 → ℝ)) v‖ ≤ 1 / 4 * ‖v‖ :=
      h1.trans (mul_le_mul_of_nonneg_right (h2.trans h3) (norm_nonneg _))
    have h5 : (fderiv ℝ expTw x - ContinuousLinearMap.id ℝ (Fin 6 → ℝ)) v = fderiv ℝ expTw x v - v := rfl
    rw [h5] at h4
    have h6 := norm_sub_le (fderiv ℝ expTw x v) (fderiv ℝ expTw x v - v)
    rw [sub_sub_cancel] at h6
    linarith [norm_nonneg v]

/-! ## Norms -/

theorem Motion.norm_comps (m : Motion) : ‖m.comps‖ ≤ m.size := by
  refine (pi_norm_le_iff_of_nonneg m.size_nonneg).2 fun i => ?_
  rw [Motion.size_comps]
  exact single_le_sum (f := fun i => |m.comps i|) (fun _ _ => abs_nonneg _) (mem_univ i)

theorem Motion.size_norm (m : Motion) : m.size ≤ 6 * ‖m.comps‖ := by
  rw [Motion.size_comps]
  refine (sum_le_sum fun i _ => norm_le_pi_norm m.comps i).trans ?_
  simp

theorem Iso.twist_norm (T U : Iso) : ‖T.twist.comps - U.twist.comps‖ ≤ T.gap U := by
  rw [← Motion.comps_sub]
  exact (Motion.norm_comps _).trans (Iso.twist_size T U)

/-- The components of a force. -/
def Force.comps (m : Force) : Fin 6 → ℝ := ![m.lin.x, m.lin.y, m.lin.z, m.ang.x, m.ang.y, m.ang.z]

/-- A force from its components. -/
def Force.ofComps (x : Fin 6 → ℝ) : Force := ⟨⟨x 0, x 1, x 2⟩, ⟨x 3, x 4, x 5⟩⟩

theorem Force.comps_ofComps (x : Fin 6 → ℝ) : (Force.ofComps x).comps = x := by
  funext i; fin_cases i <;> rfl

theorem Force.comps_injective : Function.Injective Force.comps := by
  intro f g h
  have e : ∀ i, f.comps i = g.comps i := fun i => by rw [h]
  ext
  · exact e 0
  · exact e 1
  · exact e 2
  · exact e 3
  · exact e 4
  · exact e 5

theorem Force.comps_sub (f g : Force) : (f - g).comps = f.comps - g.comps := by
  funext i; fin_cases i <;> rfl

theorem Force.size_comps (m : Force) : m.size = ∑ i, |m.comps i| := by
  unfold Force.size Vec3.size
  simp only [Fin.sum_univ_succ, Fin.sum_univ_zero, Force.comps]
  simp
  ring

theorem dot_comps (m : Motion) (f : Force) : m.dot f = ∑ i, m.comps i * f.comps i := by
  simp only [Fin.sum_univ_succ, Fin.sum_univ_zero, Force.comps, Motion.comps, Motion.dot]
  simp
  ring

/-- Unit motions. -/
def Motion.unit (j : Fin 6) : Motion := Motion.ofComps (Pi.single j 1)

theorem Motion.unit_dot (j : Fin 6) (f : Force) : (Motion.unit j).dot f = f.comps j := by
  rw [dot_comps, Motion.unit, Motion.comps_ofComps]
  simp [Pi.single_apply]

theorem abs_dot_norm (m : Motion) (f : Force) : |m.dot f| ≤ ‖m.comps‖ * f.size := by
  rw [dot_comps, Force.size_comps, mul_sum]
  refine (abs_sum_le_sum_abs _ _).trans (sum_le_sum fun i _ => ?_)
  rw [abs_mul]
  exact mul_le_mul_of_nonneg_right (norm_le_pi_norm m.comps i) (abs_nonneg _)

/-! ## The logarithm -/

namespace Ext.TrueLog
variable {E : Ext}

theorem expTw_log {T : Iso} {P : ℝ → Iso} (h0 : P 0 = 1) (h1 : P 1 = T)
    (h : ∀ s, HasTwist P (E.log T) s) : expTw (E.log T).comps = T.twist.comps := by
  have := isoM_flow h0 h 1
  rw [one_smul, h1] at this
  unfold expTw
  rw [← this, twM_isoM]

/-- Near the identity the logarithm inverts the exponential. -/
theorem inverse (hE : E.TrueLog) (ε : ℝ) (hε : 0 < ε) : ∃ δ > 0, ∀ T : Iso, T.Valid → T.gap 1 < δ →
    ‖(E.log T).comps‖ < ε ∧ expTw (E.log T).comps = T.twist.comps := by
  obtain ⟨δ1, h1, H1⟩ := hE.log_small ε hε
  obtain ⟨δ2, h2, H2⟩ := hE.log_path
  refine ⟨min δ1 δ2, lt_min h1 h2, fun T hT hg => ⟨?_, ?_⟩⟩
  · exact (Motion.norm_comps _).trans_lt (H1 T hT (hg.trans_le (min_le_left _ _)))
  · obtain ⟨P, p0, p1, hp⟩ := H2 T hT (hg.trans_le (min_le_right _ _))
    exact expTw_log p0 p1 hp

theorem log_one (hE : E.TrueLog) : E.log 1 = 0 := by
  have hz : (E.log 1).size = 0 := by
    refine le_antisymm (le_of_forall_pos_le_add fun ε hε => ?_) (Motion.size_nonneg _)
    obtain ⟨δ, hδ, H⟩ := hE.log_small ε hε
    have := (H 1 Iso.valid_one (by rw [Iso.gap_self]; exact hδ)).le
    linarith
  have h2 := Motion.norm_comps (E.log 1)
  rw [hz] at h2
  have h3 : (E.log 1).comps = 0 := norm_eq_zero.1 (le_antisymm h2 (norm_nonneg _))
  rw [← Motion.ofComps_comps (E.log 1), h3]
  rfl

theorem log_second (hE : E.TrueLog) : ∃ δ > 0, ∃ C, 0 ≤ C ∧ ∀ T U : Iso, T.Valid → U.Valid →
    T.gap 1 < δ → U.gap 1 < δ →
    (E.log T - E.log U - (T.twist - U.twist)).size ≤ C * (T.gap 1 + U.gap 1) * T.gap U := by
  obtain ⟨δ0, hδ0, L, hL, HL, -⟩ := expTw_near
  obtain ⟨δ, hδ, H⟩ := hE.inverse δ0 hδ0
  refine ⟨δ, hδ, 24 * L, by positivity, fun T U hT hU gT gU => ?_⟩
  obtain ⟨t1, t2⟩ := H T hT gT
  obtain ⟨u1, u2⟩ := H U hU gU
  obtain ⟨e1, e2, -⟩ := HL _ _ t1 u1
  have small : ∀ W : Iso, W.Valid → W.gap 1 < δ → ‖(E.log W).comps‖ ≤ 2 * W.gap 1 := by
    intro W hW gW
    obtain ⟨w1, w2⟩ := H W hW gW
    obtain ⟨-, e2, -⟩ := HL (E.log W).comps 0 w1 (by simpa using hδ0)
    rw [sub_zero, expTw_zero, sub_zero, w2] at e2
    have := Iso.twist_norm W 1
    rw [Iso.twist_one, Motion.comps_zero, sub_zero] at this
    linarith
  have sT := small T hT gT
  have sU := small U hU gU
  rw [t2, u2] at e1 e2
  have e3 := Iso.twist_norm T U
  have g0 := Iso.gap_nonneg T U
  have g1 := Iso.gap_nonneg T 1
  have g2 := Iso.gap_nonneg U 1
  refine (Motion.size_norm _).trans ?_
  rw [Motion.comps_sub, Motion.comps_sub, Motion.comps_sub]
  have e4 : ‖(E.log T).comps - (E.log U).comps - (T.twist.comps - U.twist.comps)‖ ≤
      L * (2 * T.gap 1 + 2 * U.gap 1) * (2 * T.gap U) := by
    rw [← norm_neg, neg_sub]
    refine e1.trans ?_
    gcongr
    linarith
  linarith

/-- The rate of the logarithm along a twist. -/
theorem rate (hE : E.TrueLog) (ε : ℝ) (hε : 0 < ε) : ∃ δ > 0, ∀ T : Iso, T.Valid → T.gap 1 < δ →
    ‖(E.log T).comps‖ < ε ∧ expTw (E.log T).comps = T.twist.comps ∧
    ∀ V : Motion, ∃ W : Motion, (∀ f, V.dot (E.dlogT T f) = W.dot f) ∧
      fderiv ℝ expTw (E.log T).comps W.comps = twM (hatM V.comps * isoM T) := by
  obtain ⟨δ1, h1, H1⟩ := hE.inverse ε hε
  obtain ⟨δ2, h2, H2⟩ := hE.log_rate
  refine ⟨min δ1 δ2, lt_min h1 h2, fun T hT hg => ?_⟩
  obtain ⟨s1, s2⟩ := H1 T hT (hg.trans_le (min_le_left _ _))
  refine ⟨s1, s2, fun V => ?_⟩
  -- a frame moving through `T`
  set P : ℝ → Iso := fun s => flowOf V s * T with hP
  have hP0 : P 0 = T := by rw [hP]; simp only; rw [flowOf_zero, one_mul]
  have hPv : ∀ s, (P s).Valid := fun s =>
    (HasTwist.rot_const (by rw [flowOf_zero]; exact Iso.valid_one) (flowOf_twist V) s).mul hT
  have hPt : HasTwist P V 0 := by
    have e := (flowOf_twist V 0).mul (HasTwist.const T 0)
      (by rw [flowOf_zero]; exact Iso.valid_one)
    have e2 : V + (flowOf V 0).actM 0 = V := by
      rw [flowOf_zero]
      ext <;> simp [Iso.actM]
    rwa [e2] at e
  have hrate := H2 T hT (hg.trans_le (min_le_right _ _)) P V hP0 hPv hPt
  -- its logarithm has a derivative
  set w : Fin 6 → ℝ := fun i => V.dot (E.dlogT T (Force.ofComps (Pi.single i 1))) with hw
  have hcomp : ∀ i, HasDerivAt (fun s => (E.log (P s)).comps i) (w i) 0 := by
    intro i
    refine (hrate (Force.ofComps (Pi.single i 1))).congr_of_eventuallyEq
      (Filter.Eventually.of_forall fun s => ?_)
    simp only
    rw [dot_comps, Force.comps_ofComps]
    simp [Pi.single_apply]
  have hlog : HasDerivAt (fun s => (E.log (P s)).comps) w 0 := hasDerivAt_pi.2 hcomp
  refine ⟨Motion.ofComps w, fun f => ?_, ?_⟩
  · refine HasDerivAt.unique (hrate f) ?_
    have e : HasDerivAt (fun s => ∑ i, (E.log (P s)).comps i * f.comps i)
        (∑ i, w i * f.comps i) 0 := HasDerivAt.fun_sum fun i _ => (hcomp i).mul_const _
    simp only [dot_comps, Motion.comps_ofComps]
    exact e
  · rw [Motion.comps_ofComps]
    have hz : (E.log (P 0)).comps = (E.log T).comps := by rw [hP0]
    have d1 : HasDerivAt (fun s => expTw (E.log (P s)).comps)
        (fderiv ℝ expTw (E.log T).comps w) 0 := by
      have := (expTw_smooth.differentiable (by simp) (E.log (P 0)).comps).hasFDerivAt
      have := this.comp_hasDerivAt (0 : ℝ) hlog
      rw [hz] at this
      exact this
    have d2 : HasDerivAt (fun s => twM (isoM (P s))) (twM (hatM V.comps * isoM T)) 0 := by
      have := twM.toContinuousLinearMap.hasFDerivAt.comp_hasDerivAt (0 : ℝ) hPt.isoM
      rw [hP0] at this
      exact this
    refine d1.unique (d2.congr_of_eventuallyEq ?_)
    have hcont : Filter.Tendsto (fun s => (P s).gap 1) (nhds 0) (nhds ((P 0).gap 1)) := by
      have : ContinuousAt (fun s => (P s).gap 1) 0 := by
        simp only [Iso.gap_entry]
        exact tendsto_finsetSum _ fun i _ =>
          ((entry_deriv hPt.rot hPt.trans i).continuousAt.sub continuousAt_const).abs
      exact this
    rw [hP0] at hcont
    filter_upwards [hcont.eventually (gt_mem_nhds (hg.trans_le (min_le_left _ _)))] with s hs
    rw [(H1 (P s) (hPv s) hs).2, twM_isoM]

theorem dlogT_one (hE : E.TrueLog) (f : Force) : E.dlogT 1 f = f := by
  obtain ⟨δ, hδ, H⟩ := hE.rate 1 one_pos
  obtain ⟨-, -, H⟩ := H 1 Iso.valid_one (by rw [Iso.gap_self]; exact hδ)
  apply Force.comps_injective
  funext j
  obtain ⟨W, h1, h2⟩ := H (Motion.unit j)
  rw [← Motion.unit_dot, h1, ← Motion.unit_dot]
  rw [hE.log_one, Motion.comps_zero, expTw_deriv.hasFDerivAt.fderiv, isoM_one, mul_one,
    twM_hatM] at h2
  have : W = Motion.unit j := by
    rw [← Motion.ofComps_comps W, ← Motion.ofComps_comps (Motion.unit j)]
    exact congrArg _ h2
  rw [this]

theorem dlogT_lip (hE : E.TrueLog) : ∃ δ > 0, ∃ C, ∀ T U : Iso, T.Valid → U.Valid → T.gap 1 < δ →
    U.gap 1 < δ → ∀ f, (E.dlogT T f - E.dlogT U f).size ≤ C * T.gap U * f.size := by
  obtain ⟨δ0, hδ0, L, hL, HL, HD⟩ := expTw_near
  obtain ⟨δ, hδ, H⟩ := hE.rate δ0 hδ0
  -- bounds of the bilinear map
  obtain ⟨K, hK, HK⟩ : ∃ K, 0 ≤ K ∧ ∀ j T U, ‖twM (hatM (Motion.unit j).comps * isoM T) -
      twM (hatM (Motion.unit j).comps * isoM U)‖ ≤ K * T.gap U := by
    refine ⟨∑ j, ∑ i, ‖twM (hatM (Motion.unit j).comps * unitM i)‖,
      sum_nonneg fun _ _ => sum_nonneg fun _ _ => norm_nonneg _, fun j T U => ?_⟩
    have e : twM (hatM (Motion.unit j).comps * isoM T) - twM (hatM (Motion.unit j).comps * isoM U) =
        ∑ i, (T.entry i - U.entry i) • twM (hatM (Motion.unit j).comps * unitM i) := by
      rw [← map_sub, ← mul_sub, isoM_sum T, isoM_sum U, add_sub_add_right_eq_sub,
        ← sum_sub_distrib, mul_sum, map_sum]
      refine sum_congr rfl fun i _ => ?_
      rw [← sub_smul, mul_smul_comm, map_smul]
    rw [e]
    refine (norm_sum_le _ _).trans ?_
    have e1 : ∑ i, ‖twM (hatM (Motion.unit j).comps * unitM i)‖ ≤
        ∑ j, ∑ i, ‖twM (hatM (Motion.unit j).comps * unitM i)‖ :=
      single_le_sum (f := fun j => ∑ i, ‖twM (hatM (Motion.unit j).comps * unitM i)‖)
        (fun _ _ => sum_nonneg fun _ _ => norm_nonneg _) (mem_univ j)
    refine le_trans ?_ (mul_le_mul_of_nonneg_right e1 (Iso.gap_nonneg T U))
    rw [sum_mul]
    refine sum_le_sum fun i _ => ?_
    rw [norm_smul, mul_comm, Iso.gap_entry, Real.norm_eq_abs]
    exact mul_le_mul_of_nonneg_left (single_le_sum (f := fun i => |T.entry i - U.entry i|)
      (fun _ _ => abs_nonneg _) (mem_univ i)) (norm_nonneg _)
  set N := ∑ j, ‖twM (hatM (Motion.unit j).comps * isoM 1)‖ with hN
  refine ⟨δ, hδ, 6 * (2 * (2 * L * (2 * (K * δ + N)) + K)), fun T U hT hU gT gU f => ?_⟩
  obtain ⟨t1, t2, t3⟩ := H T hT gT
  obtain ⟨u1, u2, u3⟩ := H U hU gU
  obtain ⟨-, e2, e3⟩ := HL _ _ t1 u1
  rw [t2, u2] at e2
  have eg := Iso.twist_norm T U
  have g0 := Iso.gap_nonneg T U
  have hj : ∀ j, |(E.dlogT T f - E.dlogT U f).comps j| ≤
      2 * (2 * L * (2 * (K * δ + N)) + K) * T.gap U * f.size := by
    intro j
    obtain ⟨W, w1, w2⟩ := t3 (Motion.unit j)
    obtain ⟨X, x1, x2⟩ := u3 (Motion.unit j)
    rw [Force.comps_sub, Pi.sub_apply, ← Motion.unit_dot, ← Motion.unit_dot, w1, x1]
    have e4 : W.dot f - X.dot f = (W - X).dot f := by
      rw [dot_comps, dot_comps, dot_comps, ← sum_sub_distrib, Motion.comps_sub]
      exact sum_congr rfl fun i _ => by rw [Pi.sub_apply]; ring
    rw [e4]
    refine (abs_dot_norm _ _).trans (mul_le_mul_of_nonneg_right ?_ f.size_nonneg)
    rw [Motion.comps_sub]
    -- size of the second rate
    have nX : ‖X.comps‖ ≤ 2 * (K * δ + N) := by
      have y1 := HD _ u1 X.comps
      rw [x2] at y1
      have y2 := HK j U 1
      have y3 : ‖twM (hatM (Motion.unit j).comps * isoM 1)‖ ≤ N :=
        single_le_sum (f := fun j => ‖twM (hatM (Motion.unit j).comps * isoM 1)‖)
          (fun _ _ => norm_nonneg _) (mem_univ j)
      have y4 := norm_add_le (twM (hatM (Motion.unit j).comps * isoM U) -
        twM (hatM (Motion.unit j).comps * isoM 1)) (twM (hatM (Motion.unit j).comps * isoM 1))
      rw [sub_add_cancel] at y4
      have y5 : K * U.gap 1 ≤ K * δ := mul_le_mul_of_nonneg_left gU.le hK
      linarith
    have y1 := HD _ t1 (W.comps - X.comps)
    have y2 : fderiv ℝ expTw (E.log T).comps (W.comps - X.comps) =
        -((fderiv ℝ expTw (E.log T).comps - fderiv ℝ expTw (E.log U).comps) X.comps) +
        (twM (hatM (Motion.unit j).comps * isoM T) -
          twM (hatM (Motion.unit j).comps * isoM U)) := by
      rw [map_sub, w2, ← x2, _root_.sub_apply]
      abel
    rw [y2] at y1
    have y3 := norm_add_le (-((fderiv ℝ expTw (E.log T).comps -
      fderiv ℝ expTw (E.log U).comps) X.comps)) (twM (hatM (Motion.unit j).comps * isoM T) -
          twM (hatM (Motion.unit j).comps * isoM U))
    rw [norm_neg] at y3
    have y4 := (fderiv ℝ expTw (E.log T).comps - fderiv ℝ expTw (E.log U).comps).le_opNorm X.comps
    have y5 : ‖fderiv ℝ expTw (E.log T).comps - fderiv ℝ expTw (E.log U).comps‖ * ‖X.comps‖ ≤
        L * (2 * T.gap U) * (2 * (K * δ + N)) := by
      refine mul_le_mul (e3.trans (mul_le_mul_of_nonneg_left (by linarith) hL)) nX (norm_nonneg _)
        (by positivity)
    have y6 := HK j T U
    linarith
  rw [Force.size_comps]
  refine (sum_le_sum fun j _ => hj j).trans (le_of_eq ?_)
  rw [sum_const, card_univ, Fintype.card_fin, nsmul_eq_mul]
  push_cast
  ring

/-- The logarithm of the group of rigid motions satisfies the estimates near the identity. -/
theorem near2 (hE : E.TrueLog) : E.NearLog2 where
  dlogT_add := hE.dlogT_add
  dlogT_smul := hE.dlogT_smul
  dlogT_one := hE.dlogT_one
  dlogT_lip := hE.dlogT_lip
  log_one := hE.log_one
  log_near ε hε := by
    obtain ⟨δ, hδ, C, hC, H⟩ := hE.log_second
    refine ⟨min δ (ε / (2 * C + 1)), lt_min hδ (by positivity), fun T U hT hU gT gU => ?_⟩
    refine (H T U hT hU (gT.trans_le (min_le_left _ _)) (gU.trans_le (min_le_left _ _))).trans ?_
    refine mul_le_mul_of_nonneg_right ?_ (Iso.gap_nonneg _ _)
    have h1 := (gT.trans_le (min_le_right _ _)).le
    have h2 := (gU.trans_le (min_le_right _ _)).le
    have h3 : C * (T.gap 1 + U.gap 1) ≤ C * (2 * (ε / (2 * C + 1))) :=
      mul_le_mul_of_nonneg_left (by linarith) hC
    refine h3.trans ?_
    have h4 : C * (2 * (ε / (2 * C + 1))) = 2 * C * ε / (2 * C + 1) := by ring
    rw [h4, div_le_iff₀ (by positivity)]
    nlinarith
  log_second := by
    obtain ⟨δ, hδ, C, -, H⟩ := hE.log_second
    exact ⟨δ, hδ, C, H⟩

end Ext.TrueLog
end SpatialDyn
