import Verif.Lemmas.OdeGlobal
import Verif.Spec.Scheme

/-!
# Stability by a quadratic Lyapunov function

For a field that vanishes at `y0` with derivative `A` there, and a positive definite quadratic form
that decreases along `A`: solutions that start close to `y0` decay exponentially, and so do the
iterates of every one-step map that is consistent with the field.
-/

namespace SpatialDyn.OneStep

open Set Filter
open scoped ContDiff NNReal Topology

variable {X : Type*} [NormedAddCommGroup X] [NormedSpace ℝ X]

/-- A quadratic form that decreases along the linear field `A`. -/
structure Lyap (A : X →L[ℝ] X) where
  B : X →L[ℝ] X →L[ℝ] ℝ
  symm : ∀ e f, B e f = B f e
  m : ℝ
  M : ℝ
  c : ℝ
  m_pos : 0 < m
  M_pos : 0 < M
  c_pos : 0 < c
  lower : ∀ e, m * ‖e‖ ^ 2 ≤ B e e
  upper : ∀ e f, |B e f| ≤ M * (‖e‖ * ‖f‖)
  decay : ∀ e, 2 * B e (A e) ≤ -c * ‖e‖ ^ 2

variable {A : X →L[ℝ] X} {F : X → X} {y0 : X}

theorem near_linear (h0 : F y0 = 0) (hF : HasFDerivAt F A y0) {ε : ℝ} (hε : 0 < ε) :
    ∃ δ > 0, ∀ y, ‖y - y0‖ ≤ δ → ‖F y - A (y - y0)‖ ≤ ε * ‖y - y0‖ := by
  have h1 := hF.isLittleO.def hε
  rw [Metric.eventually_nhds_iff] at h1
  obtain ⟨δ, hδ, h2⟩ := h1
  refine ⟨δ / 2, by positivity, fun y hy => ?_⟩
  have h3 := h2 (y := y) (by rw [dist_eq_norm]; linarith)
  rwa [h0, sub_zero] at h3

/-- The Lyapunov function decreases along `F` near `y0`. -/
theorem Lyap.near (L : Lyap A) (h0 : F y0 = 0) (hF : HasFDerivAt F A y0) :
    ∃ δ > 0, ∀ y, ‖y - y0‖ ≤ δ → 2 * L.B (y - y0) (F y) ≤ -(L.c / 2) * ‖y - y0‖ ^ 2 := by
  obtain ⟨δ, hδ, h⟩ := near_linear h0 hF (ε := L.c / (4 * L.M))
    (div_pos L.c_pos (by linarith [L.M_pos]))
  refine ⟨δ, hδ, fun y hy => ?_⟩
  have h1 := h y hy
  have h2 := L.decay (y - y0)
  have h3 : L.B (y - y0) (F y) = L.B (y - y0) (A (y - y0)) + L.B (y - y0) (F y - A (y - y0)) := by
    rw [(L.B (y - y0)).map_sub]; ring
  have h4 := (le_abs_self _).trans (L.upper (y - y0) (F y - A (y - y0)))
  have h5 : L.M * (‖y - y0‖ * ‖F y - A (y - y0)‖) ≤
      L.M * (‖y - y0‖ * (L.c / (4 * L.M) * ‖y - y0‖)) := by
    have := L.M_pos
    gcongr
  have h6 : L.M * (‖y - y0‖ * (L.c / (4 * L.M) * ‖y - y0‖)) = L.c / 4 * ‖y - y0‖ ^ 2 := by
    have := L.M_pos.ne'
    field_simp
  rw [h3]
  nlinarith

theorem Lyap.deriv (L : Lyap A) {Y : ℝ → X} {v : X} {s : Set ℝ} {t : ℝ}
    (h : HasDerivWithinAt Y v s t) :
    HasDerivWithinAt (fun t => L.B (Y t - y0) (Y t - y0)) (2 * L.B (Y t - y0) v) s t := by
  have h1 := h.sub_const y0
  have h2 := (L.B.hasFDerivAt (x := Y t - y0)).comp_hasDerivWithinAt t h1
  have h3 := h2.clm_apply h1
  refine h3.congr_deriv ?_
  simp only [Function.comp]
  rw [L.symm v]
  ring

/-- Decay of solutions, for any field that agrees with `F` near `y0`. -/
theorem Lyap.decay_of_agree (L : Lyap A) {δ : ℝ} (hδ : 0 < δ)
    (hdec : ∀ y, ‖y - y0‖ ≤ δ → 2 * L.B (y - y0) (F y) ≤ -(L.c / 2) * ‖y - y0‖ ^ 2) {G : X → X}
    (hG : ∀ y, ‖y - y0‖ ≤ δ → G y = F y) {T : ℝ} {Y : ℝ → X} (hY : Solves G T Y)
    (hr : L.B (Y 0 - y0) (Y 0 - y0) ≤ L.m * δ ^ 2) : ∀ t ∈ Icc 0 T, ‖Y t - y0‖ ≤ δ ∧
      L.B (Y t - y0) (Y t - y0) ≤
        L.B (Y 0 - y0) (Y 0 - y0) * Real.exp (-(L.c / (2 * L.M)) * t) := by
  have hin : ∀ y, L.B (y - y0) (y - y0) ≤ L.m * δ ^ 2 → ‖y - y0‖ ≤ δ := by
    intro y hy
    have h1 := (L.lower (y - y0)).trans hy
    have h2 := le_of_mul_le_mul_left h1 L.m_pos
    exact abs_le_of_sq_le_sq' h2 hδ.le |>.2
  have hder : ∀ t ∈ Icc 0 T, HasDerivWithinAt (fun t => L.B (Y t - y0) (Y t - y0))
      (2 * L.B (Y t - y0) (G (Y t))) (Icc 0 T) t := fun t ht => L.deriv (hY t ht)
  have htrap : ∀ t ∈ Icc 0 T, L.B (Y t - y0) (Y t - y0) ≤ L.m * δ ^ 2 := by
    intro t ht
    refine image_le_of_deriv_right_lt_deriv_boundary
      (f := fun t => L.B (Y t - y0) (Y t - y0)) (f' := fun t => 2 * L.B (Y t - y0) (G (Y t)))
      (a := 0) (b := T) (B := fun _ => L.m * δ ^ 2) (B' := fun _ => 0)
      (fun t ht => (hder t ht).continuousWithinAt)
      (fun t ht => within_right ht (hder t (Ico_subset_Icc_self ht))) hr
      (fun t => hasDerivAt_const t _) (fun t _ he => ?_) ht
    have hb := hin _ he.le
    rw [hG _ hb]
    have h1 := hdec _ hb
    have h2 : 0 < ‖Y t - y0‖ := by
      rw [norm_pos_iff]
      intro hz
      simp only [hz, map_zero] at he
      have := mul_pos L.m_pos (pow_pos hδ 2)
      linarith
    have := mul_pos L.c_pos (pow_pos h2 2)
    linarith
  intro t ht
  refine ⟨hin _ (htrap t ht), exp_bound hder (fun s hs => ?_) t ht⟩
  have hb := hin _ (htrap s hs)
  rw [hG _ hb]
  refine (hdec _ hb).trans ?_
  have h1 := (le_abs_self _).trans (L.upper (Y s - y0) (Y s - y0))
  have h2 := L.M_pos
  have h3 : L.c / (2 * L.M) * L.B (Y s - y0) (Y s - y0) ≤
      L.c / (2 * L.M) * (L.M * (‖Y s - y0‖ * ‖Y s - y0‖)) :=
    mul_le_mul_of_nonneg_left h1 (div_pos L.c_pos (by linarith)).le
  have h4 : L.c / (2 * L.M) * (L.M * (‖Y s - y0‖ * ‖Y s - y0‖)) = L.c / 2 * ‖Y s - y0‖ ^ 2 := by
    field_simp
  linarith

/-- From the quadratic form to the norm. -/
theorem Lyap.to_norm (L : Lyap A) {e f : X} {θ : ℝ}
    (h : L.B e e ≤ L.B f f * Real.exp (-(2 * θ))) :
    ‖e‖ ≤ Real.sqrt (L.M / L.m) * ‖f‖ * Real.exp (-θ) := by
  have h1 := L.lower e
  have h2 := (le_abs_self _).trans (L.upper f f)
  have hx : Real.exp (-(2 * θ)) = Real.exp (-θ) ^ 2 := by
    rw [← Real.exp_nat_mul]; congr 1; push_cast; ring
  have h3 : L.m * ‖e‖ ^ 2 ≤ L.M * ‖f‖ ^ 2 * Real.exp (-θ) ^ 2 := by
    rw [hx] at h
    have : L.B f f * Real.exp (-θ) ^ 2 ≤ L.M * (‖f‖ * ‖f‖) * Real.exp (-θ) ^ 2 :=
      mul_le_mul_of_nonneg_right h2 (by positivity)
    nlinarith
  have h4 : ‖e‖ ^ 2 ≤ (Real.sqrt (L.M / L.m) * ‖f‖ * Real.exp (-θ)) ^ 2 := by
    rw [mul_pow, mul_pow, Real.sq_sqrt (div_pos L.M_pos L.m_pos).le]
    have hm := L.m_pos
    rw [div_mul_eq_mul_div, div_mul_eq_mul_div, le_div_iff₀ hm]
    linarith
  exact abs_le_of_sq_le_sq' h4 (by positivity) |>.2

theorem Lyap.small (L : Lyap A) {δ : ℝ} (hδ : 0 < δ) :
    ∃ r > 0, ∀ e : X, ‖e‖ ≤ r → L.B e e ≤ L.m * δ ^ 2 := by
  refine ⟨Real.sqrt (L.m / L.M) * δ, mul_pos (Real.sqrt_pos.2 (div_pos L.m_pos L.M_pos)) hδ,
    fun e he => ?_⟩
  have h1 := (le_abs_self _).trans (L.upper e e)
  have h2 : ‖e‖ ^ 2 ≤ (Real.sqrt (L.m / L.M) * δ) ^ 2 := by gcongr
  rw [mul_pow, Real.sq_sqrt (div_pos L.m_pos L.M_pos).le] at h2
  have h3 := mul_le_mul_of_nonneg_left h2 L.M_pos.le
  have h4 : L.M * (L.m / L.M * δ ^ 2) = L.m * δ ^ 2 := by
    have := L.M_pos.ne'
    field_simp
  nlinarith

/-- Solutions that start near `y0` decay exponentially. -/
theorem Lyap.stable (L : Lyap A) (h0 : F y0 = 0) (hF : HasFDerivAt F A y0) :
    ∃ r > 0, ∃ K, ∃ w > 0, ∀ T Y, Solves F T Y → ‖Y 0 - y0‖ ≤ r → ∀ t ∈ Icc 0 T,
      ‖Y t - y0‖ ≤ K * ‖Y 0 - y0‖ * Real.exp (-(w * t)) := by
  obtain ⟨δ, hδ, hdec⟩ := L.near h0 hF
  obtain ⟨r, hr, hs⟩ := L.small hδ
  have hM := L.M_pos
  refine ⟨r, hr, Real.sqrt (L.M / L.m), L.c / (4 * L.M), div_pos L.c_pos (by linarith),
    fun T Y hY hY0 t ht => ?_⟩
  have h1 := (L.decay_of_agree hδ hdec (G := F) (fun _ _ => rfl) hY (hs _ hY0) t ht).2
  refine L.to_norm (h1.trans_eq ?_)
  congr 2
  field_simp
  ring

/-- Global version: the field is linear. -/
theorem Lyap.stable_global (L : Lyap A) (hF : ∀ y, F y = A (y - y0)) :
    ∃ K, ∃ w > 0, ∀ T Y, Solves F T Y → ∀ t ∈ Icc 0 T,
      ‖Y t - y0‖ ≤ K * ‖Y 0 - y0‖ * Real.exp (-(w * t)) := by
  have hM := L.M_pos
  refine ⟨Real.sqrt (L.M / L.m), L.c / (4 * L.M), div_pos L.c_pos (by linarith),
    fun T Y hY t ht => ?_⟩
  set δ := Real.sqrt (|L.B (Y 0 - y0) (Y 0 - y0)| / L.m + 1) with hδ
  have hδp : 0 < δ := Real.sqrt_pos.2 (by have := L.m_pos; positivity)
  have hr : L.B (Y 0 - y0) (Y 0 - y0) ≤ L.m * δ ^ 2 := by
    have := L.m_pos
    rw [hδ, Real.sq_sqrt (by positivity), mul_add, mul_div_cancel₀ _ this.ne']
    linarith [le_abs_self (L.B (Y 0 - y0) (Y 0 - y0))]
  have h1 := (L.decay_of_agree hδp (F := F) (fun y _ => by
    rw [hF]
    have h1 := L.decay (y - y0)
    have := mul_nonneg L.c_pos.le (sq_nonneg ‖y - y0‖)
    linarith) (G := F) (fun _ _ => rfl) hY hr t ht).2
  refine L.to_norm (h1.trans_eq ?_)
  congr 2
  field_simp
  ring

/-- Solutions from near `y0` exist for all times. -/
theorem Lyap.exists_forever [FiniteDimensional ℝ X] (L : Lyap A) (h0 : F y0 = 0)
    (hF : HasFDerivAt F A y0) (hs : ContDiff ℝ 1 F) :
    ∃ r > 0, ∀ y, ‖y - y0‖ ≤ r → ∃ Y, Y 0 = y ∧ ∀ T, Solves F T Y := by
  obtain ⟨δ, hδ, hdec⟩ := L.near h0 hF
  obtain ⟨r, hr, hsm⟩ := L.small hδ
  refine ⟨r, hr, fun y hy => ?_⟩
  set χ : ContDiffBump y0 := ⟨δ, δ + 1, hδ, by linarith⟩ with hχ
  set G : X → X := fun y => χ y • F y with hG
  have hGs : ContDiff ℝ 1 G := (χ.contDiff (n := 1)).smul hs
  have hGc : HasCompactSupport G := χ.hasCompactSupport.smul_right
  have hGF : ∀ z, ‖z - y0‖ ≤ δ → G z = F z := by
    intro z hz
    have : χ z = 1 := χ.one_of_mem_closedBall (by rwa [mem_closedBall_iff_norm])
    simp only [hG, this, one_smul]
  obtain ⟨M, hM⟩ := hGc.exists_bound_of_continuous hGs.continuous
  obtain ⟨Y, hY0, hY⟩ : ∃ Y, Y 0 = y ∧ ∀ T, Solves G T Y := by
    have := FiniteDimensional.proper_real X
    obtain ⟨K, hK⟩ := ContDiff.lipschitzWith_of_hasCompactSupport hGc hGs (by norm_num)
    have hloc : ∀ T : ℝ, 0 ≤ T → ∃ Y, Y 0 = y ∧ Solves G T Y := by
      intro T hT
      have hM' : ∀ y, ‖G y‖ ≤ (Real.toNNReal M : ℝ≥0) := fun y => (hM y).trans (Real.le_coe_toNNReal M)
      obtain ⟨Y, h0, hY⟩ := (IsPicardLindelof.of_time_independent (f := G) (tmin := 0) (tmax := T)
        (t₀ := ⟨0, le_rfl, hT⟩) (x₀ := y) (a := Real.toNNReal M * Real.toNNReal T) (r := 0)
        (L := Real.toNNReal M) (K := K) (fun x _ => hM' x) hK.lipschitzOnWith (by
          simp only [sub_zero, NNReal.coe_mul, NNReal.coe_zero, sub_self]
          rw [max_eq_left hT, Real.coe_toNNReal T hT])).exists_eq_forall_mem_Icc_hasDerivWithinAt₀
      exact ⟨Y, h0, hY⟩
    exact glue hGs hloc
  refine ⟨Y, hY0, fun T t ht => ?_⟩
  have h1 := (L.decay_of_agree hδ hdec hGF (hY T) (by rw [hY0]; exact hsm _ hy) t ht).1
  have h2 := hY T t ht
  rwa [hGF _ h1] at h2

/-! ## One-step maps -/

/-- One step of a consistent map decreases the quadratic form. -/
theorem Lyap.step (L : Lyap A) (h0 : F y0 = 0) (hF : HasFDerivAt F A y0) {Φ : ℝ → X → X}
    {ρ h1 K : ℝ} (hρ : 0 < ρ) (hh : 0 < h1) (hΦ : ∀ dt, 0 < dt → dt ≤ h1 → ∀ y, ‖y - y0‖ ≤ ρ →
      ‖Φ dt y - y - dt • F y‖ ≤ K * dt ^ 2 * ‖y - y0‖) :
    ∃ δ > 0, ∃ h2 > 0, ∀ dt, 0 < dt → dt ≤ h2 → ∀ y, ‖y - y0‖ ≤ δ →
      L.B (Φ dt y - y0) (Φ dt y - y0) ≤
        L.B (y - y0) (y - y0) * Real.exp (-(L.c / (4 * L.M)) * dt) := by
  obtain ⟨δ1, hδ1, hdec⟩ := L.near h0 hF
  obtain ⟨δ2, hδ2, hlin⟩ := near_linear h0 hF (ε := 1) one_pos
  have hM := L.M_pos
  have hc := L.c_pos
  set k := |K| with hk
  have hk0 : 0 ≤ k := abs_nonneg K
  set l := ‖A‖ + 1 with hl
  have hl0 : 0 ≤ l := by positivity
  set Q := 2 * L.M * k + L.M * (l + k) ^ 2 with hQ
  have hQ0 : 0 ≤ Q := by positivity
  refine ⟨min ρ (min δ1 δ2), by positivity, min h1 (min 1 (L.c / (4 * (Q + 1)))), by positivity,
    fun dt hdt hdt' y hy => ?_⟩
  have d1 : dt ≤ h1 := hdt'.trans (min_le_left _ _)
  have d2 : dt ≤ 1 := hdt'.trans ((min_le_right _ _).trans (min_le_left _ _))
  have d3 : dt ≤ L.c / (4 * (Q + 1)) := hdt'.trans ((min_le_right _ _).trans (min_le_right _ _))
  have y1 : ‖y - y0‖ ≤ ρ := hy.trans (min_le_left _ _)
  have y2 : ‖y - y0‖ ≤ δ1 := hy.trans ((min_le_right _ _).trans (min_le_left _ _))
  have y3 : ‖y - y0‖ ≤ δ2 := hy.trans ((min_le_right _ _).trans (min_le_right _ _))
  set e := y - y0 with he
  set R := Φ dt y - y - dt • F y with hR
  set D := Φ dt y - y with hD
  have hRn : ‖R‖ ≤ k * dt ^ 2 * ‖e‖ := (hΦ dt hdt d1 y y1).trans (by
    have := le_abs_self K
    gcongr)
  have hFn : ‖F y‖ ≤ l * ‖e‖ := by
    have h2 := hlin y y3
    have h3 := A.le_opNorm e
    have h4 : ‖F y‖ ≤ ‖F y - A e‖ + ‖A e‖ := by simpa using norm_add_le (F y - A e) (A e)
    rw [hl]; linarith
  have hDn : ‖D‖ ≤ dt * ((l + k) * ‖e‖) := by
    have h2 : D = dt • F y + R := by rw [hR]; abel
    rw [h2]
    refine (norm_add_le _ _).trans ?_
    rw [norm_smul, Real.norm_eq_abs, abs_of_pos hdt]
    have h3 : k * dt ^ 2 * ‖e‖ ≤ k * dt * ‖e‖ := by
      have : dt ^ 2 ≤ dt := by nlinarith
      gcongr
    nlinarith
  have hsplit : Φ dt y - y0 = e + D := by rw [he, hD]; abel
  have hexp : L.B (e + D) (e + D) = L.B e e + dt * (2 * L.B e (F y)) + 2 * L.B e R + L.B D D := by
    have h2 : L.B e D = dt * L.B e (F y) + L.B e R := by
      have : D = dt • F y + R := by rw [hR]; abel
      rw [this, (L.B e).map_add, (L.B e).map_smul, smul_eq_mul]
    rw [map_add L.B, ContinuousLinearMap.add_apply, (L.B e).map_add, (L.B D).map_add, L.symm D e, h2]
    ring
  have b1 := hdec y y2
  have b2 := (le_abs_self _).trans (L.upper e R)
  have b3 := (le_abs_self _).trans (L.upper D D)
  have b4 : L.M * (‖e‖ * ‖R‖) ≤ L.M * (‖e‖ * (k * dt ^ 2 * ‖e‖)) := by gcongr
  have b5 : L.M * (‖D‖ * ‖D‖) ≤ L.M * ((dt * ((l + k) * ‖e‖)) * (dt * ((l + k) * ‖e‖))) := by gcongr
  have b6 : L.B (e + D) (e + D) ≤ L.B e e - dt * (L.c / 2 - dt * Q) * ‖e‖ ^ 2 := by
    rw [hexp]
    have b7 := mul_le_mul_of_nonneg_left b1 hdt.le
    have : L.B e e - dt * (L.c / 2 - dt * Q) * ‖e‖ ^ 2 = L.B e e + dt * (-(L.c / 2) * ‖e‖ ^ 2) +
      2 * (L.M * (‖e‖ * (k * dt ^ 2 * ‖e‖))) +
      L.M * ((dt * ((l + k) * ‖e‖)) * (dt * ((l + k) * ‖e‖))) := by rw [hQ]; ring
    rw [this]
    linarith
  have b8 : dt * Q ≤ L.c / 4 := by
    have h2 : dt * Q ≤ L.c / (4 * (Q + 1)) * (Q + 1) := by
      have : Q ≤ Q + 1 := by linarith
      gcongr
    have h3 : L.c / (4 * (Q + 1)) * (Q + 1) = L.c / 4 := by field_simp
    linarith
  have b9 : L.B (e + D) (e + D) ≤ L.B e e - dt * (L.c / 4) * ‖e‖ ^ 2 := by
    refine b6.trans ?_
    have : dt * (L.c / 4) * ‖e‖ ^ 2 ≤ dt * (L.c / 2 - dt * Q) * ‖e‖ ^ 2 := by
      have : L.c / 4 ≤ L.c / 2 - dt * Q := by linarith
      gcongr
    linarith
  have b10 : dt * (L.c / (4 * L.M)) * L.B e e ≤ dt * (L.c / 4) * ‖e‖ ^ 2 := by
    have h2 := (le_abs_self _).trans (L.upper e e)
    have h3 : dt * (L.c / (4 * L.M)) * L.B e e ≤ dt * (L.c / (4 * L.M)) * (L.M * (‖e‖ * ‖e‖)) := by
      gcongr
    have h4 : dt * (L.c / (4 * L.M)) * (L.M * (‖e‖ * ‖e‖)) = dt * (L.c / 4) * ‖e‖ ^ 2 := by
      field_simp
    linarith
  rw [hsplit]
  have b11 := Real.add_one_le_exp (-(L.c / (4 * L.M)) * dt)
  have b12 : 0 ≤ L.B e e := le_trans (by have := L.m_pos; positivity) (L.lower e)
  have b13 := mul_le_mul_of_nonneg_left b11 b12
  nlinarith

/-- Iterates of a consistent map from near `y0` decay exponentially, for all small steps. -/
theorem Lyap.stable_discrete (L : Lyap A) (h0 : F y0 = 0) (hF : HasFDerivAt F A y0)
    {Φ : ℝ → X → X} {ρ h1 K : ℝ} (hρ : 0 < ρ) (hh : 0 < h1)
    (hΦ : ∀ dt, 0 < dt → dt ≤ h1 → ∀ y, ‖y - y0‖ ≤ ρ →
      ‖Φ dt y - y - dt • F y‖ ≤ K * dt ^ 2 * ‖y - y0‖) :
    ∃ r > 0, ∃ K', ∃ w > 0, ∃ h2 > 0, ∀ dt, 0 < dt → dt ≤ h2 → ∀ y, ‖y - y0‖ ≤ r → ∀ k : ℕ,
      ‖(Φ dt)^[k] y - y0‖ ≤ K' * ‖y - y0‖ * Real.exp (-(w * (k * dt))) := by
  obtain ⟨δ, hδ, h2, hh2, hstep⟩ := L.step h0 hF hρ hh hΦ
  obtain ⟨r, hr, hs⟩ := L.small hδ
  have hM := L.M_pos
  refine ⟨r, hr, Real.sqrt (L.M / L.m), L.c / (8 * L.M), div_pos L.c_pos (by linarith), h2, hh2,
    fun dt hdt hdt' y hy k => ?_⟩
  have key : ∀ k : ℕ, L.B ((Φ dt)^[k] y - y0) ((Φ dt)^[k] y - y0) ≤
      L.B (y - y0) (y - y0) * Real.exp (-(L.c / (4 * L.M)) * (k * dt)) := by
    intro k
    induction k with
    | zero => simp
    | succ k ih =>
      have hB : 0 ≤ L.B (y - y0) (y - y0) :=
        le_trans (by have := L.m_pos; positivity) (L.lower (y - y0))
      have he : Real.exp (-(L.c / (4 * L.M)) * (k * dt)) ≤ 1 := by
        rw [Real.exp_le_one_iff]
        have : 0 ≤ L.c / (4 * L.M) * (k * dt) := by have := L.c_pos; positivity
        linarith
      have hin : ‖(Φ dt)^[k] y - y0‖ ≤ δ := by
        have h3 := (L.lower ((Φ dt)^[k] y - y0)).trans (ih.trans
          ((mul_le_of_le_one_right hB he).trans (hs _ hy)))
        exact abs_le_of_sq_le_sq' (le_of_mul_le_mul_left h3 L.m_pos) hδ.le |>.2
      rw [Function.iterate_succ_apply']
      refine (hstep dt hdt hdt' _ hin).trans ?_
      refine (mul_le_mul_of_nonneg_right ih (Real.exp_pos _).le).trans_eq ?_
      rw [mul_assoc, ← Real.exp_add]
      congr 2
      push_cast
      ring
  refine L.to_norm ((key k).trans_eq ?_)
  congr 2
  field_simp
  ring

end SpatialDyn.OneStep
