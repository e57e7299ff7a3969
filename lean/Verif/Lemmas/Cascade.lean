import Verif.Lemmas.Loop

/-!
# Lyapunov functions of cascades

A stable linear system driving another one is stable; stability is carried along injective maps.
-/

namespace SpatialDyn.OneStep

open Set Filter
open scoped ContDiff NNReal Topology

variable {X X' : Type*} [NormedAddCommGroup X] [NormedSpace ℝ X] [NormedAddCommGroup X']
  [NormedSpace ℝ X']

/-- `A'` driven by `A` through `D`. -/
noncomputable def cascade (A : X →L[ℝ] X) (A' : X' →L[ℝ] X') (D : X →L[ℝ] X') :
    X × X' →L[ℝ] X × X' :=
  (A.comp (ContinuousLinearMap.fst ℝ X X')).prod
    (A'.comp (ContinuousLinearMap.snd ℝ X X') + D.comp (ContinuousLinearMap.fst ℝ X X'))

theorem cascade_apply (A : X →L[ℝ] X) (A' : X' →L[ℝ] X') (D : X →L[ℝ] X') (e : X × X') :
    cascade A A' D e = (A e.1, A' e.2 + D e.1) := rfl

/-- A cascade of stable systems is stable. -/
noncomputable def Lyap.cascade {A : X →L[ℝ] X} {A' : X' →L[ℝ] X'} (L : Lyap A) (L' : Lyap A')
    (D : X →L[ℝ] X') : Lyap (OneStep.cascade A A' D) :=
  let κ : ℝ := (2 * L'.M ^ 2 * ‖D‖ ^ 2 / L'.c + L'.c / 2) / L.c
  have hκ : 0 < κ := by
    have := L.c_pos
    have := L'.c_pos
    positivity
  { B := κ • L.B.bilinearComp (ContinuousLinearMap.fst ℝ X X') (ContinuousLinearMap.fst ℝ X X') +
      L'.B.bilinearComp (ContinuousLinearMap.snd ℝ X X') (ContinuousLinearMap.snd ℝ X X')
    symm := fun e f => by
      simp [L.symm e.1 f.1, L'.symm e.2 f.2]
    m := min (κ * L.m) L'.m
    M := κ * L.M + L'.M
    c := L'.c / 2
    m_pos := lt_min (mul_pos hκ L.m_pos) L'.m_pos
    M_pos := add_pos (mul_pos hκ L.M_pos) L'.M_pos
    c_pos := half_pos L'.c_pos
    lower := fun e => by
      have h1 := L.lower e.1
      have h2 := L'.lower e.2
      have k1 := L.m_pos
      have k2 := L'.m_pos
      have p1 : 0 ≤ L.B e.1 e.1 := le_trans (by positivity) h1
      have p2 : 0 ≤ L'.B e.2 e.2 := le_trans (by positivity) h2
      have h3 := mul_le_mul_of_nonneg_left h1 hκ.le
      have p3 := mul_nonneg hκ.le p1
      simp only [add_apply, smul_apply,
        ContinuousLinearMap.bilinearComp_apply, ContinuousLinearMap.coe_fst',
        ContinuousLinearMap.coe_snd', smul_eq_mul]
      rw [Prod.norm_def]
      rcases max_choice ‖e.1‖ ‖e.2‖ with hm | hm <;> rw [hm]
      · have := min_le_left (κ * L.m) L'.m
        have : min (κ * L.m) L'.m * ‖e.1‖ ^ 2 ≤ κ * L.m * ‖e.1‖ ^ 2 := by gcongr
        linarith
      · have := min_le_right (κ * L.m) L'.m
        have : min (κ * L.m) L'.m * ‖e.2‖ ^ 2 ≤ L'.m * ‖e.2‖ ^ 2 := by gcongr
        linarith
    upper := fun e f => by
      have h1 := L.upper e.1 f.1
      have h2 := L'.upper e.2 f.2
      have k1 := L.M_pos
      have k2 := L'.M_pos
      have a1 : ‖e.1‖ * ‖f.1‖ ≤ ‖e‖ * ‖f‖ :=
        mul_le_mul (norm_fst_le e) (norm_fst_le f) (norm_nonneg _) (norm_nonneg _)
      have a2 : ‖e.2‖ * ‖f.2‖ ≤ ‖e‖ * ‖f‖ :=
        mul_le_mul (norm_snd_le e) (norm_snd_le f) (norm_nonneg _) (norm_nonneg _)
      simp only [add_apply, smul_apply,
        ContinuousLinearMap.bilinearComp_apply, ContinuousLinearMap.coe_fst',
        ContinuousLinearMap.coe_snd', smul_eq_mul]
      refine (abs_add_le _ _).trans ?_
      rw [abs_mul, abs_of_pos hκ]
      have b1 : κ * |L.B e.1 f.1| ≤ κ * (L.M * (‖e‖ * ‖f‖)) :=
        mul_le_mul_of_nonneg_left (h1.trans (mul_le_mul_of_nonneg_left a1 k1.le)) hκ.le
      have b2 : |L'.B e.2 f.2| ≤ L'.M * (‖e‖ * ‖f‖) :=
        h2.trans (mul_le_mul_of_nonneg_left a2 k2.le)
      linarith
    decay := fun e => by
      have h1 := L.decay e.1
      have h2 := L'.decay e.2
      have h3 := (le_abs_self _).trans (L'.upper e.2 (D e.1))
      have k1 := L.c_pos
      have k2 := L'.c_pos
      have k3 := L'.M_pos
      have hD := D.le_opNorm e.1
      simp only [add_apply, smul_apply,
        ContinuousLinearMap.bilinearComp_apply, ContinuousLinearMap.coe_fst',
        ContinuousLinearMap.coe_snd', smul_eq_mul, cascade_apply, map_add]
      have h4 : L'.M * (‖e.2‖ * ‖D e.1‖) ≤ L'.M * (‖e.2‖ * (‖D‖ * ‖e.1‖)) := by gcongr
      have h5 : 2 * (L'.M * (‖e.2‖ * (‖D‖ * ‖e.1‖))) ≤
          L'.c / 2 * ‖e.2‖ ^ 2 + 2 * L'.M ^ 2 * ‖D‖ ^ 2 / L'.c * ‖e.1‖ ^ 2 := by
        have e1 : 2 * L'.M ^ 2 * ‖D‖ ^ 2 / L'.c * ‖e.1‖ ^ 2 =
          2 / L'.c * (L'.M * ‖D‖ * ‖e.1‖) ^ 2 := by ring
        have e2 : L'.c / 2 * ‖e.2‖ ^ 2 + 2 / L'.c * (L'.M * ‖D‖ * ‖e.1‖) ^ 2 -
            2 * (L'.M * (‖e.2‖ * (‖D‖ * ‖e.1‖))) =
            1 / (2 * L'.c) * (L'.c * ‖e.2‖ - 2 * (L'.M * ‖D‖ * ‖e.1‖)) ^ 2 := by
          field_simp
          ring
        have e3 : 0 ≤ 1 / (2 * L'.c) * (L'.c * ‖e.2‖ - 2 * (L'.M * ‖D‖ * ‖e.1‖)) ^ 2 := by
          positivity
        rw [e1]
        linarith
      have h6 : κ * (-L.c * ‖e.1‖ ^ 2) =
          -(2 * L'.M ^ 2 * ‖D‖ ^ 2 / L'.c + L'.c / 2) * ‖e.1‖ ^ 2 := by
        show (2 * L'.M ^ 2 * ‖D‖ ^ 2 / L'.c + L'.c / 2) / L.c * (-L.c * ‖e.1‖ ^ 2) = _
        rw [div_mul_eq_mul_div, div_eq_iff k1.ne']
        ring
      have h7 := mul_le_mul_of_nonneg_left h1 hκ.le
      have h8 : ‖e‖ ^ 2 ≤ ‖e.1‖ ^ 2 + ‖e.2‖ ^ 2 := by
        rw [Prod.norm_def]
        have := sq_nonneg ‖e.1‖
        have := sq_nonneg ‖e.2‖
        rcases max_choice ‖e.1‖ ‖e.2‖ with hm | hm <;> rw [hm] <;> linarith
      have h9 := mul_le_mul_of_nonneg_left h8 k2.le
      linarith }

/-- Stability along a map with a left inverse. -/
noncomputable def Lyap.pull {A : X →L[ℝ] X} {A' : X' →L[ℝ] X'} (L : Lyap A') (Φ : X →L[ℝ] X')
    (Ψ : X' →L[ℝ] X) (hΨ : ∀ e, Ψ (Φ e) = e) (hA : ∀ e, Φ (A e) = A' (Φ e)) : Lyap A :=
  have hlow : ∀ e, ‖e‖ ^ 2 / (‖Ψ‖ + 1) ^ 2 ≤ ‖Φ e‖ ^ 2 := fun e => by
    have h1 := Ψ.le_opNorm (Φ e)
    rw [hΨ] at h1
    rw [div_le_iff₀ (by positivity), ← mul_pow]
    have : ‖e‖ ≤ ‖Φ e‖ * (‖Ψ‖ + 1) := by nlinarith [norm_nonneg (Φ e)]
    gcongr
  { B := L.B.bilinearComp Φ Φ
    symm := fun e f => L.symm _ _
    m := L.m / (‖Ψ‖ + 1) ^ 2
    M := L.M * (‖Φ‖ + 1) ^ 2
    c := L.c / (‖Ψ‖ + 1) ^ 2
    m_pos := div_pos L.m_pos (by positivity)
    M_pos := mul_pos L.M_pos (by positivity)
    c_pos := div_pos L.c_pos (by positivity)
    lower := fun e => by
      refine le_trans ?_ (L.lower (Φ e))
      have := mul_le_mul_of_nonneg_left (hlow e) L.m_pos.le
      calc L.m / (‖Ψ‖ + 1) ^ 2 * ‖e‖ ^ 2 = L.m * (‖e‖ ^ 2 / (‖Ψ‖ + 1) ^ 2) := by ring
        _ ≤ _ := this
    upper := fun e f => by
      refine (L.upper (Φ e) (Φ f)).trans ?_
      have h1 : ‖Φ e‖ ≤ (‖Φ‖ + 1) * ‖e‖ :=
        (Φ.le_opNorm e).trans (by nlinarith [norm_nonneg e])
      have h2 : ‖Φ f‖ ≤ (‖Φ‖ + 1) * ‖f‖ :=
        (Φ.le_opNorm f).trans (by nlinarith [norm_nonneg f])
      have h3 : ‖Φ e‖ * ‖Φ f‖ ≤ (‖Φ‖ + 1) * ‖e‖ * ((‖Φ‖ + 1) * ‖f‖) := by gcongr
      calc L.M * (‖Φ e‖ * ‖Φ f‖) ≤ L.M * ((‖Φ‖ + 1) * ‖e‖ * ((‖Φ‖ + 1) * ‖f‖)) :=
            mul_le_mul_of_nonneg_left h3 L.M_pos.le
        _ = _ := by ring
    decay := fun e => by
      have h1 := L.decay (Φ e)
      rw [← hA] at h1
      refine le_trans h1 ?_
      have := mul_le_mul_of_nonneg_left (hlow e) L.c_pos.le
      calc -L.c * ‖Φ e‖ ^ 2 = -(L.c * ‖Φ e‖ ^ 2) := by ring
        _ ≤ -(L.c * (‖e‖ ^ 2 / (‖Ψ‖ + 1) ^ 2)) := neg_le_neg this
        _ = _ := by ring }

variable {A : X →L[ℝ] X} {F : X → X} {y0 : X}

/-- Decay of curves that follow the field while they are near `y0`. -/
theorem Lyap.decay_near (L : Lyap A) {δ : ℝ} (hδ : 0 < δ)
    (hdec : ∀ y, ‖y - y0‖ ≤ δ → 2 * L.B (y - y0) (F y) ≤ -(L.c / 2) * ‖y - y0‖ ^ 2) {T : ℝ}
    {Y Z : ℝ → X} (hY : ∀ t ∈ Icc 0 T, HasDerivWithinAt Y (Z t) (Icc 0 T) t)
    (hZ : ∀ t ∈ Icc 0 T, ‖Y t - y0‖ ≤ δ → Z t = F (Y t))
    (hr : L.B (Y 0 - y0) (Y 0 - y0) ≤ L.m * δ ^ 2) : ∀ t ∈ Icc 0 T, ‖Y t - y0‖ ≤ δ ∧
      L.B (Y t - y0) (Y t - y0) ≤
        L.B (Y 0 - y0) (Y 0 - y0) * Real.exp (-(L.c / (2 * L.M)) * t) := by
  have hin : ∀ y, L.B (y - y0) (y - y0) ≤ L.m * δ ^ 2 → ‖y - y0‖ ≤ δ := by
    intro y hy
    have h1 := (L.lower (y - y0)).trans hy
    have h2 := le_of_mul_le_mul_left h1 L.m_pos
    exact abs_le_of_sq_le_sq' h2 hδ.le |>.2
  have hder : ∀ t ∈ Icc 0 T, HasDerivWithinAt (fun t => L.B (Y t - y0) (Y t - y0))
      (2 * L.B (Y t - y0) (Z t)) (Icc 0 T) t := fun t ht => L.deriv (hY t ht)
  have htrap : ∀ t ∈ Icc 0 T, L.B (Y t - y0) (Y t - y0) ≤ L.m * δ ^ 2 := by
    intro t ht
    refine image_le_of_deriv_right_lt_deriv_boundary'
      (f := fun t => L.B (Y t - y0) (Y t - y0)) (f' := fun t => 2 * L.B (Y t - y0) (Z t))
      (a := 0) (b := T) (B := fun _ => L.m * δ ^ 2) (B' := fun _ => 0)
      (fun t ht => (hder t ht).continuousWithinAt)
      (fun t ht => within_right ht (hder t (Ico_subset_Icc_self ht))) hr
      continuousOn_const (fun t _ => hasDerivWithinAt_const _ _ _) (fun t ht he => ?_) ht
    have hb := hin _ he.le
    rw [hZ t (Ico_subset_Icc_self ht) hb]
    have h1 := hdec _ hb
    have h2 : 0 < ‖Y t - y0‖ := by
      rw [norm_pos_iff]
      intro hz
      simp only [hz, map_zero] at he
      have := mul_pos L.m_pos (pow_pos hδ 2)
      linarith
    have := mul_pos L.c_pos (pow_pos h2 2)
    linarith
  intro t ht
  refine ⟨hin _ (htrap t ht), exp_bound hder (fun s hs => ?_) t ht⟩
  have hb := hin _ (htrap s hs)
  rw [hZ s hs hb]
  refine (hdec _ hb).trans ?_
  have h1 := (le_abs_self _).trans (L.upper (Y s - y0) (Y s - y0))
  have h2 := L.M_pos
  have h3 : L.c / (2 * L.M) * L.B (Y s - y0) (Y s - y0) ≤
      L.c / (2 * L.M) * (L.M * (‖Y s - y0‖ * ‖Y s - y0‖)) :=
    mul_le_mul_of_nonneg_left h1 (div_pos L.c_pos (by linarith)).le
  have h4 : L.c / (2 * L.M) * (L.M * (‖Y s - y0‖ * ‖Y s - y0‖)) = L.c / 2 * ‖Y s - y0‖ ^ 2 := by
    field_simp
  linarith

/-- Curves that start near `y0` and follow the field while they are near `y0` decay exponentially and
stay near. -/
theorem Lyap.stable_near (L : Lyap A) (h0 : F y0 = 0) (hF : HasFDerivAt F A y0) {ρ : ℝ}
    (hρ : 0 < ρ) : ∃ r > 0, ∃ K, ∃ w > 0, ∀ T (Y Z : ℝ → X),
      (∀ t ∈ Icc 0 T, HasDerivWithinAt Y (Z t) (Icc 0 T) t) →
      (∀ t ∈ Icc 0 T, ‖Y t - y0‖ ≤ ρ → Z t = F (Y t)) → ‖Y 0 - y0‖ ≤ r → ∀ t ∈ Icc 0 T,
      ‖Y t - y0‖ ≤ ρ ∧ ‖Y t - y0‖ ≤ K * ‖Y 0 - y0‖ * Real.exp (-(w * t)) := by
  obtain ⟨δ, hδ, hdec⟩ := L.near h0 hF
  obtain ⟨r, hr, hs⟩ := L.small (lt_min hδ hρ)
  have hM := L.M_pos
  refine ⟨r, hr, Real.sqrt (L.M / L.m), L.c / (4 * L.M), div_pos L.c_pos (by linarith),
    fun T Y Z hY hZ hY0 t ht => ?_⟩
  have h1 := L.decay_near (lt_min hδ hρ) (fun y hy => hdec y (hy.trans (min_le_left _ _))) hY
    (fun s hs h => hZ s hs (h.trans (min_le_right _ _))) (hs _ hY0) t ht
  refine ⟨h1.1.trans (min_le_right _ _), L.to_norm (h1.2.trans_eq ?_)⟩
  congr 2
  field_simp
  ring

end SpatialDyn.OneStep

namespace SpatialDyn
open Finset OneStep

variable {n : ℕ}

/-- Proportional-derivative laws with gains of their own for every coordinate. -/
noncomputable def pdLinV (kp kv : Fin n → ℝ) : State n →L[ℝ] State n :=
  (ContinuousLinearMap.snd ℝ _ _).prod
    (ContinuousLinearMap.pi fun i => -(kp i • cq i) - kv i • cv i)

theorem pdLinV_apply (kp kv : Fin n → ℝ) (e : State n) :
    pdLinV kp kv e = (e.2, fun i => -(kp i * e.1 i) - kv i * e.2 i) := rfl

theorem exists_gain_bounds {k : Fin n → ℝ} (hk : ∀ i, 0 < k i) :
    ∃ lo > 0, ∃ hi > 0, ∀ i, lo ≤ k i ∧ k i ≤ hi := by
  rcases isEmpty_or_nonempty (Fin n) with h | h
  · exact ⟨1, one_pos, 1, one_pos, fun i => h.elim i⟩
  · obtain ⟨i, hi⟩ := Finite.exists_min k
    obtain ⟨j, hj⟩ := Finite.exists_max k
    exact ⟨k i, hk i, k j, hk j, fun l => ⟨hi l, hj l⟩⟩

/-- The Lyapunov form of the laws. -/
noncomputable def pdFormV (kp kv : Fin n → ℝ) : State n →L[ℝ] State n →L[ℝ] ℝ :=
  ∑ i, ((cv i).smulRight (cv i) +
    (kv i / 2) • ((cq i).smulRight (cv i) + (cv i).smulRight (cq i)) +
    (kp i + kv i ^ 2 / 2) • (cq i).smulRight (cq i))

theorem pdFormV_apply (kp kv : Fin n → ℝ) (e f : State n) : pdFormV kp kv e f =
    ∑ i, (e.2 i * f.2 i + kv i / 2 * (e.1 i * f.2 i + e.2 i * f.1 i) +
      (kp i + kv i ^ 2 / 2) * (e.1 i * f.1 i)) := by
  unfold pdFormV
  rw [ContinuousLinearMap.sum_apply, ContinuousLinearMap.sum_apply]
  refine sum_congr rfl fun i _ => ?_
  simp [cq_apply, cv_apply]
  ring

/-- The laws are stable. -/
theorem exists_pdLyapV {kp kv : Fin n → ℝ} (hp : ∀ i, 0 < kp i) (hv : ∀ i, 0 < kv i) :
    Nonempty (Lyap (pdLinV kp kv)) := by
  obtain ⟨p, hp0, p', hp0', hpp⟩ := exists_gain_bounds hp
  obtain ⟨v, hv0, v', hv0', hvv⟩ := exists_gain_bounds hv
  refine ⟨{ B := pdFormV kp kv
            symm := fun e f => ?_
            m := min (1 / 2) p
            M := n * (1 + v' + (p' + v' ^ 2 / 2)) + 1
            c := v * min 1 p
            m_pos := lt_min (by norm_num) hp0
            M_pos := by positivity
            c_pos := mul_pos hv0 (lt_min one_pos hp0)
            lower := fun e => ?_
            upper := fun e f => ?_
            decay := fun e => ?_ }⟩
  · rw [pdFormV_apply, pdFormV_apply]
    exact sum_congr rfl fun i _ => by ring
  · refine (state_sum_lower (by norm_num) hp0 e).trans ?_
    rw [pdFormV_apply]
    refine sum_le_sum fun i _ => ?_
    have := mul_le_mul_of_nonneg_right (hpp i).1 (sq_nonneg (e.1 i))
    nlinarith [sq_nonneg (e.2 i + kv i * e.1 i)]
  · rw [pdFormV_apply]
    have key : ∀ i ∈ (univ : Finset (Fin n)),
        |e.2 i * f.2 i + kv i / 2 * (e.1 i * f.2 i + e.2 i * f.1 i) +
          (kp i + kv i ^ 2 / 2) * (e.1 i * f.1 i)| ≤
          (1 + v' + (p' + v' ^ 2 / 2)) * (‖e‖ * ‖f‖) := by
      intro i _
      have hm : ∀ a c : ℝ, |a| ≤ ‖e‖ → |c| ≤ ‖f‖ → |a * c| ≤ ‖e‖ * ‖f‖ := fun a c ha hc => by
        rw [abs_mul]; exact mul_le_mul ha hc (abs_nonneg _) (norm_nonneg _)
      obtain ⟨e1, e2⟩ := state_coord e i
      obtain ⟨f1, f2⟩ := state_coord f i
      have a1 := abs_le.1 (hm _ _ e2 f2)
      have a2 := abs_le.1 (hm _ _ e1 f2)
      have a3 := abs_le.1 (hm _ _ e2 f1)
      have a4 := abs_le.1 (hm _ _ e1 f1)
      have q1 := hv i
      have hk : 0 < kp i + kv i ^ 2 / 2 := by have := hp i; positivity
      have hs : (1 + kv i + (kp i + kv i ^ 2 / 2)) * (‖e‖ * ‖f‖) ≤
          (1 + v' + (p' + v' ^ 2 / 2)) * (‖e‖ * ‖f‖) := by
        have g1 := (hpp i).2
        have g2 := (hvv i).2
        gcongr
      refine le_trans ?_ hs
      rw [abs_le]
      constructor <;> nlinarith
    refine (abs_sum_le_sum_abs _ _).trans ((sum_le_sum key).trans ?_)
    rw [sum_const, card_univ, Fintype.card_fin, nsmul_eq_mul]
    have : 0 ≤ ‖e‖ * ‖f‖ := by positivity
    nlinarith
  · rw [pdFormV_apply]
    have h1 := mul_le_mul_of_nonneg_left (state_sum_lower one_pos hp0 e) hv0.le
    have h2 : 2 * ∑ i, (e.2 i * (pdLinV kp kv e).2 i + kv i / 2 * (e.1 i * (pdLinV kp kv e).2 i +
        e.2 i * (pdLinV kp kv e).1 i) + (kp i + kv i ^ 2 / 2) * (e.1 i * (pdLinV kp kv e).1 i)) =
        -∑ i, kv i * (e.2 i ^ 2 + kp i * e.1 i ^ 2) := by
      rw [mul_sum, ← sum_neg_distrib]
      refine sum_congr rfl fun i _ => ?_
      rw [pdLinV_apply]
      simp
      ring
    rw [h2]
    have h3 : v * ∑ i, (1 * e.2 i ^ 2 + p * e.1 i ^ 2) ≤
        ∑ i, kv i * (e.2 i ^ 2 + kp i * e.1 i ^ 2) := by
      rw [mul_sum]
      refine sum_le_sum fun i _ => ?_
      have g1 := (hpp i).1
      have g2 := (hvv i).1
      rw [one_mul]
      have := (hv i).le
      gcongr
    linarith

end SpatialDyn
