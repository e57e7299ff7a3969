import Verif.Lemmas.LogStep

/-! One step of `discrete::Integrate`: the rates change by the acceleration, up to second order. -/

namespace SpatialDyn

open Finset Filter Asymptotics Topology Matrix
open scoped ContDiff

namespace Body
variable {E : Ext} {b : Body} {d : Bool}

/-- The acceleration in terms of the second-order part of the momenta. -/
theorem accAt_quad (h : Inv E b) (hl : ∀ k < b.dof, b.load k = none) (tau : ℕ → ℝ) (fext : FExt)
    (g : Bool) (q u : Fin b.dof → ℝ) : b.accAt b.g tau fext true g (q, u) =
      -((b.massAt q)⁻¹ *ᵥ fun i => b.quad (q, u, u) i + b.pull tau fext g q i) := by
  unfold accAt
  rw [← Matrix.mulVec_neg]
  have e1 : toMat b.dof (b.sysAt (padFin q) (padFin u)).massSpec = b.massAt q := rfl
  simp only [e1]
  congr 1
  funext i
  rw [Pi.sub_apply, Pi.neg_apply]
  show tau i - ((b.sysAt (padFin q) (padFin u)).idSpec (fun _ => 0) fext true g i) = _
  rw [quad_diag h hl]
  unfold Sys.idSpec pull
  simp only [mul_zero, sum_const_zero, zero_add, if_true]
  have e2 : (b.sysAt (padFin q) (padFin u)).gravitySpec i =
    (b.sysAt (padFin q) fun _ => 0).gravitySpec i := rfl
  have e3 : (b.sysAt (padFin q) (padFin u)).extSpec fext i =
    (b.sysAt (padFin q) fun _ => 0).extSpec fext i := rfl
  rw [e2, e3]
  ring

/-- Joint bound for finitely many thresholds. -/
theorem exists_common {ι : Type*} [Fintype ι] {P : ι → ℝ → ℝ → Prop}
    (hP : ∀ i, ∃ t > 0, t ≤ 1 ∧ ∃ C, 0 ≤ C ∧ P i t C) :
    ∃ (t : ι → ℝ) (C : ι → ℝ) (τ : ℝ), 0 < τ ∧ τ ≤ 1 ∧ (∀ i, τ ≤ t i) ∧ (∀ i, 0 ≤ C i) ∧
      ∀ i, P i (t i) (C i) := by
  choose t ht ht1 C hC H using hP
  rcases (univ : Finset ι).eq_empty_or_nonempty with he | hne
  · exact ⟨t, C, 1, one_pos, le_rfl, fun i => absurd (mem_univ i) (by simp [he]), hC, H⟩
  · obtain ⟨k, -, hmin⟩ := exists_min_image univ t hne
    exact ⟨t, C, t k, ht k, ht1 k, fun i => hmin i (mem_univ i), hC, H⟩

/-- Momentum balance of a step in terms of rates. -/
theorem balance_bound (h : Inv E b) (ha : b.AxesOK) (hl : ∀ k < b.dof, b.load k = none)
    (hE : E.NearLog2) (m : ℝ) : ∃ t0 > 0, t0 ≤ 1 ∧ ∃ C, 0 ≤ C ∧ ∀ s, 0 < s → s < t0 →
      ∀ q u y : Fin b.dof → ℝ, ‖q‖ ≤ m → ‖u‖ ≤ m → ‖y‖ ≤ m → ∀ i,
      |b.nextMom E (q, s • y) i - b.prevMom E (q, s • u) i -
        (s * (b.massAt q *ᵥ (y - u)) i + s ^ 2 * b.quad (q, u, u) i)| ≤
          C * s ^ 2 * (‖y - u‖ + s) := by
  obtain ⟨t, C1, τ, hτ, hτ1, hle, hC1, H1⟩ := exists_common fun i => log_bound h hE ha m i
  obtain ⟨C2, hC2, H2⟩ := twMom_bound h ha hl m
  obtain ⟨L, hL, HL⟩ := sum_bound (univ : Finset (Fin b.dof)) (P := fun i L =>
    ∀ x y : Rates b.dof, ‖x‖ ≤ m → ‖y‖ ≤ m → |b.quad x i - b.quad y i| ≤ L * ‖x - y‖)
    fun i _ => lip_on (quad_smooth h i) m
  refine ⟨τ, hτ, hτ1, (∑ i, C1 i) + C2 + ∑ i, L i,
    add_nonneg (add_nonneg (sum_nonneg fun i _ => hC1 i) hC2) (sum_nonneg fun i _ => hL i),
    fun s h0 hs q u y nq nu ny i => ?_⟩
  have hw : ‖((q, u, y) : Rates b.dof)‖ ≤ m := max_le nq (max_le nu ny)
  have hw' : ‖((q, u, u) : Rates b.dof)‖ ≤ m := max_le nq (max_le nu nu)
  have a1 := H1 i s h0.le (hs.trans_le (hle i)) (q, u, y) hw
  have a2 := H2 s h0.le (hs.le.trans hτ1) (q, u, y) hw i
  have a3 := HL i (mem_univ i) (q, u, y) (q, u, u) hw hw'
  have e : ‖((q, u, y) : Rates b.dof) - (q, u, u)‖ = ‖y - u‖ := by
    rw [Prod.mk_sub_mk, Prod.mk_sub_mk, sub_self, sub_self, Prod.norm_def, Prod.norm_def]
    simp
  rw [e] at a3
  simp only at a1 a2
  have l1 : C1 i ≤ ∑ i, C1 i := single_le_sum (f := C1) (fun i _ => hC1 i) (mem_univ i)
  have l3 : L i ≤ ∑ i, L i := single_le_sum (f := L) (fun i _ => hL i) (mem_univ i)
  have nn := norm_nonneg (y - u)
  set r := ‖y - u‖ + s with hr
  have r0 : 0 ≤ r := by positivity
  have s2 : 0 ≤ s ^ 2 := by positivity
  have b1 : C1 i * s ^ 2 * r ≤ (∑ i, C1 i) * s ^ 2 * r :=
    mul_le_mul_of_nonneg_right (mul_le_mul_of_nonneg_right l1 s2) r0
  have b2 : C2 * s ^ 3 ≤ C2 * s ^ 2 * r := by
    have : C2 * s ^ 3 = C2 * s ^ 2 * s := by ring
    rw [this]
    exact mul_le_mul_of_nonneg_left (by rw [hr]; linarith) (by positivity)
  have b3 : s ^ 2 * |b.quad (q, u, y) i - b.quad (q, u, u) i| ≤ (∑ i, L i) * s ^ 2 * r := by
    have h1 : |b.quad (q, u, y) i - b.quad (q, u, u) i| ≤ (∑ i, L i) * r :=
      a3.trans (mul_le_mul l3 (by rw [hr]; linarith) nn (sum_nonneg fun i _ => hL i))
    have := mul_le_mul_of_nonneg_left h1 s2
    nlinarith
  have split : b.nextMom E (q, s • y) i - b.prevMom E (q, s • u) i -
      (s * (b.massAt q *ᵥ (y - u)) i + s ^ 2 * b.quad (q, u, u) i) =
      (b.nextMom E (q, s • y) i - b.prevMom E (q, s • u) i - b.twMom (s, (q, u, y)) i) +
      (b.twMom (s, (q, u, y)) i - (s * (b.massAt q *ᵥ (y - u)) i + s ^ 2 * b.quad (q, u, y) i)) +
      s ^ 2 * (b.quad (q, u, y) i - b.quad (q, u, u) i) := by ring
  rw [split]
  have c1 := abs_add_le ((b.nextMom E (q, s • y) i - b.prevMom E (q, s • u) i -
    b.twMom (s, (q, u, y)) i) + (b.twMom (s, (q, u, y)) i -
      (s * (b.massAt q *ᵥ (y - u)) i + s ^ 2 * b.quad (q, u, y) i)))
    (s ^ 2 * (b.quad (q, u, y) i - b.quad (q, u, u) i))
  have c2 := abs_add_le (b.nextMom E (q, s • y) i - b.prevMom E (q, s • u) i -
    b.twMom (s, (q, u, y)) i) (b.twMom (s, (q, u, y)) i -
      (s * (b.massAt q *ᵥ (y - u)) i + s ^ 2 * b.quad (q, u, y) i))
  rw [abs_mul, abs_of_nonneg s2] at c1
  linarith

/-- The rates after a step, for any candidate whose defect is small. -/
theorem rates_bound (h : Reach E b d) (hd : b.Definite) (ha : b.AxesOK)
    (hl : ∀ k < b.dof, b.load k = none) (hE : E.NearLog2) (tau : ℕ → ℝ) (fext : FExt) (g : Bool)
    (m : ℝ) (hm : 0 ≤ m) : ∃ t0 > 0, t0 ≤ 1 ∧ ∃ C, 0 ≤ C ∧ ∀ s, 0 < s → s < t0 →
      ∀ q u y D : Fin b.dof → ℝ, ‖q‖ ≤ m → ‖u‖ ≤ m → ‖y‖ ≤ m →
      (∀ i, s * D i = b.nextMom E (q, s • y) i - b.prevMom E (q, s • u) i +
        s * s * b.pull tau fext g q i) →
      ‖y - u‖ ≤ C * (‖D‖ + s) ∧
      ‖y - u - s • b.accAt b.g tau fext true g (q, u)‖ ≤ C * (‖D‖ + s ^ 2) := by
  obtain ⟨t1, ht1, ht11, C1, hC1, H1⟩ := balance_bound h.inv ha hl hE m
  obtain ⟨δ1, δ2, K1, K2, K3, K4, hbd⟩ :=
    bounds_of h hd ha hl hE.toNearLog tau fext g m (r := 1 / 2) (by norm_num)
  have hK2 := hbd.nn2
  have hK4 := hbd.nn4
  set A := K4 * C1 with hA
  have hA0 : 0 ≤ A := by positivity
  set C3 := 2 * (K4 + K2 + A) with hC3
  have hC30 : 0 ≤ C3 := by positivity
  refine ⟨min t1 (1 / (2 * A + 1)), lt_min ht1 (by positivity), (min_le_left _ _).trans ht11,
    C3 + K4 + A * (C3 + 1), by positivity, fun s h0 hs q u y D nq nu ny hD => ?_⟩
  have s1 : s ≤ 1 := (hs.le.trans (min_le_left _ _)).trans ht11
  have sA : A * s ≤ 1 / 2 := by
    have := hs.trans_le (min_le_right _ _)
    rw [lt_div_iff₀ (by positivity)] at this
    nlinarith
  have hb := H1 s h0 (hs.trans_le (min_le_left _ _)) q u y nq nu ny
  have hdet := hbd.det q
  set e : Fin b.dof → ℝ := fun i => (b.massAt q *ᵥ (y - u)) i - D i +
    s * (b.quad (q, u, u) i + b.pull tau fext g q i) with he
  have nn := norm_nonneg (y - u)
  have ne : ‖e‖ ≤ C1 * s * (‖y - u‖ + s) := by
    refine (pi_norm_le_iff_of_nonneg (by positivity)).2 fun i => ?_
    have h2 := hb i
    have e1 : b.nextMom E (q, s • y) i - b.prevMom E (q, s • u) i -
        (s * (b.massAt q *ᵥ (y - u)) i + s ^ 2 * b.quad (q, u, u) i) = -(s * e i) := by
      have := hD i
      rw [he]
      simp only
      linarith
    rw [e1, abs_neg, abs_mul, abs_of_pos h0] at h2
    rw [Real.norm_eq_abs]
    have h3 : s * |e i| ≤ s * (C1 * s * (‖y - u‖ + s)) := by nlinarith
    exact le_of_mul_le_mul_left h3 h0
  have hy : y - u = (b.massAt q)⁻¹ *ᵥ D + s • b.accAt b.g tau fext true g (q, u) +
      (b.massAt q)⁻¹ *ᵥ e := by
    rw [accAt_quad h.inv hl, smul_neg, ← Matrix.mulVec_smul, ← Matrix.mulVec_neg,
      ← Matrix.mulVec_add, ← Matrix.mulVec_add]
    have e2 : D + -(s • fun i => b.quad (q, u, u) i + b.pull tau fext g q i) + e =
        b.massAt q *ᵥ (y - u) := by
      funext i
      simp only [Pi.add_apply, Pi.neg_apply, Pi.smul_apply, smul_eq_mul, he]
      ring
    rw [e2, Matrix.mulVec_mulVec, Matrix.nonsing_inv_mul _ hdet, Matrix.one_mulVec]
  have nD := hbd.imass q nq D
  have nE := hbd.imass q nq e
  have nA : ‖b.accAt b.g tau fext true g (q, u)‖ ≤ K2 := hbd.acc (q, u) (max_le nq nu)
  have nE' : ‖(b.massAt q)⁻¹ *ᵥ e‖ ≤ A * s * (‖y - u‖ + s) := by
    refine nE.trans ((mul_le_mul_of_nonneg_left ne hK4).trans (le_of_eq ?_))
    rw [hA]; ring
  have d0 := norm_nonneg D
  have first : ‖y - u‖ ≤ C3 * (‖D‖ + s) := by
    have h3 : ‖y - u‖ ≤ ‖(b.massAt q)⁻¹ *ᵥ D‖ + ‖s • b.accAt b.g tau fext true g (q, u)‖ +
        ‖(b.massAt q)⁻¹ *ᵥ e‖ := by
      conv_lhs => rw [hy]
      exact (norm_add_le _ _).trans (add_le_add (norm_add_le _ _) le_rfl)
    rw [norm_smul, Real.norm_of_nonneg h0.le] at h3
    have h4 : A * s * (‖y - u‖ + s) ≤ 1 / 2 * ‖y - u‖ + A * s := by
      have x1 : A * s * ‖y - u‖ ≤ 1 / 2 * ‖y - u‖ := mul_le_mul_of_nonneg_right sA nn
      have x2 : A * s * s ≤ A * s := by
        have : 0 ≤ A * s := by positivity
        nlinarith
      nlinarith
    have h5 : s * ‖b.accAt b.g tau fext true g (q, u)‖ ≤ s * K2 :=
      mul_le_mul_of_nonneg_left nA h0.le
    have h6 : K4 * ‖D‖ ≤ (K4 + K2 + A) * ‖D‖ := mul_le_mul_of_nonneg_right (by linarith) d0
    have h7 : s * K2 + A * s ≤ (K4 + K2 + A) * s := by nlinarith
    rw [hC3]
    nlinarith
  refine ⟨first.trans (mul_le_mul_of_nonneg_right ?_ (by positivity)), ?_⟩
  · have : 0 ≤ A * (C3 + 1) := by positivity
    linarith
  · have h3 : y - u - s • b.accAt b.g tau fext true g (q, u) =
        (b.massAt q)⁻¹ *ᵥ D + (b.massAt q)⁻¹ *ᵥ e := by
      rw [hy]; abel
    rw [h3]
    refine (norm_add_le _ _).trans ?_
    have h4 : A * s * (‖y - u‖ + s) ≤ A * s * (C3 * (‖D‖ + s) + s) :=
      mul_le_mul_of_nonneg_left (by linarith) (by positivity)
    have h5 : A * s * (C3 * (‖D‖ + s) + s) ≤ A * (C3 + 1) * (‖D‖ + s ^ 2) := by
      have x1 : s * ‖D‖ ≤ ‖D‖ := by nlinarith
      have x2 : 0 ≤ A * C3 := by positivity
      have x3 : A * C3 * (s * ‖D‖) ≤ A * C3 * ‖D‖ := mul_le_mul_of_nonneg_left x1 x2
      have x4 : 0 ≤ A * ‖D‖ := by positivity
      nlinarith
    have h6 : 0 ≤ C3 * (‖D‖ + s ^ 2) := by positivity
    have h7 : K4 * ‖D‖ ≤ K4 * (‖D‖ + s ^ 2) := mul_le_mul_of_nonneg_left (by nlinarith) hK4
    have h8 : (C3 + K4 + A * (C3 + 1)) * (‖D‖ + s ^ 2) = C3 * (‖D‖ + s ^ 2) +
        K4 * (‖D‖ + s ^ 2) + A * (C3 + 1) * (‖D‖ + s ^ 2) := by ring
    have h9 := add_le_add (nD.trans h7) (nE'.trans (h4.trans h5))
    refine h9.trans ?_
    rw [h8]
    exact add_le_add (le_add_of_nonneg_left h6) le_rfl

end Body
end SpatialDyn
