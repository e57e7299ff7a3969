import Verif.Props.Tracking
import Verif.Props.Bounds

/-! C156: computed-torque control with torques that are not exact. -/

namespace SpatialDyn
open Finset Body OneStep

variable {E : Ext} {b : Body} {d : Bool}

/-- What a damped oscillator keeps of a disturbance. -/
theorem oscillator_disturbed {kp kv : ℝ} (hp : 0 < kp) (hv : 0 < kv) :
    ∃ C lam : ℝ, 0 < lam ∧ 0 ≤ C ∧ ∀ (T ρ : ℝ) (e w r : ℝ → ℝ), (∀ t ∈ Set.Icc 0 T, r t ^ 2 ≤ ρ) →
      (∀ t ∈ Set.Icc 0 T, HasDerivWithinAt e (w t) (Set.Icc 0 T) t) →
      (∀ t ∈ Set.Icc 0 T, HasDerivWithinAt w (-kp * e t - kv * w t + r t) (Set.Icc 0 T) t) →
      ∀ t ∈ Set.Icc 0 T,
        kp * e t ^ 2 + w t ^ 2 ≤ C * (Real.exp (-(lam * t)) * (kp * e 0 ^ 2 + w 0 ^ 2) + ρ) := by
  set L : ℝ := 1 + (kv ^ 2 / 4 + kp + kv ^ 2 / 2) / (2 * kp) with hL
  have hL0 : 0 < L := by positivity
  have hLk : (kv ^ 2 / 4 + kp + kv ^ 2 / 2) / 2 ≤ L * kp := by
    rw [hL, add_mul, one_mul, div_mul_eq_mul_div, ← sub_nonneg]
    have : (kv ^ 2 / 4 + kp + kv ^ 2 / 2) * kp / (2 * kp) = (kv ^ 2 / 4 + kp + kv ^ 2 / 2) / 2 := by
      field_simp
    rw [this]
    linarith
  have hL1 : 1 ≤ L := by rw [hL]; have : 0 ≤ (kv ^ 2 / 4 + kp + kv ^ 2 / 2) / (2 * kp) := by positivity
                         linarith
  set lam : ℝ := kv / 4 / L with hlam
  have hlam0 : 0 < lam := by positivity
  have hlL : lam * L = kv / 4 := by rw [hlam]; field_simp
  set N : ℝ := 1 + kv ^ 2 / 4 / kp with hN
  have hN0 : 0 < N := by positivity
  have hN1 : 1 ≤ N := by rw [hN]; have : 0 ≤ kv ^ 2 / 4 / kp := by positivity
                         linarith
  have hNk : kv ^ 2 / 4 ≤ N * kp := by
    rw [hN, add_mul, div_mul_cancel₀ _ hp.ne']; linarith
  set D : ℝ := 2 * N / kv with hD
  have hD0 : 0 < D := by positivity
  have hDv : D * kv = 2 * N := by rw [hD]; field_simp
  refine ⟨4 * (L + D / lam), lam, hlam0, by positivity, fun T ρ e w r hr he hw t ht => ?_⟩
  have hρ : 0 ≤ ρ := (sq_nonneg _).trans (hr t ht)
  set V : ℝ → ℝ := fun s => w s ^ 2 / 2 + kv / 2 * (e s * w s) + (kp + kv ^ 2 / 2) / 2 * e s ^ 2 with hV
  have low : ∀ s, (kp * e s ^ 2 + w s ^ 2) / 4 ≤ V s := fun s => by
    simp only [hV]
    nlinarith [sq_nonneg (w s + kv * e s), sq_nonneg (e s), mul_nonneg hp.le (sq_nonneg (e s))]
  have up : ∀ s, V s ≤ L * (kp * e s ^ 2 + w s ^ 2) := fun s => by
    simp only [hV]
    have h1 := mul_le_mul_of_nonneg_right hLk (sq_nonneg (e s))
    have h2 := mul_le_mul_of_nonneg_right hL1 (sq_nonneg (w s))
    nlinarith [sq_nonneg (w s - kv / 2 * e s)]
  have push : ∀ s ∈ Set.Icc 0 T, (w s + kv / 2 * e s) * r s ≤ kv / 4 * (kp * e s ^ 2 + w s ^ 2) + D * ρ := by
    intro s hs
    have h1 : (w s + kv / 2 * e s) ^ 2 ≤ 2 * N * (kp * e s ^ 2 + w s ^ 2) := by
      have g1 := mul_le_mul_of_nonneg_right hNk (sq_nonneg (e s))
      have g2 := mul_le_mul_of_nonneg_right hN1 (sq_nonneg (w s))
      nlinarith [sq_nonneg (w s - kv / 2 * e s)]
    have h2 : (w s + kv / 2 * e s) * r s ≤ (w s + kv / 2 * e s) ^ 2 / (4 * D) + D * r s ^ 2 := by
      have : (w s + kv / 2 * e s) ^ 2 / (4 * D) + D * r s ^ 2 - (w s + kv / 2 * e s) * r s =
          ((w s + kv / 2 * e s) - 2 * D * r s) ^ 2 / (4 * D) := by
        field_simp
        ring
      have g : 0 ≤ ((w s + kv / 2 * e s) - 2 * D * r s) ^ 2 / (4 * D) := by positivity
      linarith
    have h3 : (w s + kv / 2 * e s) ^ 2 / (4 * D) ≤ kv / 4 * (kp * e s ^ 2 + w s ^ 2) := by
      rw [div_le_iff₀ (by positivity)]
      nlinarith
    have h4 := mul_le_mul_of_nonneg_left (hr s hs) hD0.le
    linarith
  have dV : ∀ s ∈ Set.Icc 0 T, HasDerivWithinAt (fun s => (V s - D * ρ / lam) * Real.exp (lam * s))
      ((-(kv / 2) * (kp * e s ^ 2 + w s ^ 2) + (w s + kv / 2 * e s) * r s + lam * V s - D * ρ) *
        Real.exp (lam * s)) (Set.Icc 0 T) s := by
    intro s hs
    have h1 := (((((hw s hs).pow 2).div_const 2).add (((he s hs).mul (hw s hs)).const_mul (kv / 2))).add
      (((he s hs).pow 2).const_mul ((kp + kv ^ 2 / 2) / 2))).sub_const (D * ρ / lam)
    have h2 : HasDerivWithinAt (fun s => Real.exp (lam * s)) (Real.exp (lam * s) * (lam * 1)) (Set.Icc 0 T) s :=
      (((hasDerivAt_id s).const_mul lam).exp).hasDerivWithinAt
    refine (h1.mul h2).congr_deriv ?_
    simp only [hV, Pi.add_apply, Pi.mul_apply, Pi.pow_apply]
    have : lam * (D * ρ / lam) = D * ρ := by field_simp
    push_cast
    linear_combination (-Real.exp (lam * s)) * this
  have anti : AntitoneOn (fun s => (V s - D * ρ / lam) * Real.exp (lam * s)) (Set.Icc 0 T) := by
    refine antitoneOn_of_hasDerivWithinAt_nonpos (convex_Icc _ _)
      (f' := fun s => (-(kv / 2) * (kp * e s ^ 2 + w s ^ 2) + (w s + kv / 2 * e s) * r s + lam * V s - D * ρ) *
        Real.exp (lam * s))
      (fun x hx => (dV x hx).continuousWithinAt)
      (fun x hx => (dV x (interior_subset hx)).mono interior_subset) fun x hx => ?_
    refine mul_nonpos_of_nonpos_of_nonneg ?_ (Real.exp_pos _).le
    have := mul_le_mul_of_nonneg_left (up x) hlam0.le
    rw [← mul_assoc, hlL] at this
    linarith [push x (interior_subset hx)]
  have key := anti ⟨le_rfl, ht.1.trans ht.2⟩ ht ht.1
  simp only [mul_zero, Real.exp_zero, mul_one] at key
  have hx : V t - D * ρ / lam ≤ (V 0 - D * ρ / lam) * Real.exp (-(lam * t)) := by
    rw [Real.exp_neg, ← div_eq_mul_inv, le_div_iff₀ (Real.exp_pos _)]
    exact key
  set X := Real.exp (-(lam * t)) with hX
  have X0 : 0 < X := Real.exp_pos _
  have h3 := mul_le_mul_of_nonneg_right (up 0) X0.le
  have h4 := low t
  have h5 : 0 ≤ D * ρ / lam * X := by positivity
  have h6 : 0 ≤ D / lam * (X * (kp * e 0 ^ 2 + w 0 ^ 2)) := by positivity
  have h7 : 0 ≤ L * ρ := by positivity
  have h8 : D * ρ / lam = D / lam * ρ := by ring
  rw [h8] at hx h5
  nlinarith

/-- How far accelerations change with torques. -/
theorem field_lipschitz (h : Reach E b d) (hd : b.Definite) (ht : ∀ i < b.dof,
      (b.rb i).joint.type = .rx ∨ (b.rb i).joint.type = .ry ∨ (b.rb i).joint.type = .rz) :
    ∃ K, ∀ (fext : FExt) (o : IntOpts), o.friction = false → ∀ (t t' : ℕ → ℝ) (η : ℝ),
      (∀ i < b.dof, |t i - t' i| ≤ η) → ∀ (y : State b.dof) (i : Fin b.dof),
      ((b.field E cache0 t fext o y).2 i - (b.field E cache0 t' fext o y).2 i) ^ 2 ≤ K * η ^ 2 := by
  obtain ⟨m, m0, M, -, hM⟩ := form_bounds h hd ht
  refine ⟨b.dof / m ^ 2, fun fext o ho t t' η hη y i => ?_⟩
  rw [field_val h hd cache0_clear _ _ _ ho, field_val h hd cache0_clear _ _ _ ho]
  generalize (if o.aba = true then b.T0.R.mulVec b.g else b.g) = g
  simp only
  set A := b.accAt g t fext o.cc o.gravity y with hA
  set A' := b.accAt g t' fext o.cc o.gravity y with hA'
  set r : Fin b.dof → ℝ := fun i => A i - A' i with hr
  have lin : ∀ k : Fin b.dof, ∑ j : Fin b.dof, b.massAt y.1 k j * r j = t k - t' k := fun k => by
    have h1 := accAt_solves h hd g t fext o.cc o.gravity y k.2
    have h2 := accAt_solves h hd g t' fext o.cc o.gravity y k.2
    rw [sum_range] at h1 h2
    simp only [padFin_at] at h1 h2
    have h3 : ∑ j : Fin b.dof, b.massAt y.1 k j * r j =
        ∑ j : Fin b.dof, b.massAt y.1 k j * A j - ∑ j : Fin b.dof, b.massAt y.1 k j * A' j := by
      rw [← sum_sub_distrib]
      exact sum_congr rfl fun j _ => by rw [hr]; ring
    rw [h3]
    have h4 : ∑ j : Fin b.dof, b.massAt y.1 k j * A j = _ := h1
    have h5 : ∑ j : Fin b.dof, b.massAt y.1 k j * A' j = _ := h2
    rw [h4, h5]
    ring
  have hq := (hM y.1 r).1
  have e : b.inertiaForm (y.1, r) = ∑ k : Fin b.dof, r k * (t k - t' k) := by
    unfold inertiaForm
    exact sum_congr rfl fun k _ => congrArg (r k * ·) (lin k)
  rw [e] at hq
  have cs := sum_mul_sq_le_sq_mul_sq univ r fun k : Fin b.dof => t k - t' k
  set S := ∑ k, r k ^ 2 with hS
  have S0 : 0 ≤ S := sum_nonneg fun _ _ => sq_nonneg _
  have dl : ∑ k : Fin b.dof, (t k - t' k) ^ 2 ≤ b.dof * η ^ 2 := by
    rw [show (b.dof : ℝ) * η ^ 2 = ∑ _k : Fin b.dof, η ^ 2 by simp]
    refine sum_le_sum fun k _ => ?_
    rw [← sq_abs]
    exact pow_le_pow_left₀ (abs_nonneg _) (hη k k.2) 2
  have one : r i ^ 2 ≤ S := single_le_sum (f := fun k => r k ^ 2) (fun _ _ => sq_nonneg _) (mem_univ i)
  have big : m ^ 2 * S ≤ b.dof * η ^ 2 := by
    rcases S0.eq_or_lt with h0 | h0
    · rw [← h0, mul_zero]; positivity
    · have : (m * S) ^ 2 ≤ S * (b.dof * η ^ 2) :=
        (pow_le_pow_left₀ (by positivity) hq 2).trans (cs.trans (mul_le_mul_of_nonneg_left dl S0))
      refine le_of_mul_le_mul_left ?_ h0
      linarith
  show r i ^ 2 ≤ _
  rw [div_mul_eq_mul_div, le_div_iff₀ (by positivity)]
  nlinarith [sq_nonneg m]

/-- C156: torques within `η` of those of computed-torque control keep the robot within a multiple of `η` of the
reference, once the error of the start has died out. -/
theorem C156_robust (h : Reach E b d) (hd : b.Definite) (ht : ∀ i < b.dof,
      (b.rb i).joint.type = .rx ∨ (b.rb i).joint.type = .ry ∨ (b.rb i).joint.type = .rz) {kp kv : ℕ → ℝ} {i : ℕ}
    (hi : i < b.dof) (hp : 0 < kp i) (hv : 0 < kv i) :
    ∃ C lam : ℝ, 0 < lam ∧ ∀ (fext : FExt) (o : IntOpts),
      o.friction = false → (o.aba = false ∨ b.T0.R.mulVec b.g = b.g) → ∀ (T : ℝ) (x w a : ℝ → ℕ → ℝ),
      (∀ i < b.dof, ∀ t ∈ Set.Icc 0 T, HasDerivWithinAt (fun s => x s i) (w t i) (Set.Icc 0 T) t) →
      (∀ i < b.dof, ∀ t ∈ Set.Icc 0 T, HasDerivWithinAt (fun s => w s i) (a t i) (Set.Icc 0 T) t) →
      ∀ (η : ℝ) (tau : ℝ → ℕ → ℝ) (q dq : ℝ → List ℝ), b.MovesWith E tau fext o T q dq →
      (∀ t ∈ Set.Icc 0 T, ∀ b1 B, b.setQ (q t) = .ok b1 → b1.setDq (dq t) = .ok B → ∀ k < b.dof,
        |tau t k - (B.inverseDynamics (fun j => a t j - kp j * ((q t).getD j 0 - x t j) -
          kv j * ((dq t).getD j 0 - w t j)) fext ⟨o.gravity, o.cc, false, o.eps⟩).1 k| ≤ η) →
      ∀ t ∈ Set.Icc 0 T, kp i * ((q t).getD i 0 - x t i) ^ 2 + ((dq t).getD i 0 - w t i) ^ 2 ≤
        C * (Real.exp (-(lam * t)) * (kp i * ((q 0).getD i 0 - x 0 i) ^ 2 + ((dq 0).getD i 0 - w 0 i) ^ 2) +
          η ^ 2) := by
  obtain ⟨C, lam, hl, C0, hC⟩ := oscillator_disturbed hp hv
  obtain ⟨K, hK⟩ := field_lipschitz h hd ht
  refine ⟨C * (1 + |K|), lam, hl, fun fext o ho hbase T x w a hx hw η tau q dq hM htau t htT => ?_⟩
  have hm := hd.massive h.inv.tree
  set acc : ℝ → ℕ → ℝ := fun s j => a s j - kp j * ((q s).getD j 0 - x s j) - kv j * ((dq s).getD j 0 - w s j)
    with hacc
  set r : ℝ → ℝ := fun s => (b.field E cache0 (tau s) fext o
    (fun i => (q s).getD i 0, fun i => (dq s).getD i 0)).2 ⟨i, hi⟩ - acc s i with hr
  have key := hC T (K * η ^ 2) (fun t => (q t).getD i 0 - x t i) (fun t => (dq t).getD i 0 - w t i) r
    (fun s hs => ?_) (fun s hs => ?_) (fun s hs => ?_) t htT
  · refine key.trans ?_
    set Z := Real.exp (-(lam * t)) * (kp i * ((q 0).getD i 0 - x 0 i) ^ 2 + ((dq 0).getD i 0 - w 0 i) ^ 2)
    have Z0 : 0 ≤ Z := mul_nonneg (Real.exp_pos _).le (by positivity)
    rw [mul_assoc]
    refine mul_le_mul_of_nonneg_left ?_ C0
    have := mul_le_mul_of_nonneg_right (le_abs_self K) (sq_nonneg η)
    nlinarith [mul_nonneg (abs_nonneg K) Z0, sq_nonneg η]
  · obtain ⟨b1, B, e1, e2, e3⟩ := hM s hs
    have f2 := (atState_of_set h e1 e2).torque h hd (acc s) fext o ho hbase
    have g := hK fext o ho (tau s) _ η (htau s hs b1 B e1 e2)
      (fun i => (q s).getD i 0, fun i => (dq s).getD i 0) ⟨i, hi⟩
    rw [f2] at g
    exact g
  · obtain ⟨b1, B, e1, e2, e3⟩ := hM s hs
    exact (e3 i hi).1.sub (hx i hi s hs)
  · obtain ⟨b1, B, e1, e2, e3⟩ := hM s hs
    refine ((e3 i hi).2.sub (hw i hi s hs)).congr_deriv ?_
    have f1 := field_of_set h hm cache0_clear (tau s) fext o e1 e2 ⟨i, hi⟩
    simp only at f1
    rw [f1]
    simp only [hr, hacc]
    ring

/-- A pendulum meets the hypotheses, and with unit gains there are such motions towards the sine (`C156_motion`). -/
example (E : Ext) : ∃ d, Reach E creak d ∧ creak.Definite ∧ (∀ i < creak.dof,
      (creak.rb i).joint.type = .rx ∨ (creak.rb i).joint.type = .ry ∨ (creak.rb i).joint.type = .rz) ∧
    0 < creak.dof ∧ ∃ C lam : ℝ, 0 < lam ∧ ∃ (tau : ℝ → ℕ → ℝ) (q dq : ℝ → List ℝ),
      q 0 = [1] ∧ dq 0 = [1] ∧ (∀ T, creak.MovesWith E tau noExt { IntOpts.make with friction := false } T q dq) ∧
      ∀ t, 0 ≤ t → 1 * ((q t).getD 0 0 - Real.sin t) ^ 2 + ((dq t).getD 0 0 - Real.cos t) ^ 2 ≤
        C * (Real.exp (-(lam * t)) * (1 * ((q 0).getD 0 0 - Real.sin 0) ^ 2 +
          ((dq 0).getD 0 0 - Real.cos 0) ^ 2) + 0 ^ 2) := by
  obtain ⟨d, h⟩ := creak_reach E
  have h0 : ∀ k < creak.dof, k = 0 := fun k hk => Nat.lt_one_iff.1 hk
  have ht : ∀ i < creak.dof,
      (creak.rb i).joint.type = .rx ∨ (creak.rb i).joint.type = .ry ∨ (creak.rb i).joint.type = .rz :=
    fun i hi => .inl (by rw [h0 i hi]; rfl)
  have h1 : ∀ T, ∀ i < creak.dof, ∀ t ∈ Set.Icc 0 T,
      HasDerivWithinAt (fun s => Real.sin s) (Real.cos t) (Set.Icc 0 T) t :=
    fun T i _ t _ => (Real.hasDerivAt_sin t).hasDerivWithinAt
  have h2 : ∀ T, ∀ i < creak.dof, ∀ t ∈ Set.Icc 0 T,
      HasDerivWithinAt (fun s => Real.cos s) (-Real.sin t) (Set.Icc 0 T) t :=
    fun T i _ t _ => (Real.hasDerivAt_cos t).hasDerivWithinAt
  obtain ⟨C, lam, hl, hC⟩ := C156_robust (kp := fun _ => 1) (kv := fun _ => 1) h creak_definite ht
    (show 0 < creak.dof from Nat.one_pos) one_pos one_pos
  obtain ⟨tau, q, dq, g1, g2, g3, g4⟩ := C156_motion h creak_definite (kp := fun _ => 1) (kv := fun _ => 1)
    (fun _ _ => one_pos) (fun _ _ => zero_le_one) noExt (o := { IntOpts.make with friction := false }) rfl (.inl rfl)
    (x := fun t _ => Real.sin t) (w := fun t _ => Real.cos t) (a := fun t _ => -Real.sin t) h1 h2
    (q0 := [1]) (dq0 := [1]) rfl rfl
  exact ⟨d, h, creak_definite, ht, Nat.one_pos, C, lam, hl, tau, q, dq, g1, g2, g3, fun t ht0 =>
    hC noExt { IntOpts.make with friction := false } rfl (.inl rfl) t (fun t _ => Real.sin t)
      (fun t _ => Real.cos t) (fun t _ => -Real.sin t) (h1 t) (h2 t) 0 tau q dq (g3 t)
      (fun s _ b1 B e1 e2 k hk => by rw [g4 s b1 B e1 e2 k hk]; simp) t ⟨ht0, le_rfl⟩⟩

end SpatialDyn
