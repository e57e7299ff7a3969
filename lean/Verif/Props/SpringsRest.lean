import Verif.Props.Springs
import Verif.Lemmas.Circulation

/-! C153: that there is a position where a robot under proportional control rests. -/

namespace SpatialDyn
open Finset Body OneStep

variable {E : Ext} {b : Body} {d : Bool}

/-- The potential energy along a line of positions. -/
theorem potential_line (h : Reach E b d) (hd : b.Definite) (ha : b.AxesOK) (q v : Fin b.dof → ℝ) {B : Body}
    (hB : b.setQ (List.ofFn q) = .ok B) :
    HasDerivAt (fun s : ℝ => b.potential fun k x => (b.twAt (padFin (q + s • v)) k).app x)
      (∑ j ∈ range b.dof, padFin v j * B.gravity.1 j) 0 := by
  obtain ⟨hs, hn, hf, _, r⟩ := h.after_setQ hB
  have hr : B.rb = b.rb := by unfold Body.rb; rw [hs.rbs]
  have hax : B.AxesOK := by unfold Body.AxesOK; rw [hn, hr]; exact ha
  have hpos : padFin (q + (0 : ℝ) • v) = B.pos := by
    unfold Body.pos
    rw [setQ_q hB, getD_ofFn_pad, zero_smul, add_zero]
  have hm := (hs.definite hd).massive r.inv.tree
  have key := potential_deriv r hax hm (u := fun s => padFin (q + s • v)) (w := padFin v)
    (s := 0) hpos fun j _ => hasDerivAt_pad q v j
  have htw : B.twAt = b.twAt := by
    funext u
    unfold Body.twAt Body.par Body.TpAt
    rw [hn, hr, hs.T0]
  have hpot : ∀ P, B.potential P = b.potential P := by
    intro P
    unfold Body.potential Body.parts
    rw [hn, hr, hs.load, hs.g]
  have key2 := key.congr_deriv (g' := ∑ j ∈ range B.dof, padFin v j * B.gravity.1 j) (by
    refine (Sys.genForce_power (σ := B.fresh) (padFin v) fun k => B.fresh.Iw k (-B.fresh.g)).symm.trans ?_
    exact sum_congr rfl fun j hj => by rw [(gravity_run r.inv).2 j (mem_range.1 hj)]; rfl)
  simp only [hpot, htw, hn] at key2
  exact key2

/-- A parabola from below. -/
theorem spring_low {k : ℝ} (hk : 0 < k) (c x : ℝ) :
    -(c ^ 2 / (2 * k)) ≤ k / 2 * x ^ 2 - c * x ∧ k / 4 * x ^ 2 - 2 * (c ^ 2 / (2 * k)) ≤ k / 2 * x ^ 2 - c * x := by
  have e1 : k / 2 * x ^ 2 - c * x + c ^ 2 / (2 * k) = (k * x - c) ^ 2 / (2 * k) := by field_simp; ring
  have e2 : k / 4 * x ^ 2 - c * x + 2 * (c ^ 2 / (2 * k)) = (k * x - 2 * c) ^ 2 / (4 * k) := by field_simp; ring
  have p1 : 0 ≤ (k * x - c) ^ 2 / (2 * k) := by positivity
  have p2 : 0 ≤ (k * x - 2 * c) ^ 2 / (4 * k) := by positivity
  constructor <;> linarith

/-- A continuous bounded function plus springs has a minimum. -/
theorem springs_min {n : ℕ} {U : (Fin n → ℝ) → ℝ} (hU : Continuous U) {K : ℝ} (hK : ∀ q, |U q| ≤ K)
    (a c k : Fin n → ℝ) (hk : ∀ i, 0 < k i) : ∃ q0, ∀ q,
      U q0 + ∑ i, (k i / 2 * (q0 i - a i) ^ 2 - c i * (q0 i - a i)) ≤
        U q + ∑ i, (k i / 2 * (q i - a i) ^ 2 - c i * (q i - a i)) := by
  set V : (Fin n → ℝ) → ℝ := fun q => U q + ∑ i, (k i / 2 * (q i - a i) ^ 2 - c i * (q i - a i)) with hV
  have hc : Continuous V := by
    refine hU.add (continuous_finset_sum _ fun i _ => ?_)
    fun_prop
  set s : Fin n → ℝ := fun i => c i ^ 2 / (2 * k i) with hs
  have s0 : ∀ i, 0 ≤ s i := fun i => div_nonneg (sq_nonneg _) (by linarith [hk i])
  set W := 2 * K + 2 * ∑ i, s i + 1 with hW
  have K0 : 0 ≤ K := (abs_nonneg _).trans (hK a)
  have S0 : 0 ≤ ∑ i, s i := sum_nonneg fun i _ => s0 i
  have W0 : 0 ≤ W := by positivity
  set r : Fin n → ℝ := fun i => 1 + 4 * W / k i with hr
  have r1 : ∀ i, 1 ≤ r i := fun i => by
    have : 0 ≤ 4 * W / k i := div_nonneg (by linarith) (hk i).le
    simp only [hr]; linarith
  set ρ := ∑ i, r i with hρ
  have ρ0 : 0 ≤ ρ := sum_nonneg fun i _ => zero_le_one.trans (r1 i)
  obtain ⟨q0, hq0, hmin⟩ := (isCompact_closedBall a ρ).exists_isMinOn
    ⟨a, Metric.mem_closedBall_self ρ0⟩ hc.continuousOn
  refine ⟨q0, fun q => ?_⟩
  by_cases hq : q ∈ Metric.closedBall a ρ
  · exact hmin hq
  · refine (hmin (Metric.mem_closedBall_self ρ0)).trans ?_
    have : ∃ i, ρ < |q i - a i| := by
      by_contra hn
      simp only [not_exists, not_lt] at hn
      exact hq ((dist_pi_le_iff ρ0).2 fun i => by rw [Real.dist_eq]; exact hn i)
    obtain ⟨i, hi⟩ := this
    have h1 : r i ≤ |q i - a i| := (single_le_sum (fun i _ => zero_le_one.trans (r1 i)) (mem_univ i)).trans hi.le
    have h2 : W ≤ k i / 4 * (q i - a i) ^ 2 := by
      have b1 : r i ≤ (q i - a i) ^ 2 := by
        rw [← sq_abs]
        nlinarith [r1 i]
      have b2 : k i / 4 * r i = k i / 4 + W := by
        have := (hk i).ne'
        simp only [hr]; field_simp
      have b3 := mul_le_mul_of_nonneg_left b1 (by linarith [hk i] : 0 ≤ k i / 4)
      linarith [hk i]
    have h3 : W - 2 * ∑ j, s j ≤ ∑ j, (k j / 2 * (q j - a j) ^ 2 - c j * (q j - a j)) := by
      rw [← add_sum_erase univ (fun j => k j / 2 * (q j - a j) ^ 2 - c j * (q j - a j)) (mem_univ i)]
      have t1 := (spring_low (hk i) (c i) (q i - a i)).2
      have t2 : -∑ j ∈ univ.erase i, s j ≤ ∑ j ∈ univ.erase i, (k j / 2 * (q j - a j) ^ 2 - c j * (q j - a j)) := by
        rw [← sum_neg_distrib]
        exact sum_le_sum fun j _ => (spring_low (hk j) (c j) (q j - a j)).1
      have t3 : ∑ j, s j = s i + ∑ j ∈ univ.erase i, s j := (add_sum_erase _ _ (mem_univ i)).symm
      have t4 : 0 ≤ ∑ j ∈ univ.erase i, s j := sum_nonneg fun j _ => s0 j
      have t5 : s i = c i ^ 2 / (2 * k i) := rfl
      linarith
    show V a ≤ V q
    have e : V a = U a := by simp [hV]
    have u1 := abs_le.1 (hK a)
    have u2 := abs_le.1 (hK q)
    have u3 : V q = U q + ∑ j, (k j / 2 * (q j - a j) ^ 2 - c j * (q j - a j)) := rfl
    linarith

/-- C153: under proportional control with positive gains and any constant torques added, there is a position
where the robot rests. -/
theorem C153_exists (h : Reach E b d) (hd : b.Definite) (ha : b.AxesOK) (ht : ∀ i < b.dof,
      (b.rb i).joint.type = .rx ∨ (b.rb i).joint.type = .ry ∨ (b.rb i).joint.type = .rz)
    (goal : List ℝ) (c kp : ℕ → ℝ) (hk : ∀ i < b.dof, 0 < kp i) :
    ∃ q dq b1 B, b.setQ q = .ok b1 ∧ b1.setDq dq = .ok B ∧ (∀ i < b.dof, dq.getD i 0 = 0) ∧
      ∀ o : FDOpts, o.friction = false → o.gravity = true → ∀ i < b.dof,
        (B.fd E (fun i => c i - kp i * (q.getD i 0 - goal.getD i 0)) noExt o).1 i = 0 := by
  set U : (Fin b.dof → ℝ) → ℝ := fun y => b.potential fun k x => (b.twAt (padFin y) k).app x with hU
  have hUs := potential_smooth h.inv
  obtain ⟨K, K0, hK⟩ := torus_bound (G := fun y : State b.dof => U y.1) (hUs.continuous.comp continuous_fst)
    (fun y m => by
      rw [Prod.fst_add, hU]
      simp only
      rw [twAt_turns ht]) 0
  obtain ⟨q0, hmin⟩ := springs_min hUs.continuous (K := K) (fun q => hK (q, 0) (by simp))
    (fun i : Fin b.dof => goal.getD i 0) (fun i => c i) (fun i => kp i) fun i => hk i i.2
  obtain ⟨b1, h1, e1⟩ := setQ_total (b := b) (q := List.ofFn q0) (by simp)
  obtain ⟨B, h2, e2⟩ := setDq_total (b := b1) (q := List.ofFn fun _ : Fin b.dof => (0 : ℝ)) (by simp [e1])
  have hz : ∀ i < b.dof, (List.ofFn fun _ : Fin b.dof => (0 : ℝ)).getD i 0 = 0 := fun i hi => by
    simp [List.getD, hi]
  refine ⟨_, _, b1, B, h1, h2, hz, fun o hf hg => (rest_iff h hd h1 h2 hz _ hf hg).2 fun i hi => ?_⟩
  set v : Fin b.dof → ℝ := Pi.single ⟨i, hi⟩ 1 with hv
  have d1 := potential_line h hd ha q0 v h1
  have d2 : HasDerivAt (fun s : ℝ => ∑ j : Fin b.dof, (kp j / 2 * ((q0 + s • v) j - goal.getD j 0) ^ 2 -
      c j * ((q0 + s • v) j - goal.getD j 0)))
      (∑ j : Fin b.dof, (kp j * (q0 j - goal.getD j 0) * v j - c j * v j)) 0 := by
    refine HasDerivAt.fun_sum fun j _ => ?_
    have l : HasDerivAt (fun s : ℝ => (q0 + s • v) j - goal.getD j 0) (v j) 0 := by
      have := (((hasDerivAt_id' (0 : ℝ)).mul_const (v j)).const_add (q0 j)).sub_const (goal.getD j 0)
      simpa using this
    have l2 := ((l.pow 2).const_mul (kp j / 2)).sub (l.const_mul (c j))
    refine l2.congr_deriv ?_
    simp
    ring
  have hloc : IsLocalMin (fun s : ℝ => U (q0 + s • v) + ∑ j : Fin b.dof,
      (kp j / 2 * ((q0 + s • v) j - goal.getD j 0) ^ 2 - c j * ((q0 + s • v) j - goal.getD j 0))) 0 :=
    Filter.Eventually.of_forall fun s => by
      have := hmin (q0 + s • v)
      simpa using this
  have := hloc.hasDerivAt_eq_zero (d1.add d2)
  have s1 : ∑ j ∈ range b.dof, padFin v j * b1.gravity.1 j = b1.gravity.1 i := by
    rw [sum_range, sum_eq_single (⟨i, hi⟩ : Fin b.dof)]
    · rw [padFin_at, hv]; simp
    · intro j _ hj
      rw [padFin_at, hv, Pi.single_eq_of_ne hj, zero_mul]
    · intro hn; exact absurd (mem_univ _) hn
  have s2 : ∑ j : Fin b.dof, (kp j * (q0 j - goal.getD j 0) * v j - c j * v j) =
      kp i * (q0 ⟨i, hi⟩ - goal.getD i 0) - c i := by
    rw [sum_eq_single (⟨i, hi⟩ : Fin b.dof)]
    · rw [hv]; simp
    · intro j _ hj
      rw [hv, Pi.single_eq_of_ne hj]; ring
    · intro hn; exact absurd (mem_univ _) hn
  rw [s1, s2] at this
  have e3 : (List.ofFn q0).getD i 0 = q0 ⟨i, hi⟩ := by simp [List.getD, hi]
  rw [e3]
  linarith

/-- C153: with gains above a constant, the same for all goals and all constant torques added, there is only
one such position. -/
theorem C153_unique (h : Reach E b d) (hd : b.Definite) (ht : ∀ i < b.dof,
      (b.rb i).joint.type = .rx ∨ (b.rb i).joint.type = .ry ∨ (b.rb i).joint.type = .rz) :
    ∃ K, ∀ (goal : List ℝ) (c kp : ℕ → ℝ), (∀ i < b.dof, K < kp i) →
      ∀ q q' dq dq' b1 b1' B B', b.setQ q = .ok b1 → b.setQ q' = .ok b1' → b1.setDq dq = .ok B →
      b1'.setDq dq' = .ok B' → (∀ i < b.dof, dq.getD i 0 = 0) → (∀ i < b.dof, dq'.getD i 0 = 0) →
      ∀ o : FDOpts, o.friction = false → o.gravity = true →
      (∀ i < b.dof, (B.fd E (fun i => c i - kp i * (q.getD i 0 - goal.getD i 0)) noExt o).1 i = 0) →
      (∀ i < b.dof, (B'.fd E (fun i => c i - kp i * (q'.getD i 0 - goal.getD i 0)) noExt o).1 i = 0) →
      q = q' := by
  obtain ⟨K, hK⟩ := C153_only h hd ht
  refine ⟨K, fun goal c kp hk q q' dq dq' b1 b1' B B' h1 h1' h2 h2' h0 h0' o hf hg hz hz' => ?_⟩
  have g1 := (rest_iff h hd h1 h2 h0 _ hf hg).1 hz
  have g2 := (rest_iff h hd h1' h2' h0' _ hf hg).1 hz'
  have key := (hK q' b1' h1' kp hk q dq b1 B h1 h2 h0 o hf hg).1
    ((rest_iff h hd h1 h2 h0 _ hf hg).2 fun i hi => by
      have e1 := g1 i hi
      have e2 := g2 i hi
      linarith)
  have l := setQ_length h1
  have l' := setQ_length h1'
  refine List.ext_getElem (l.trans l'.symm) fun i hi hi' => ?_
  have := key i (hi.trans_eq l)
  simpa [List.getD, hi, hi'] using this

/-- The hypotheses hold for a pendulum, with gain one. -/
example (E : Ext) : ∃ d, Reach E creak d ∧ creak.Definite ∧ creak.AxesOK ∧ (∀ i < creak.dof,
      (creak.rb i).joint.type = .rx ∨ (creak.rb i).joint.type = .ry ∨ (creak.rb i).joint.type = .rz) ∧
    ∀ i < creak.dof, 0 < (fun _ => 1 : ℕ → ℝ) i := by
  obtain ⟨d, h⟩ := creak_reach E
  have h0 : ∀ k < creak.dof, k = 0 := fun k hk => Nat.lt_one_iff.1 hk
  exact ⟨d, h, creak_definite, fun k hk => by rw [h0 k hk]; rfl,
    fun i hi => .inl (by rw [h0 i hi]; rfl), fun _ _ => one_pos⟩

end SpatialDyn
