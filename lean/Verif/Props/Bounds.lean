import Verif.Props.Damped
import Verif.Props.Options
import Verif.Lemmas.Newton

/-!
# C149: bounds that hold in all states

For a robot whose joints all turn, the answers are bounded uniformly in the positions: the quadratic form
of `Inertia` lies between two multiples of the squared rates, `Gravity` is bounded,
`CentrifugalCoriolis` is bounded by a multiple of the squared velocities, and so are the accelerations of
`ForwardDynamics`.  With a joint that slides there are no such bounds.
-/

namespace SpatialDyn
open Finset Body OneStep

variable {E : Ext} {b : Body} {d : Bool}

/-- Sums of squares and the largest entry. -/
theorem norm_sq_le_sum {n : ℕ} (v : Fin n → ℝ) : ‖v‖ ^ 2 ≤ ∑ i, v i ^ 2 := by
  have h0 : 0 ≤ ∑ i, v i ^ 2 := sum_nonneg fun i _ => sq_nonneg _
  have : ‖v‖ ≤ Real.sqrt (∑ i, v i ^ 2) := (pi_norm_le_iff_of_nonneg (Real.sqrt_nonneg _)).2 fun i => by
    rw [Real.norm_eq_abs]
    exact Real.abs_le_sqrt (single_le_sum (f := fun i => v i ^ 2) (fun i _ => sq_nonneg _) (mem_univ i))
  calc ‖v‖ ^ 2 ≤ Real.sqrt (∑ i, v i ^ 2) ^ 2 := pow_le_pow_left₀ (norm_nonneg _) this 2
    _ = _ := Real.sq_sqrt h0

theorem sum_le_norm_sq {n : ℕ} (v : Fin n → ℝ) : ∑ i, v i ^ 2 ≤ n * ‖v‖ ^ 2 := by
  calc ∑ i, v i ^ 2 ≤ ∑ _i : Fin n, ‖v‖ ^ 2 := sum_le_sum fun i _ => by
        have := norm_le_pi_norm v i
        rw [Real.norm_eq_abs] at this
        rw [← sq_abs]
        exact pow_le_pow_left₀ (abs_nonneg _) this 2
    _ = n * ‖v‖ ^ 2 := by simp

/-- Quadratic functions that repeat with full turns are bounded by the squares. -/
theorem torus_quadratic {n : ℕ} {Q : State n → ℝ} (hQ : Continuous Q)
    (hp : ∀ y (m : Fin n → ℤ), Q (y + (fun i => 2 * Real.pi * m i, 0)) = Q y)
    (hh : ∀ (q v : Fin n → ℝ) (s : ℝ), Q (q, s • v) = s ^ 2 * Q (q, v)) :
    ∃ K, 0 ≤ K ∧ ∀ q v, |Q (q, v)| ≤ K * ∑ i, v i ^ 2 := by
  obtain ⟨K, hK0, hK⟩ := torus_bound hQ hp 1
  refine ⟨K, hK0, fun q v => ?_⟩
  by_cases hv : v = 0
  · subst hv
    have := hh q 0 0
    rw [smul_zero, zero_pow two_ne_zero, zero_mul] at this
    simp [this]
  have hn : ‖v‖ ≠ 0 := norm_ne_zero_iff.2 hv
  have h1 := hK (q, ‖v‖⁻¹ • v) (by simp [norm_smul, hn])
  have e : Q (q, v) = ‖v‖ ^ 2 * Q (q, ‖v‖⁻¹ • v) := by rw [hh]; field_simp
  rw [e, abs_mul, abs_of_nonneg (sq_nonneg _), mul_comm]
  exact mul_le_mul h1 (norm_sq_le_sum v) (sq_nonneg _) hK0

/-- Positive ones are also bounded below. -/
theorem torus_positive {n : ℕ} {Q : State n → ℝ} (hQ : Continuous Q)
    (hp : ∀ y (m : Fin n → ℤ), Q (y + (fun i => 2 * Real.pi * m i, 0)) = Q y)
    (hh : ∀ (q v : Fin n → ℝ) (s : ℝ), Q (q, s • v) = s ^ 2 * Q (q, v))
    (h0 : ∀ q v, v ≠ 0 → 0 < Q (q, v)) :
    ∃ m, 0 < m ∧ ∀ q v, m * ∑ i, v i ^ 2 ≤ Q (q, v) := by
  have hz : ∀ q, Q (q, 0) = 0 := fun q => by simpa using hh q 0 0
  have hden : ∀ y : State n, 0 < Q y + (‖y.2‖ - 1) ^ 2 := fun y => by
    by_cases hv : y.2 = 0
    · have : Q y = 0 := by rw [← hz y.1, ← hv]
      rw [this, hv, norm_zero]; norm_num
    · exact add_pos_of_pos_of_nonneg (h0 y.1 y.2 hv) (sq_nonneg _)
  obtain ⟨K, hK0, hK⟩ := torus_bound (G := fun y : State n => (Q y + (‖y.2‖ - 1) ^ 2)⁻¹)
    (Continuous.inv₀ (hQ.add (((continuous_snd.norm).sub continuous_const).pow 2)) fun y => (hden y).ne')
    (fun y m => by simp only [hp, Prod.snd_add, add_zero]) 1
  refine ⟨1 / ((K + 1) * (n + 1)), by positivity, fun q v => ?_⟩
  by_cases hv : v = 0
  · subst hv; simp [hz]
  have hn : ‖v‖ ≠ 0 := norm_ne_zero_iff.2 hv
  have hu : ‖‖v‖⁻¹ • v‖ = 1 := by simp [norm_smul, hn]
  have hpos := h0 q (‖v‖⁻¹ • v) (by intro e; rw [e, norm_zero] at hu; exact zero_ne_one hu)
  have h1 := hK (q, ‖v‖⁻¹ • v) hu.le
  simp only [hu, sub_self, ne_eq, OfNat.ofNat_ne_zero, not_false_eq_true, zero_pow, add_zero] at h1
  rw [Real.norm_eq_abs, abs_of_pos (inv_pos.2 hpos)] at h1
  have h2 : 1 ≤ (K + 1) * Q (q, ‖v‖⁻¹ • v) := by
    have := mul_le_mul_of_nonneg_right h1 hpos.le
    rw [inv_mul_cancel₀ hpos.ne'] at this
    linarith
  have e : Q (q, v) = ‖v‖ ^ 2 * Q (q, ‖v‖⁻¹ • v) := by rw [hh]; field_simp
  have h3 := sum_le_norm_sq v
  have h4 : ‖v‖ ^ 2 ≤ (K + 1) * Q (q, v) := by
    rw [e]
    nlinarith [sq_nonneg ‖v‖]
  rw [div_mul_eq_mul_div, one_mul, div_le_iff₀ (by positivity)]
  have h5 : 0 ≤ Q (q, v) := (h0 q v hv).le
  calc ∑ i, v i ^ 2 ≤ n * ‖v‖ ^ 2 := h3
    _ ≤ (n + 1) * ‖v‖ ^ 2 := by nlinarith [sq_nonneg ‖v‖]
    _ ≤ (n + 1) * ((K + 1) * Q (q, v)) := mul_le_mul_of_nonneg_left h4 (by positivity)
    _ = _ := by ring

/-- Positions given as a list. -/
theorem pad_getD {n : ℕ} {q : List ℝ} (hq : q.length = n) :
    (fun i => q.getD i 0) = padFin (fun i : Fin n => q.getD i 0) := by
  funext i
  unfold padFin
  split
  · rfl
  · simp [List.getD, List.getElem?_eq_none (show q.length ≤ i by omega)]

/-- The quadratic form of the inertia. -/
noncomputable def Body.inertiaForm (b : Body) (y : State b.dof) : ℝ :=
  ∑ k, y.2 k * ∑ j, b.massAt y.1 k j * y.2 j

theorem inertiaForm_turns (ht : ∀ i < b.dof,
      (b.rb i).joint.type = .rx ∨ (b.rb i).joint.type = .ry ∨ (b.rb i).joint.type = .rz)
    (y : State b.dof) (m : Fin b.dof → ℤ) :
    b.inertiaForm (y + (fun i => 2 * Real.pi * m i, 0)) = b.inertiaForm y := by
  unfold inertiaForm massAt
  rw [Prod.fst_add, Prod.snd_add, add_zero]
  simp only
  rw [sysAt_turns ht]

theorem inertiaForm_form (h : Reach E b d) (hd : b.Definite) {q : List ℝ} {B : Body} (hB : b.setQ q = .ok B)
    (v : ℕ → ℝ) : ∑ k ∈ range b.dof, v k * ∑ j ∈ range b.dof, B.inertia.1 k j * v j =
      b.inertiaForm (fun i : Fin b.dof => q.getD i 0, fun i : Fin b.dof => v i) := by
  obtain ⟨hs, hn, hf, _, r⟩ := h.after_setQ hB
  have hm := (hs.definite hd).massive r.inv.tree
  unfold inertiaForm
  rw [sum_range]
  refine sum_congr rfl fun k _ => ?_
  rw [sum_range]
  congr 1
  refine sum_congr rfl fun j _ => ?_
  rw [inertia_entry r hm k j (by rw [hn]; exact k.2) (by rw [hn]; exact j.2), hf, pad_getD (setQ_length hB)]
  rfl

theorem form_bounds (h : Reach E b d) (hd : b.Definite) (ht : ∀ i < b.dof,
      (b.rb i).joint.type = .rx ∨ (b.rb i).joint.type = .ry ∨ (b.rb i).joint.type = .rz) :
    ∃ m > 0, ∃ M, 0 ≤ M ∧ ∀ q v, m * ∑ i, v i ^ 2 ≤ b.inertiaForm (q, v) ∧
      b.inertiaForm (q, v) ≤ M * ∑ i, v i ^ 2 := by
  have hc : Continuous b.inertiaForm := continuous_finset_sum _ fun k _ =>
    ((continuous_apply k).comp continuous_snd).mul (continuous_finset_sum _ fun j _ =>
      (massAt_smooth h.inv k j).continuous.mul ((continuous_apply j).comp continuous_snd))
  have hh : ∀ (q v : Fin b.dof → ℝ) (s : ℝ), b.inertiaForm (q, s • v) = s ^ 2 * b.inertiaForm (q, v) := by
    intro q v s
    unfold inertiaForm
    simp only [Pi.smul_apply, smul_eq_mul, mul_sum]
    refine sum_congr rfl fun k _ => sum_congr rfl fun j _ => ?_
    ring
  have h0 : ∀ q v : Fin b.dof → ℝ, v ≠ 0 → 0 < b.inertiaForm (q, v) :=
    fun q v hv => massAt_pos h hd q v hv
  obtain ⟨m, m0, hm⟩ := torus_positive hc (inertiaForm_turns ht) hh h0
  obtain ⟨M, M0, hM⟩ := torus_quadratic hc (inertiaForm_turns ht) hh
  exact ⟨m, m0, M, M0, fun q v => ⟨hm q v, (le_abs_self _).trans (hM q v)⟩⟩

/-- C149: for a robot whose joints all turn there are two multiples of the squared rates between which the
quadratic form of `Inertia` lies, at whatever positions. -/
theorem C149_inertia (h : Reach E b d) (hd : b.Definite) (ht : ∀ i < b.dof,
      (b.rb i).joint.type = .rx ∨ (b.rb i).joint.type = .ry ∨ (b.rb i).joint.type = .rz) :
    ∃ m > 0, ∃ M, ∀ q B, b.setQ q = .ok B → ∀ v : ℕ → ℝ,
      m * ∑ i ∈ range b.dof, v i ^ 2 ≤
        ∑ k ∈ range b.dof, v k * ∑ j ∈ range b.dof, B.inertia.1 k j * v j ∧
      ∑ k ∈ range b.dof, v k * ∑ j ∈ range b.dof, B.inertia.1 k j * v j ≤
        M * ∑ i ∈ range b.dof, v i ^ 2 := by
  obtain ⟨m, m0, M, -, hM⟩ := form_bounds h hd ht
  refine ⟨m, m0, M, fun q B hB v => ?_⟩
  rw [inertiaForm_form h hd hB, sum_range]
  exact hM _ _

/-- C149: and a bound of the torques that `Gravity` answers. -/
theorem C149_gravity (h : Reach E b d) (ht : ∀ i < b.dof,
      (b.rb i).joint.type = .rx ∨ (b.rb i).joint.type = .ry ∨ (b.rb i).joint.type = .rz) :
    ∃ G, ∀ q B, b.setQ q = .ok B → ∀ i < b.dof, |B.gravity.1 i| ≤ G := by
  choose G hG0 hG using fun i : Fin b.dof => torus_bound (weight_smooth h i).continuous (weight_turns ht i) 0
  refine ⟨∑ i, G i, fun q B hB i hi => ?_⟩
  obtain ⟨hs, hn, hf, _, r⟩ := h.after_setQ hB
  have e : B.gravity.1 i = b.weightAt (fun i : Fin b.dof => q.getD i 0) i := by
    rw [(gravity_run r.inv).2 i (by rw [hn]; exact hi), hf, pad_getD (setQ_length hB)]
    rfl
  rw [e]
  exact (hG ⟨i, hi⟩ (_, 0) (by simp)).trans (single_le_sum (fun i _ => hG0 i) (mem_univ (⟨i, hi⟩ : Fin b.dof)))

/-- C149: and of the torques of external forces fixed in the world. -/
theorem C149_external (h : Reach E b d) (ht : ∀ i < b.dof,
      (b.rb i).joint.type = .rx ∨ (b.rb i).joint.type = .ry ∨ (b.rb i).joint.type = .rz) (fext : FExt) :
    ∃ X, ∀ q B, b.setQ q = .ok B → ∀ i < b.dof, |(B.externalTorques fext).1 i| ≤ X := by
  choose G hG0 hG using fun i : Fin b.dof => torus_bound
    (G := fun y : State b.dof => (b.sysAt (padFin y.1) fun _ => 0).extSpec fext i)
    (extSpec_smooth (w := fun _ _ => 0) h.inv.tree
      (fun i _ => padFin_smooth contDiff_fst i) fext i).continuous (fun y m => by
      rw [Prod.fst_add]
      simp only
      rw [sysAt_turns ht]) 0
  refine ⟨∑ i, G i, fun q B hB i hi => ?_⟩
  obtain ⟨hs, hn, hf, _, r⟩ := h.after_setQ hB
  have e : (B.externalTorques fext).1 i =
      (b.sysAt (padFin fun i : Fin b.dof => q.getD i 0) fun _ => 0).extSpec fext i := by
    rw [(externalTorques_run r.inv fext).2 i (by rw [hn]; exact hi), hf, pad_getD (setQ_length hB)]
    rfl
  rw [e]
  exact (hG ⟨i, hi⟩ (_, 0) (by simp)).trans (single_le_sum (fun i _ => hG0 i) (mem_univ (⟨i, hi⟩ : Fin b.dof)))

/-- C149: and a multiple of the squared velocities that bounds the torques that `CentrifugalCoriolis`
answers. -/
theorem C149_coriolis (h : Reach E b d) (ht : ∀ i < b.dof,
      (b.rb i).joint.type = .rx ∨ (b.rb i).joint.type = .ry ∨ (b.rb i).joint.type = .rz) :
    ∃ K, ∀ q dq b1 B, b.setQ q = .ok b1 → b1.setDq dq = .ok B → ∀ i < b.dof,
      |B.centrifugalCoriolis.1 i| ≤ K * ∑ j ∈ range b.dof, dq.getD j 0 ^ 2 := by
  choose K hK0 hK using fun i : Fin b.dof => torus_quadratic
    (Q := fun y : State b.dof => (b.sysAt (padFin y.1) (padFin y.2)).coriolisSpec i)
    (coriolisSpec_smooth h.inv.tree (fun i _ => padFin_smooth contDiff_fst i)
      (fun i _ => padFin_smooth contDiff_snd i) i).continuous (fun y m => by
      rw [Prod.fst_add, Prod.snd_add, add_zero]
      simp only
      rw [sysAt_turns ht]) (fun q v s => by
      simp only
      rw [padFin_smul, coriolis_quadratic])
  refine ⟨∑ i, K i, fun q dq b1 B h1 h2 i hi => ?_⟩
  have hA := atState_of_set h h1 h2
  obtain ⟨B', d', hB', hA', hf⟩ := exists_at h (fun i : Fin b.dof => q.getD i 0, fun i : Fin b.dof => dq.getD i 0)
  have e : B.centrifugalCoriolis.1 i = (b.sysAt (padFin fun i : Fin b.dof => q.getD i 0)
      (padFin fun i : Fin b.dof => dq.getD i 0)).coriolisSpec i := by
    rw [(centrifugalCoriolis_run hA.inv).2 i (by rw [hA.dof]; exact hi), ← (hA.obsEq hA').poseEq.fresh, hf]
  rw [e, sum_range]
  refine (hK ⟨i, hi⟩ _ _).trans (mul_le_mul_of_nonneg_right ?_ (sum_nonneg fun _ _ => sq_nonneg _))
  exact single_le_sum (fun i _ => hK0 i) (mem_univ (⟨i, hi⟩ : Fin b.dof))

/-- The part of the inverse dynamics that does not depend on the accelerations. -/
theorem bias_bound (h : Reach E b d) (ht : ∀ i < b.dof,
      (b.rb i).joint.type = .rx ∨ (b.rb i).joint.type = .ry ∨ (b.rb i).joint.type = .rz) (fext : FExt) :
    ∃ C, 0 ≤ C ∧ ∀ q dq b1 B, b.setQ q = .ok b1 → b1.setDq dq = .ok B → ∀ cc g : Bool, ∀ i < b.dof,
      |B.fresh.idSpec (fun _ => 0) fext cc g i| ≤ C * (1 + ∑ j ∈ range b.dof, dq.getD j 0 ^ 2) := by
  obtain ⟨G, hG⟩ := C149_gravity h ht
  obtain ⟨X, hX⟩ := C149_external h ht fext
  obtain ⟨K, hK⟩ := C149_coriolis h ht
  refine ⟨|G| + |X| + |K|, by positivity, fun q dq b1 B h1 h2 cc g i hi => ?_⟩
  have hA := atState_of_set h h1 h2
  obtain ⟨hs1, hn1, hf1, d1, r1⟩ := h.after_setQ h1
  have hiB : i < B.dof := by rw [hA.dof]; exact hi
  have hib : i < b1.dof := by rw [hn1]; exact hi
  have hS : 0 ≤ ∑ j ∈ range b.dof, dq.getD j 0 ^ 2 := sum_nonneg fun _ _ => sq_nonneg _
  set S := ∑ j ∈ range b.dof, dq.getD j 0 ^ 2
  have e : B.fresh = { b1.fresh with dq := B.fresh.dq } := by
    obtain ⟨-, -, hf, -⟩ := h.after_set ⟨b1, h1, h2⟩
    rw [hf, hf1]; rfl
  have a1 : |B.fresh.coriolisSpec i| ≤ |K| * S := by
    rw [← (centrifugalCoriolis_run hA.inv).2 i hiB]
    exact (hK q dq b1 B h1 h2 i hi).trans (mul_le_mul_of_nonneg_right (le_abs_self _) hS)
  have a2 : |B.fresh.gravitySpec i| ≤ |G| := by
    have : B.fresh.gravitySpec i = b1.fresh.gravitySpec i := by rw [e]; rfl
    rw [this, ← (gravity_run r1.inv).2 i hib]
    exact (hG q b1 h1 i hi).trans (le_abs_self _)
  have a3 : |B.fresh.extSpec fext i| ≤ |X| := by
    have : B.fresh.extSpec fext i = b1.fresh.extSpec fext i := by rw [e]; rfl
    rw [this, ← (externalTorques_run r1.inv fext).2 i hib]
    exact (hX q b1 h1 i hi).trans (le_abs_self _)
  have a1' : |if cc then B.fresh.coriolisSpec i else 0| ≤ |K| * S := by
    split
    · exact a1
    · rw [abs_zero]; positivity
  have a2' : |if g then B.fresh.gravitySpec i else 0| ≤ |G| := by
    split
    · exact a2
    · rw [abs_zero]; positivity
  unfold Sys.idSpec
  simp only [mul_zero, sum_const_zero, zero_add]
  have t1 := abs_add_le ((if cc then B.fresh.coriolisSpec i else 0) +
    (if g then B.fresh.gravitySpec i else 0)) (B.fresh.extSpec fext i)
  have t2 := abs_add_le (if cc then B.fresh.coriolisSpec i else 0)
    (if g then B.fresh.gravitySpec i else 0)
  nlinarith [mul_nonneg (abs_nonneg G) hS, mul_nonneg (abs_nonneg X) hS, abs_nonneg K]

/-- C149: hence a constant that bounds the accelerations that torques cause, at whatever positions and
velocities (no friction). -/
theorem C149_forward (h : Reach E b d) (hd : b.Definite) (ht : ∀ i < b.dof,
      (b.rb i).joint.type = .rx ∨ (b.rb i).joint.type = .ry ∨ (b.rb i).joint.type = .rz) (fext : FExt) :
    ∃ C, ∀ q dq b1 B, b.setQ q = .ok b1 → b1.setDq dq = .ok B → ∀ (tau : ℕ → ℝ) (o : FDOpts),
      o.friction = false → ∀ i < b.dof, |(B.fd E tau fext o).1 i| ≤
        C * (1 + ∑ j ∈ range b.dof, |tau j| + ∑ j ∈ range b.dof, dq.getD j 0 ^ 2) := by
  obtain ⟨m, m0, M, hm⟩ := C149_inertia h hd ht
  obtain ⟨K, K0, hK⟩ := bias_bound h ht fext
  refine ⟨(1 + b.dof * K) / m, fun q dq b1 B h1 h2 tau o ho i hi => ?_⟩
  have hA := atState_of_set h h1 h2
  obtain ⟨hs, hn, hf, -, -, d', r⟩ := h.after_set ⟨b1, h1, h2⟩
  obtain ⟨hs1, hn1, hf1, d1, r1⟩ := h.after_setQ h1
  have hD := hs.definite hd
  have hM := hD.massive r.inv.tree
  have hM1 := (hs1.definite hd).massive r1.inv.tree
  set a := (B.fd E tau fext o).1 with ha
  set S := ∑ j ∈ range b.dof, dq.getD j 0 ^ 2 with hSd
  have hS : 0 ≤ S := sum_nonneg fun _ _ => sq_nonneg _
  set R := ∑ j ∈ range b.dof, |tau j| with hRd
  have hR : 0 ≤ R := sum_nonneg fun _ _ => abs_nonneg _
  set ρ := fun k => tau k - B.fresh.idSpec (fun _ => 0) fext o.cc o.gravity k with hρ
  have hrow : ∀ k < b.dof, ∑ j ∈ range b.dof, b1.inertia.1 k j * a j = ρ k := by
    intro k hk
    have := fd_solves r hM (hD.form r) tau fext o k (by rw [hn]; exact hk)
    unfold Sys.fdRhs at this
    simp only [ho, Bool.false_eq_true, if_false, hn] at this
    refine Eq.trans (sum_congr rfl fun j hj => ?_) this
    rw [inertia_entry r1 hM1 k j (by rw [hn1]; exact hk) (by rw [hn1]; exact mem_range.1 hj), hf, hf1]
    rfl
  have hform := (hm q b1 h1 a).1
  have hre : ∑ k ∈ range b.dof, a k * ∑ j ∈ range b.dof, b1.inertia.1 k j * a j =
      ∑ k ∈ range b.dof, a k * ρ k := sum_congr rfl fun k hk => by rw [hrow k (mem_range.1 hk)]
  rw [hre] at hform
  -- the accelerations are bounded by the right-hand sides
  set P := ∑ k ∈ range b.dof, |ρ k| with hP
  have hP0 : 0 ≤ P := sum_nonneg fun _ _ => abs_nonneg _
  have hmax : ∃ l ∈ range b.dof, ∀ k ∈ range b.dof, |a k| ≤ |a l| :=
    exists_max_image _ _ ⟨i, mem_range.2 hi⟩
  obtain ⟨l, hl, hmx⟩ := hmax
  have u1 : ∑ k ∈ range b.dof, a k * ρ k ≤ |a l| * P := by
    rw [hP, mul_sum]
    refine sum_le_sum fun k hk => (le_abs_self _).trans ?_
    rw [abs_mul]
    exact mul_le_mul_of_nonneg_right (hmx k hk) (abs_nonneg _)
  have u2 : |a l| ^ 2 ≤ ∑ k ∈ range b.dof, a k ^ 2 := by
    rw [sq_abs]
    exact single_le_sum (f := fun k => a k ^ 2) (fun k _ => sq_nonneg _) hl
  have u3 : m * |a l| ≤ P := by
    by_contra hlt
    rw [not_le] at hlt
    have hpos : 0 < |a l| := by
      by_contra h0
      have : |a l| = 0 := le_antisymm (not_lt.1 h0) (abs_nonneg _)
      rw [this, mul_zero] at hlt
      linarith
    nlinarith [mul_lt_mul_of_pos_right hlt hpos, mul_le_mul_of_nonneg_left u2 m0.le]
  have u4 : P ≤ R + b.dof * (K * (1 + S)) := by
    have : ∀ k ∈ range b.dof, |ρ k| ≤ |tau k| + K * (1 + S) := fun k hk =>
      (abs_sub _ _).trans (add_le_add le_rfl (hK q dq b1 B h1 h2 o.cc o.gravity k (mem_range.1 hk)))
    refine (sum_le_sum this).trans ?_
    rw [sum_add_distrib, sum_const, card_range, nsmul_eq_mul]
  have u5 := hmx i (mem_range.2 hi)
  rw [div_mul_eq_mul_div, le_div_iff₀ m0]
  have u6 : 0 ≤ (b.dof : ℝ) * K := by positivity
  nlinarith [mul_le_mul_of_nonneg_left u5 m0.le, mul_nonneg u6 hR]

theorem setQ_setG {q : List ℝ} {b1 : Body} (g : Vec3) (h : b.setQ q = .ok b1) :
    (b.setG g).setQ q = .ok (b1.setG g) := by
  unfold setQ at h ⊢
  have e : (b.setG g).dof = b.dof := rfl
  have e' : (b.setG g).q = b.q := rfl
  rw [e, e']
  split at h
  · cases h
  · next h1 =>
    rw [if_neg h1]
    split at h
    · next h2 => rw [if_pos h2]; cases h; rfl
    · next h2 => rw [if_neg h2]; cases h; rfl

theorem setDq_setG {q : List ℝ} {b1 : Body} (g : Vec3) (h : b.setDq q = .ok b1) :
    (b.setG g).setDq q = .ok (b1.setG g) := by
  unfold setDq at h ⊢
  have e : (b.setG g).dof = b.dof := rfl
  have e' : (b.setG g).dq = b.dq := rfl
  rw [e, e']
  split at h
  · cases h
  · next h1 =>
    rw [if_neg h1]
    split at h
    · next h2 => rw [if_pos h2]; cases h; rfl
    · next h2 => rw [if_neg h2]; cases h; rfl

/-- C149: the same for `ForwardDynamicsAba`, wherever the base is. -/
theorem C149_aba (h : Reach E b d) (hd : b.Definite) (ht : ∀ i < b.dof,
      (b.rb i).joint.type = .rx ∨ (b.rb i).joint.type = .ry ∨ (b.rb i).joint.type = .rz) (fext : FExt) :
    ∃ C, ∀ q dq b1 B, b.setQ q = .ok b1 → b1.setDq dq = .ok B → ∀ (tau : ℕ → ℝ) (o : FDOpts),
      o.friction = false → ∀ i < b.dof, |(B.forwardDynamicsAba tau fext o).1 i| ≤
        C * (1 + ∑ j ∈ range b.dof, |tau j| + ∑ j ∈ range b.dof, dq.getD j 0 ^ 2) := by
  have hk : Reach E (b.setG (b.T0.R.mulVec b.g)) _ := h.step (.setG _) trivial rfl
  have hdg : (b.setG (b.T0.R.mulVec b.g)).Definite := ⟨hd.mass, hd.symm, hd.pd, hd.load, hd.axes⟩
  obtain ⟨C, hC⟩ := C149_forward hk hdg ht fext
  refine ⟨C, fun q dq b1 B h1 h2 tau o ho i hi => ?_⟩
  obtain ⟨hs, hn, -, -, -, d', r⟩ := h.after_set ⟨b1, h1, h2⟩
  have hD := hs.definite hd
  rw [C30_aba_base r (hD.massive r.inv.tree) (hD.form r) tau fext o ho i (by rw [hn]; exact hi), hs.T0, hs.g]
  exact hC q dq _ _ (setQ_setG _ h1) (setDq_setG _ h2) tau o ho i hi

/-- C149: and one that bounds the torques that accelerations need (no friction). -/
theorem C149_inverse (h : Reach E b d) (hd : b.Definite) (ht : ∀ i < b.dof,
      (b.rb i).joint.type = .rx ∨ (b.rb i).joint.type = .ry ∨ (b.rb i).joint.type = .rz) (fext : FExt) :
    ∃ C, ∀ q dq b1 B, b.setQ q = .ok b1 → b1.setDq dq = .ok B → ∀ (ddq : ℕ → ℝ) (o : IDOpts),
      o.friction = false → ∀ i < b.dof, |(B.inverseDynamics ddq fext o).1 i| ≤
        C * (1 + ∑ j ∈ range b.dof, |ddq j| + ∑ j ∈ range b.dof, dq.getD j 0 ^ 2) := by
  choose N hN0 hN using fun p : Fin b.dof × Fin b.dof => torus_bound
    (G := fun y : State b.dof => b.massAt y.1 p.1 p.2) (massAt_smooth h.inv p.1 p.2).continuous
    (fun y m => by
      unfold massAt
      rw [Prod.fst_add]
      simp only
      rw [sysAt_turns ht]) 0
  obtain ⟨K, K0, hK⟩ := bias_bound h ht fext
  refine ⟨∑ p, N p + K, fun q dq b1 B h1 h2 ddq o ho i hi => ?_⟩
  obtain ⟨hs, hn, hf, -, -, d', r⟩ := h.after_set ⟨b1, h1, h2⟩
  have hD := hs.definite hd
  have hM := hD.massive r.inv.tree
  have hS : 0 ≤ ∑ j ∈ range b.dof, dq.getD j 0 ^ 2 := sum_nonneg fun _ _ => sq_nonneg _
  have hR : 0 ≤ ∑ j ∈ range b.dof, |ddq j| := sum_nonneg fun _ _ => abs_nonneg _
  have hNs : 0 ≤ ∑ p, N p := sum_nonneg fun p _ => hN0 p
  rw [inverseDynamics_val r.inv hM.symI (hM.posMass r.inv.tree) _ _ _ i (by rw [hn]; exact hi)]
  unfold Sys.addFriction
  simp only [ho, Bool.false_eq_true, if_false]
  rw [idSpec_split, hn]
  have u1 : |∑ j ∈ range b.dof, B.fresh.massSpec i j * ddq j| ≤
      (∑ p, N p) * ∑ j ∈ range b.dof, |ddq j| := by
    refine (abs_sum_le_sum_abs _ _).trans ?_
    rw [mul_sum]
    refine sum_le_sum fun j hj => ?_
    rw [abs_mul]
    refine mul_le_mul_of_nonneg_right ?_ (abs_nonneg _)
    have := hN (⟨i, hi⟩, ⟨j, mem_range.1 hj⟩) (fun i : Fin b.dof => q.getD i 0, 0) (by simp)
    have e : B.fresh.massSpec i j =
        b.massAt (fun i : Fin b.dof => q.getD i 0) ⟨i, hi⟩ ⟨j, mem_range.1 hj⟩ := by
      rw [hf, pad_getD (setQ_length h1)]; rfl
    rw [e]
    exact this.trans (single_le_sum (fun p _ => hN0 p) (mem_univ _))
  have u2 := hK q dq b1 B h1 h2 o.cc o.gravity i hi
  refine (abs_add_le _ _).trans ((add_le_add u1 u2).trans ?_)
  nlinarith [mul_nonneg hNs hS, mul_nonneg K0 hR]

/-- The inertia of the turntable with its slider `r` metres out. -/
theorem polar_out (r : ℝ) (w : ℕ → ℝ) :
    (polar.sysAt (fun i => [0, r].getD i 0) w).massSpec 0 0 = 2 + r ^ 2 := by
  set σ := polar.sysAt (fun i => [0, r].getD i 0) w with hσ
  have a01 : Anc σ.par 0 1 := .step (p := 0) rfl .refl
  have t0 : σ.Tw 0 = 1 := by
    show (1 : Iso) * ((1 : Iso) * JType.rz.Tjoint 0) = 1
    rw [one_mul, one_mul]
    ext <;> simp [JType.Tjoint]
  have t1 : σ.Tw 1 = ⟨1, ⟨r, 0, 0⟩⟩ := by
    show ((1 : Iso) * ((1 : Iso) * JType.rz.Tjoint 0)) * ((1 : Iso) * JType.px.Tjoint r) = _
    rw [one_mul, one_mul, one_mul]
    ext <;> simp [JType.Tjoint, Mat3.mulVec]
  have s0 : σ.S 0 = ⟨0, ⟨0, 0, 1⟩⟩ := rfl
  have x0 : σ.axis 0 = ⟨0, ⟨0, 0, 1⟩⟩ := by
    unfold Sys.axis
    rw [t0, s0]
    ext <;> simp [Iso.actM, Mat3.mulVec, Vec3.cross]
  have j00 : σ.Jw 0 0 = ⟨0, ⟨0, 0, 1⟩⟩ := by unfold Sys.Jw; rw [if_pos .refl, x0]
  have j10 : σ.Jw 1 0 = ⟨0, ⟨0, 0, 1⟩⟩ := by unfold Sys.Jw; rw [if_pos a01, x0]
  have n2 : σ.n = 2 := rfl
  have i0 : σ.Itot 0 = ball := rfl
  have i1 : σ.Itot 1 = ball := rfl
  unfold Sys.massSpec
  rw [n2, sum_range_succ, sum_range_one]
  rw [j00, j10]
  unfold Sys.Iw
  rw [t0, t1, i0, i1]
  simp [Iso.actF, Iso.actM, Iso.inv, Motion.dot, Mat3.mulVec, Mat3.T, Vec3.dot, Inertia.app, ball,
    Vec3.cross]
  ring

/-- C149: a joint that slides is enough for there to be no bound. -/
theorem C149_slides (E : Ext) : ∃ (b : Body) (d : Bool), Reach E b d ∧ b.Definite ∧ b.dof = 2 ∧
    (b.rb 0).joint.type = .rz ∧ (b.rb 1).joint.type = .px ∧
    ∀ M : ℝ, ∃ q B, b.setQ q = .ok B ∧ M < B.inertia.1 0 0 := by
  obtain ⟨d, h⟩ := polar_reach E
  refine ⟨polar, d, h, polar_definite, rfl, rfl, rfl, fun M => ?_⟩
  obtain ⟨B, hB, -⟩ := setQ_total (b := polar) (q := [0, |M| + 1]) rfl
  refine ⟨_, B, hB, ?_⟩
  obtain ⟨hs, hn, hf, _, r⟩ := h.after_setQ hB
  rw [inertia_entry r ((hs.definite polar_definite).massive r.inv.tree) 0 0 (by rw [hn]; decide)
    (by rw [hn]; decide), hf, polar_out]
  nlinarith [le_abs_self M, abs_nonneg M]

/-- A pendulum meets the hypotheses of the bounds. -/
example (E : Ext) : ∃ d, Reach E creak d ∧ creak.Definite ∧ creak.dof = 1 ∧
    ∀ i < creak.dof, (creak.rb i).joint.type = .rx ∨ (creak.rb i).joint.type = .ry ∨
      (creak.rb i).joint.type = .rz := by
  obtain ⟨d, h⟩ := creak_reach E
  have h0 : ∀ k < creak.dof, k = 0 := fun k hk => Nat.lt_one_iff.1 hk
  exact ⟨d, h, creak_definite, rfl, fun i hi => .inl (by rw [h0 i hi]; rfl)⟩

end SpatialDyn
