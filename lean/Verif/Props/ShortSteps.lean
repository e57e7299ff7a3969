import Verif.Lemmas.Guess
import Verif.Props.DiscreteConverge
import Verif.Props.App
import Verif.Model.Options
import Mathlib.Analysis.ODE.ExistUnique

/-!
# C132: the variational integrator with a fixed tolerance and short steps

The root finding of `discrete::Integrate` starts from a guess and stops as soon as the defect of the
candidate is below `variational_epsilon`, an impulse that does not depend on the step.  The defect of
the guess decreases with the step, so that for short steps the guess itself is taken; and the guesses
do not follow the motion of the body.  The velocity that the guess starts from is the central
difference over the last two steps, half a step late; taking the guess at every step moves the body
with two thirds of its accelerations.
-/

namespace SpatialDyn
open Set Body OneStep
open scoped ContDiff

variable {E : Ext} {b : Body} {d : Bool}

theorem movesBy_solves (h : Reach E b d) (hd : b.Definite) {tau : ℕ → ℝ} {fext : FExt} {oi : IntOpts}
    (hf : oi.friction = false) (hcc : oi.cc = true) (hab : oi.aba = false) {T : ℝ}
    {q dq : ℝ → List ℝ} (hM : b.MovesBy (2 / 3) E tau fext oi T q dq) :
    Solves (Guess.slow (b.accAt b.g tau fext true oi.gravity)) T (stateOf b q dq) := by
  have hm := hd.massive h.inv.tree
  intro t ht
  obtain ⟨b1, B, h1, h2, h3⟩ := hM t ht
  refine (hasDerivWithinAt_pi.2 fun i : Fin b.dof => (h3 i i.2).1).prodMk
    (hasDerivWithinAt_pi.2 fun i : Fin b.dof => ?_)
  have h4 := (h3 i i.2).2
  rw [field_of_set h hm cache0_clear tau fext oi h1 h2 i, field_val h hd cache0_clear tau fext oi hf,
    hcc, hab] at h4
  exact h4

theorem solves_movesBy (h : Reach E b d) (hd : b.Definite) {tau : ℕ → ℝ} {fext : FExt} {oi : IntOpts}
    (hf : oi.friction = false) (hcc : oi.cc = true) (hab : oi.aba = false) {T : ℝ}
    {Y : ℝ → State b.dof} (hY : Solves (Guess.slow (b.accAt b.g tau fext true oi.gravity)) T Y) :
    b.MovesBy (2 / 3) E tau fext oi T (fun t => List.ofFn (Y t).1) (fun t => List.ofFn (Y t).2) := by
  have hm := hd.massive h.inv.tree
  intro t ht
  obtain ⟨b1, h1, e1⟩ := setQ_total (b := b) (q := List.ofFn (Y t).1) (by simp)
  obtain ⟨B, h2, e2⟩ := setDq_total (b := b1) (q := List.ofFn (Y t).2) (by rw [e1]; simp)
  refine ⟨b1, B, h1, h2, fun i hi => ?_⟩
  have hs := hY t ht
  have eY : ((fun i => (List.ofFn (Y t).1).getD i 0, fun i => (List.ofFn (Y t).2).getD i 0) :
      State b.dof) = Y t := Prod.ext (funext fun i => getD_ofFn _ i) (funext fun i => getD_ofFn _ i)
  constructor
  · have := hasDerivWithinAt_pi.1 ((hasFDerivAt_fst (𝕜 := ℝ)).comp_hasDerivWithinAt t hs) ⟨i, hi⟩
    have e : (fun r => (List.ofFn (Y r).1).getD i 0) = fun r => (Y r).1 ⟨i, hi⟩ :=
      funext fun r => getD_ofFn _ ⟨i, hi⟩
    rw [e, getD_ofFn (Y t).2 ⟨i, hi⟩]
    exact this
  · have := hasDerivWithinAt_pi.1 ((hasFDerivAt_snd (𝕜 := ℝ)).comp_hasDerivWithinAt t hs) ⟨i, hi⟩
    have e : (fun r => (List.ofFn (Y r).2).getD i 0) = fun r => (Y r).2 ⟨i, hi⟩ :=
      funext fun r => getD_ofFn _ ⟨i, hi⟩
    rw [e, field_of_set h hm cache0_clear tau fext oi h1 h2 ⟨i, hi⟩, eY,
      field_val h hd cache0_clear tau fext oi hf, hcc, hab]
    exact this

/-- C132 (partial: this is what the code does instead, see `C132_violated`): whatever the tolerance
and the number of iterations, for all steps short enough `discrete::Integrate` called repeatedly
follows the curve along which the body has two thirds of the accelerations that forward dynamics
answers. -/
theorem C132_follows_partial (h : DReach E b d none) (hd : b.Definite) (ha : b.AxesOK)
    (hl : ∀ k < b.dof, b.load k = none) (hE : E.NearLog2) (tau : ℕ → ℝ) (fext : FExt) (oi : IntOpts)
    (hf : oi.friction = false) (hcc : oi.cc = true) (hab : oi.aba = false) {T : ℝ}
    {q dq : ℝ → List ℝ} (hM : b.MovesBy (2 / 3) E tau fext oi T q dq) (hq : q 0 = b.q)
    (hdq : dq 0 = b.dq) {o : DIntOpts} (hg : o.gravity = oi.gravity) (he : 0 < o.epsV)
    (ho : 0 < o.maxIter) :
    ∃ t0 > 0, ∃ C, ∀ dt, 0 < dt → dt < t0 → ∀ k : ℕ, k * dt ≤ T →
      ∃ b', dsteps E tau dt fext o k b = .ok b' ∧ StateOnly b b' ∧ ∀ i < b.dof,
        |b'.pos i - (q (k * dt)).getD i 0| ≤ C * dt ∧
          |b'.vel i - (dq (k * dt)).getD i 0| ≤ C * dt := by
  by_cases hT : 0 ≤ T
  swap
  · refine ⟨1, one_pos, 0, fun dt h1 _ k hk => absurd hk ?_⟩
    have : 0 ≤ (k : ℝ) * dt := by positivity
    linarith
  have hS := movesBy_solves h.reach hd hf hcc hab hM
  rw [← hg] at hS
  obtain ⟨t0, ht0, C, H⟩ := guess_follow h hd ha hl hE tau fext he ho hT hS
    (by unfold stateOf Body.state; rw [hq, hdq])
  refine ⟨t0, ht0, C, fun dt h0 hdt k hk => ?_⟩
  obtain ⟨b', e1, e2, e3⟩ := H dt h0 hdt k hk
  exact ⟨b', e1, e2, fun i hi => e3 ⟨i, hi⟩⟩

/-- C132: there is such a curve, at least for a while. -/
theorem C132_exists_partial (h : Reach E b d) (hd : b.Definite) (tau : ℕ → ℝ) (fext : FExt) (oi : IntOpts)
    (hf : oi.friction = false) (hcc : oi.cc = true) (hab : oi.aba = false) :
    ∃ T > 0, ∃ q dq : ℝ → List ℝ, q 0 = b.q ∧ dq 0 = b.dq ∧
      b.MovesBy (2 / 3) E tau fext oi T q dq := by
  have hs := Guess.slow_smooth (accAt_smooth h hd b.g tau fext true oi.gravity)
  obtain ⟨Y, h0, ε, hε, hY⟩ :=
    ContDiffAt.exists_forall_mem_closedBall_exists_eq_forall_mem_Ioo_hasDerivAt₀
      ((hs.of_le (by simp)).contDiffAt (x := b.state)) 0
  have e1 : List.ofFn (Y 0).1 = b.q := by rw [h0]; exact stateOf_ofFn h.inv.tree.lq
  have e2 : List.ofFn (Y 0).2 = b.dq := by rw [h0]; exact stateOf_ofFn h.inv.tree.ldq
  refine ⟨ε / 2, by positivity, _, _, e1, e2, solves_movesBy h hd hf hcc hab (Y := Y) fun t ht => ?_⟩
  exact (hY t ⟨by linarith [ht.1], by linarith [ht.2]⟩).hasDerivWithinAt

/-- Negation of C132, for every body some joint of which accelerates: whatever the tolerance and the
number of iterations, the velocity of that joint at the time `t` is wrong by at least `c` for all
steps short enough.  `t` and `c` depend on the body and its torques only. -/
theorem C132_violated (h : DReach E b d none) (hd : b.Definite) (ha : b.AxesOK)
    (hl : ∀ k < b.dof, b.load k = none) (hE : E.NearLog2) (tau : ℕ → ℝ) (fext : FExt) (oi : IntOpts)
    (hf : oi.friction = false) (hcc : oi.cc = true) (hab : oi.aba = false) {T : ℝ} (hT : 0 < T)
    {q dq : ℝ → List ℝ} (hM : b.Moves E tau fext oi T q dq) (hq : q 0 = b.q) (hdq : dq 0 = b.dq)
    {i : ℕ} (hi : i < b.dof) (hacc : b.acceleration E tau fext oi i ≠ 0) :
    ∃ t > 0, t ≤ T ∧ ∃ c > 0, ∀ o : DIntOpts, o.gravity = oi.gravity → 0 < o.epsV → 0 < o.maxIter →
      ∃ t0 > 0, ∀ dt, 0 < dt → dt < t0 → ∀ k : ℕ, k * dt ≤ t → t < (k + 1) * dt →
      ∃ b', dsteps E tau dt fext o k b = .ok b' ∧
        c ≤ |b'.vel i - (dq (k * dt)).getD i 0| := by
  have hr := h.reach
  have hm := hd.massive hr.inv.tree
  obtain ⟨T', hT', q', dq', hq', hdq', hM'⟩ := C132_exists_partial hr hd tau fext oi hf hcc hab
  -- both curves start with the velocities of the body; their accelerations differ
  set S := min T T' with hS
  have hS0 : 0 < S := lt_min hT hT'
  have sub1 : Icc 0 S ⊆ Icc 0 T := Icc_subset_Icc_right (min_le_left _ _)
  have sub2 : Icc 0 S ⊆ Icc 0 T' := Icc_subset_Icc_right (min_le_right _ _)
  have est : ((fun i => (q 0).getD i 0, fun i => (dq 0).getD i 0) : State b.dof) = b.state := by
    rw [hq, hdq]; rfl
  have est' : ((fun i => (q' 0).getD i 0, fun i => (dq' 0).getD i 0) : State b.dof) = b.state := by
    rw [hq', hdq']; rfl
  set a := (b.field E cache0 tau fext oi b.state).2 ⟨i, hi⟩ with hadef
  have ha0 : a ≠ 0 := by
    have e := ((atState_self hr.inv).accel hr.inv hm.symI (hm.posMass hr.inv.tree) cache0_clear tau
      fext oi).1 ⟨i, hi⟩
    rw [hadef, ← e]
    refine fun hz => hacc ?_
    rw [← hz]
    unfold Body.acceleration Body.accel
    split <;> rfl
  have d1 : HasDerivWithinAt (fun r => (dq r).getD i 0) a (Icc 0 S) 0 := by
    obtain ⟨b1, B, h1, h2, h3⟩ := hM 0 ⟨le_rfl, hT.le⟩
    have h4 := (h3 i hi).2
    rw [field_of_set hr hm cache0_clear tau fext oi h1 h2 ⟨i, hi⟩, est] at h4
    exact h4.mono sub1
  have d2 : HasDerivWithinAt (fun r => (dq' r).getD i 0) (2 / 3 * a) (Icc 0 S) 0 := by
    obtain ⟨b1, B, h1, h2, h3⟩ := hM' 0 ⟨le_rfl, hT'.le⟩
    have h4 := (h3 i hi).2
    rw [field_of_set hr hm cache0_clear tau fext oi h1 h2 ⟨i, hi⟩, est'] at h4
    exact h4.mono sub2
  have d3 := d1.sub d2
  have f0 : (dq 0).getD i 0 - (dq' 0).getD i 0 = 0 := by rw [hdq, hdq', sub_self]
  -- the velocities move apart
  have hap : 0 < |a| := abs_pos.2 ha0
  have h5 := hasDerivWithinAt_iff_isLittleO.1 d3
  have h6 := (h5.def (c := |a| / 6) (by positivity))
  obtain ⟨ε, hε, hball⟩ := Metric.mem_nhdsWithin_iff.1 h6
  set t1 := min S (ε / 2) with ht1
  have ht10 : 0 < t1 := lt_min hS0 (by positivity)
  have apart : ∀ r, 0 ≤ r → r ≤ t1 → |a| / 6 * r ≤ |(dq r).getD i 0 - (dq' r).getD i 0| := by
    intro r hr0 hr1
    have h7 := hball ⟨by
      rw [Metric.mem_ball, Real.dist_eq, sub_zero, abs_of_nonneg hr0]
      exact (hr1.trans (min_le_right _ _)).trans_lt (by linarith), hr0, hr1.trans (min_le_left _ _)⟩
    simp only [mem_setOf_eq, Pi.sub_apply, f0, sub_zero, smul_eq_mul, Real.norm_eq_abs,
      abs_of_nonneg hr0] at h7
    have h8 : |r * (a - 2 / 3 * a)| = |a| / 3 * r := by
      rw [show r * (a - 2 / 3 * a) = r * (a / 3) by ring, abs_mul, abs_of_nonneg hr0, abs_div]
      norm_num
      ring
    have h9 := abs_sub_abs_le_abs_sub (r * (a - 2 / 3 * a)) ((dq r).getD i 0 - (dq' r).getD i 0)
    rw [abs_sub_comm (r * (a - 2 / 3 * a)), h8] at h9
    linarith
  refine ⟨t1, ht10, (min_le_left _ _).trans (min_le_left _ _), |a| * t1 / 24, by positivity,
    fun o hg he ho => ?_⟩
  have hM'' : b.MovesBy (2 / 3) E tau fext oi T' q' dq' := hM'
  obtain ⟨t0, ht0, C, H⟩ := C132_follows_partial h hd ha hl hE tau fext oi hf hcc hab hM'' hq' hdq' hg
    he ho
  refine ⟨min t0 (min (t1 / 2) (|a| * t1 / (24 * (|C| + 1)))), lt_min ht0 (lt_min (by positivity)
    (by positivity)), fun dt h0 hdt k hk hk' => ?_⟩
  have l1 : dt < t0 := hdt.trans_le (min_le_left _ _)
  have l2 : dt ≤ t1 / 2 := hdt.le.trans ((min_le_right _ _).trans (min_le_left _ _))
  have l3 : C * dt ≤ |a| * t1 / 24 := by
    have l4 := hdt.le.trans ((min_le_right _ _).trans (min_le_right _ _))
    rw [le_div_iff₀ (by positivity)] at l4
    have l5 : C * dt ≤ |C| * dt := mul_le_mul_of_nonneg_right (le_abs_self C) h0.le
    linarith
  have hk0 : 0 ≤ (k : ℝ) * dt := by positivity
  obtain ⟨b', e1, -, e3⟩ := H dt h0 l1 k (hk.trans ((min_le_left _ _).trans (min_le_right _ _)))
  refine ⟨b', e1, ?_⟩
  have g1 := (e3 i hi).2
  have g2 := apart (k * dt) hk0 hk
  have g3 : t1 / 2 ≤ k * dt := by linarith
  have g4 : |a| / 6 * (t1 / 2) ≤ |a| / 6 * (k * dt) := mul_le_mul_of_nonneg_left g3 (by positivity)
  have g5 := abs_sub_abs_le_abs_sub ((dq (k * dt)).getD i 0 - (dq' (k * dt)).getD i 0)
    (b'.vel i - (dq' (k * dt)).getD i 0)
  rw [sub_sub_sub_cancel_right, abs_sub_comm ((dq (k * dt)).getD i 0) (b'.vel i)] at g5
  linarith

/-- The hypotheses hold for a cart of unit mass pushed by a unit force, with the default tolerance and
number of iterations. -/
example : ∃ (q dq : ℝ → List ℝ) (oi : IntOpts) (o : DIntOpts), DReach extN (cart cache0) false none ∧
    (cart cache0).Definite ∧ (cart cache0).AxesOK ∧ (∀ k < (cart cache0).dof, (cart cache0).load k = none) ∧
    extN.NearLog2 ∧ oi.friction = false ∧ oi.cc = true ∧ oi.aba = false ∧
    (cart cache0).Moves extN (fun _ => 1) (fun _ => none) oi 1 q dq ∧ q 0 = (cart cache0).q ∧
    dq 0 = (cart cache0).dq ∧ 0 < (cart cache0).dof ∧
    (cart cache0).acceleration extN (fun _ => 1) (fun _ => none) oi 0 = 1 ∧
    o.gravity = oi.gravity ∧ o.epsV = 1e-8 ∧ o.maxIter = 100 := by
  have hr := cart_reach extN cache0
  have hD := cart_definite cache0
  have hx : (cart cache0).AxesOK := by
    intro k hk
    have hk : k < 1 := hk
    interval_cases k
    rfl
  obtain ⟨q, dq, e1, e2, hM⟩ := C78_exists hr.reach hD hx (fun _ => 1)
    (fun _ => none) ⟨false, true, false, false, .euler, false, 0.01⟩ rfl rfl (q0 := (cart cache0).q)
    (dq0 := (cart cache0).dq) rfl rfl
  refine ⟨q, dq, ⟨false, true, false, false, .euler, false, 0.01⟩, DIntOpts.make false, hr, hD, hx,
    fun _ _ => rfl, extN_near2, rfl, rfl, rfl, hM 1, e1, e2, Nat.one_pos, ?_, rfl, rfl, rfl⟩
  exact (cart_rail cache0).fd rfl hr.reach (fun _ => 1)

end SpatialDyn
