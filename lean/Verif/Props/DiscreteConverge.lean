import Verif.Lemmas.Track

/-!
# C113: `discrete::Integrate` follows the motions of the body

`Moves` (`Verif.Spec.Flow`) says what a motion is, through the accelerations that
`ForwardDynamics` answers; `dsteps` (`Verif.Spec.DiscreteFlow`) is `discrete::Integrate` called
repeatedly.  The variational integrator has its own equations, built from momenta of displacements
between configurations; that their solutions are near the motions of the body is what is shown here.
-/

namespace SpatialDyn
open Set Body OneStep
open scoped ContDiff

variable {E : Ext} {b : Body} {d : Bool}

/-- The steps of the variational integrator along a motion of the body, with the bounds they keep. -/
theorem discrete_track (h : DReach E b d none) (hd : b.Definite) (ha : b.AxesOK)
    (hl : ∀ k < b.dof, b.load k = none) (hE : E.NearLog2) (tau : ℕ → ℝ) (fext : FExt) (oi : IntOpts)
    (hf : oi.friction = false) (hcc : oi.cc = true) (hab : oi.aba = false) {T : ℝ}
    {q dq : ℝ → List ℝ} (hM : b.Moves E tau fext oi T q dq) (hq : q 0 = b.q) (hdq : dq 0 = b.dq) :
    ∃ t0 > 0, ∃ κ > 0, ∃ C M : ℝ, ∀ eps > 0, ∃ N : ℕ, ∀ (dt : ℝ) (o : DIntOpts), 0 < dt → dt < t0 →
      eps ≤ κ * dt → o.gravity = oi.gravity → o.epsV = eps → N ≤ o.maxIter →
      ∀ k : ℕ, k * dt ≤ T → ∃ (B : Body) (dB : Bool) (p : Prev),
        dsteps E tau dt fext o k b = .ok B ∧ DReach E B dB p ∧ StateOnly b B ∧ B.Within p dt M ∧
        (∀ n A, k = n + 1 → dsteps E tau dt fext o n b = .ok A → p = some (dt, A.pos)) ∧
        ∀ i < b.dof, |B.pos i - (q (k * dt)).getD i 0| ≤ C * (dt + eps / dt) ∧
          |B.vel i - (dq (k * dt)).getD i 0| ≤ C * (dt + eps / dt) := by
  by_cases hT : 0 ≤ T
  swap
  · refine ⟨1, one_pos, 1, one_pos, 0, 0, fun eps _ => ⟨0, fun dt o h1 _ _ _ _ _ k hk => absurd hk ?_⟩⟩
    have : 0 ≤ (k : ℝ) * dt := by positivity
    linarith
  have hr := h.reach
  have hm := hd.massive hr.inv.tree
  obtain ⟨-, hS⟩ := (moves_iff hr hm cache0_clear tau fext oi).1 hM
  set F := b.field E cache0 tau fext oi with hFdef
  set Y := stateOf b q dq with hYdef
  have hF := field_smooth hr hd cache0_clear tau fext oi hf
  have hFv : ∀ y, F y = (y.2, b.accAt b.g tau fext true oi.gravity y) := fun y => by
    rw [hFdef, field_val hr hd cache0_clear tau fext oi hf, hcc, hab]
    rfl
  obtain ⟨R, L, C0, hR0, hL0, hC0, hR, hstep⟩ := track_step hF hS
  obtain ⟨t1, ht1, ht11, D, hD, HD⟩ := discrete_euler hr hd ha hl hE tau fext oi.gravity (R + 1)
    (by positivity)
  set K := T * Real.exp (L * T) * (C0 + D) with hK
  have hK0 : 0 ≤ K := by positivity
  refine ⟨min t1 (1 / (2 * K + 1)), lt_min ht1 (by positivity), 1 / (2 * K + 1), by positivity,
    K + D, R + 1, fun eps heps => ?_⟩
  obtain ⟨N, hN⟩ := HD eps heps
  refine ⟨N, fun dt o h0 hdt hκ hg he hmax => ?_⟩
  have hdt1 : dt ≤ 1 := (hdt.le.trans (min_le_left _ _)).trans ht11
  have hsmall : K * (dt + eps / dt) ≤ 1 := by
    have e1 : dt ≤ 1 / (2 * K + 1) := hdt.le.trans (min_le_right _ _)
    have e2 : eps / dt ≤ 1 / (2 * K + 1) := by rwa [div_le_iff₀ h0]
    have e3 : K * (1 / (2 * K + 1) + 1 / (2 * K + 1)) ≤ 1 := by
      rw [← add_div, mul_div_assoc', div_le_one (by positivity)]; linarith
    exact (mul_le_mul_of_nonneg_left (add_le_add e1 e2) hK0).trans e3
  set σ := C0 * dt ^ 2 + D * (eps + dt ^ 2) with hσ
  have hσ0 : 0 ≤ σ := by positivity
  have hLd : 1 ≤ 1 + L * dt := by nlinarith
  have hsum : ∀ k : ℕ, k * dt ≤ T → k * (1 + L * dt) ^ k * σ ≤ K * (dt + eps / dt) := by
    intro k hk
    refine (track_sum hL0 h0 hk hσ0).trans ?_
    have e1 : σ / dt ≤ (C0 + D) * (dt + eps / dt) := by
      rw [div_le_iff₀ h0]
      have e2 : (C0 + D) * (dt + eps / dt) * dt = (C0 + D) * (dt ^ 2 + eps) := by
        field_simp
      rw [e2, hσ]
      nlinarith
    calc _ ≤ T * Real.exp (L * T) * ((C0 + D) * (dt + eps / dt)) :=
          mul_le_mul_of_nonneg_left e1 (by positivity)
      _ = _ := by rw [hK]; ring
  have hY0 : Y 0 = b.state := by rw [hYdef]; unfold stateOf Body.state; rw [hq, hdq]
  have near : ∀ z : State b.dof, ∀ t, t ∈ Icc 0 T → ‖z - Y t‖ ≤ 1 → ‖z‖ ≤ R + 1 := by
    intro z t ht hz
    have f1 := norm_add_le (z - Y t) (Y t)
    rw [sub_add_cancel] at f1
    linarith [hR t ht]
  -- the invariant of the steps
  have key : ∀ k : ℕ, k * dt ≤ T → ∃ (B : Body) (dB : Bool) (p : Prev),
      dsteps E tau dt fext o k b = .ok B ∧ DReach E B dB p ∧ StateOnly b B ∧
      ‖b.track B p dt - Y (k * dt)‖ ≤ k * (1 + L * dt) ^ k * σ ∧ (∀ i < b.dof, |B.vel i| ≤ R + 1) ∧
      (∀ i : Fin b.dof, |B.vel i - (b.track B p dt).2 i| ≤ D * (eps + dt)) ∧
      ∀ n A, k = n + 1 → dsteps E tau dt fext o n b = .ok A → p = some (dt, A.pos) := by
    intro k
    induction k with
    | zero =>
      intro _
      have e1 : b.track b none dt = b.state := by
        refine Prod.ext rfl (funext fun i => ?_)
        show dt⁻¹ * (b.pos i - (b.pos i - dt * b.vel i)) = b.vel i
        have := h0.ne'
        field_simp
        ring
      refine ⟨b, d, none, rfl, h, ⟨rfl, rfl, rfl, rfl, rfl, rfl, rfl, rfl, rfl⟩, ?_, fun i hi => ?_,
        fun i => ?_, fun n A hn => absurd hn (by omega)⟩
      · rw [e1, Nat.cast_zero, zero_mul, hY0, sub_self, norm_zero]; simp
      · have e2 := hR 0 ⟨le_rfl, hT⟩
        rw [hY0] at e2
        have e3 := (norm_le_pi_norm b.state.2 ⟨i, hi⟩).trans ((norm_snd_le _).trans e2)
        exact e3.trans (by linarith)
      · rw [e1]
        show |b.vel i - b.vel i| ≤ _
        rw [sub_self, abs_zero]; positivity
    | succ k ih =>
      intro hk
      have hcast : ((k + 1 : ℕ) : ℝ) * dt = k * dt + dt := by push_cast; ring
      have hkT : k * dt + dt ≤ T := by rw [← hcast]; exact hk
      have hk0 : 0 ≤ (k : ℝ) * dt := by positivity
      obtain ⟨B, dB, p, e1, e2, e3, e4, e5, -, -⟩ := ih (by linarith)
      have hz : ‖b.track B p dt‖ ≤ R + 1 := near _ _ ⟨hk0, by linarith⟩
        (e4.trans ((hsum k (by linarith)).trans hsmall))
      obtain ⟨B', f1, f2, f3, f4, f5, f6⟩ := hN B dB p dt o e2 e3 hz e5 h0
        (hdt.trans_le (min_le_left _ _)) hg he hmax
      have g1 := hstep dt (k * dt) h0 hdt1 hk0 hkT (b.track B p dt)
        (b.track B' (some (dt, B.pos)) dt) hz
      rw [show b.field E cache0 tau fext oi = F from rfl, hFv] at g1
      rw [← hcast] at g1
      have g2 : ‖b.track B' (some (dt, B.pos)) dt - Y ((k + 1 : ℕ) * dt)‖ ≤
          (k + 1 : ℕ) * (1 + L * dt) ^ (k + 1) * σ := by
        refine g1.trans ?_
        have g3 : C0 * dt ^ 2 + ‖b.track B' (some (dt, B.pos)) dt - (b.track B p dt +
            dt • ((b.track B p dt).2, b.accAt b.g tau fext true oi.gravity (b.track B p dt)))‖ ≤
            σ := add_le_add le_rfl f4
        have g4 : (1 + L * dt) * ‖b.track B p dt - Y (k * dt)‖ ≤
            (1 + L * dt) * (k * (1 + L * dt) ^ k * σ) :=
          mul_le_mul_of_nonneg_left e4 (by positivity)
        have g5 : σ ≤ (1 + L * dt) ^ (k + 1) * σ := le_mul_of_one_le_left hσ0 (one_le_pow₀ hLd)
        refine (add_le_add g4 (g3.trans g5)).trans (le_of_eq ?_)
        push_cast
        ring
      have hz' : ‖b.track B' (some (dt, B.pos)) dt‖ ≤ R + 1 :=
        near _ _ ⟨by positivity, hk⟩ (g2.trans ((hsum (k + 1) hk).trans hsmall))
      refine ⟨B', true, some (dt, B.pos), ?_, f3, f2, g2, fun i hi => ?_, fun i => ?_,
        fun n A hn hA => ?_⟩
      · show (match dsteps E tau dt fext o k b with
          | .ok b1 => b1.discreteIntegrate E tau dt fext o
          | .throws => .throws
          | .ub => .ub) = _
        rw [e1]
        exact f1
      · rw [f6 ⟨i, hi⟩]
        have k1 := (norm_le_pi_norm (b.track B p dt).2 ⟨i, hi⟩).trans ((norm_snd_le _).trans hz)
        have k2 := (norm_le_pi_norm (b.track B' (some (dt, B.pos)) dt).2 ⟨i, hi⟩).trans
          ((norm_snd_le _).trans hz')
        rw [Real.norm_eq_abs] at k1 k2
        rw [abs_le] at k1 k2 ⊢
        constructor <;> linarith [k1.1, k1.2, k2.1, k2.2]
      · rw [f6 i]
        have k1 := (norm_le_pi_norm ((b.track B' (some (dt, B.pos)) dt).2 -
          (b.track B p dt).2) i).trans f5
        rw [Real.norm_eq_abs, Pi.sub_apply, abs_le] at k1
        have k3 : 0 ≤ D * (eps + dt) := by positivity
        rw [abs_le]
        constructor <;> linarith [k1.1, k1.2]
      · obtain rfl : k = n := by omega
        rw [e1] at hA
        rw [Out.ok.inj hA]
  intro k hk
  obtain ⟨B, dB, p, e1, e2, e3, e4, e5, e6, ep⟩ := key k hk
  have hz : ‖b.track B p dt‖ ≤ R + 1 := near _ _ ⟨by positivity, hk⟩
    (e4.trans ((hsum k hk).trans hsmall))
  refine ⟨B, dB, p, e1, e2, e3, fun i hi => ?_, ep, fun i hi => ?_⟩
  · have hi : i < b.dof := e3.same_dof ▸ hi
    have k1 := (norm_le_pi_norm (b.track B p dt).1 ⟨i, hi⟩).trans ((norm_fst_le _).trans hz)
    have k2 := (norm_le_pi_norm (b.track B p dt).2 ⟨i, hi⟩).trans ((norm_snd_le _).trans hz)
    refine ⟨k1, e5 i hi, ?_⟩
    have k3 : |dt⁻¹ * (B.pos i - B.before p dt i)| ≤ R + 1 := k2
    rw [abs_mul, abs_of_pos (inv_pos.2 h0), inv_mul_le_iff₀ h0] at k3
    linarith
  have e7 := e4.trans (hsum k hk)
  have k1 := (norm_le_pi_norm (b.track B p dt - Y (k * dt)).1 ⟨i, hi⟩).trans
    ((norm_fst_le _).trans e7)
  have k2 := (norm_le_pi_norm (b.track B p dt - Y (k * dt)).2 ⟨i, hi⟩).trans
    ((norm_snd_le _).trans e7)
  have k3 : |B.pos i - (q (k * dt)).getD i 0| ≤ K * (dt + eps / dt) := k1
  have k4 : |(b.track B p dt).2 ⟨i, hi⟩ - (dq (k * dt)).getD i 0| ≤ K * (dt + eps / dt) := k2
  have w : 0 ≤ D * (dt + eps / dt) := by positivity
  have k5 : D * (eps + dt) ≤ D * (dt + eps / dt) := by
    refine mul_le_mul_of_nonneg_left ?_ hD
    have : eps ≤ eps / dt := by rw [le_div_iff₀ h0]; nlinarith
    linarith
  rw [add_mul]
  refine ⟨by linarith, ?_⟩
  have k6 := abs_add_le (B.vel i - (b.track B p dt).2 ⟨i, hi⟩)
    ((b.track B p dt).2 ⟨i, hi⟩ - (dq (k * dt)).getD i 0)
  rw [sub_add_sub_cancel] at k6
  have k7 := e6 ⟨i, hi⟩
  simp only at k7
  linarith

/-- C113: the state of a body has just been set (its history fixes no previous configuration); its
inertia is definite and it carries no loads.  Calling `discrete::Integrate` repeatedly with a step
shorter than `t0`, a tolerance small against the step and enough iterations follows the motion of the
body over any interval on which it exists, and never fails: all positions and velocities are within
`C (dt + epsV / dt)` of the motion at every step. -/
theorem C113_convergence (h : DReach E b d none) (hd : b.Definite) (ha : b.AxesOK)
    (hl : ∀ k < b.dof, b.load k = none) (hE : E.NearLog2) (tau : ℕ → ℝ) (fext : FExt) (oi : IntOpts)
    (hf : oi.friction = false) (hcc : oi.cc = true) (hab : oi.aba = false) {T : ℝ}
    {q dq : ℝ → List ℝ} (hM : b.Moves E tau fext oi T q dq) (hq : q 0 = b.q) (hdq : dq 0 = b.dq) :
    ∃ t0 > 0, ∃ κ > 0, ∃ C, ∀ eps > 0, ∃ N : ℕ, ∀ (dt : ℝ) (o : DIntOpts), 0 < dt → dt < t0 →
      eps ≤ κ * dt → o.gravity = oi.gravity → o.epsV = eps → N ≤ o.maxIter →
      ∀ k : ℕ, k * dt ≤ T → ∃ b', dsteps E tau dt fext o k b = .ok b' ∧ StateOnly b b' ∧
        ∀ i < b.dof, |b'.pos i - (q (k * dt)).getD i 0| ≤ C * (dt + eps / dt) ∧
          |b'.vel i - (dq (k * dt)).getD i 0| ≤ C * (dt + eps / dt) := by
  obtain ⟨t0, ht0, κ, hκ, C, M, H⟩ :=
    discrete_track h hd ha hl hE tau fext oi hf hcc hab hM hq hdq
  refine ⟨t0, ht0, κ, hκ, C, fun eps heps => ?_⟩
  obtain ⟨N, hN⟩ := H eps heps
  refine ⟨N, fun dt o h1 h2 h3 h4 h5 h6 k hk => ?_⟩
  obtain ⟨B, -, -, e1, -, e2, -, -, e3⟩ := hN dt o h1 h2 h3 h4 h5 h6 k hk
  exact ⟨B, e1, e2, e3⟩

/-- C113: with a tolerance of the order of the square of the step, the variational integrator is a
method of first order. -/
theorem C113_first_order (h : DReach E b d none) (hd : b.Definite) (ha : b.AxesOK)
    (hl : ∀ k < b.dof, b.load k = none) (hE : E.NearLog2) (tau : ℕ → ℝ) (fext : FExt) (oi : IntOpts)
    (hf : oi.friction = false) (hcc : oi.cc = true) (hab : oi.aba = false) {T : ℝ}
    {q dq : ℝ → List ℝ} (hM : b.Moves E tau fext oi T q dq) (hq : q 0 = b.q) (hdq : dq 0 = b.dq)
    {w : ℝ} (hw : 0 < w) :
    ∃ t0 > 0, ∃ C, ∀ dt, 0 < dt → dt < t0 → ∃ N : ℕ, ∀ o : DIntOpts, o.gravity = oi.gravity →
      o.epsV = w * dt ^ 2 → N ≤ o.maxIter → ∀ k : ℕ, k * dt ≤ T →
      ∃ b', dsteps E tau dt fext o k b = .ok b' ∧ StateOnly b b' ∧
        ∀ i < b.dof, |b'.pos i - (q (k * dt)).getD i 0| ≤ C * dt ∧
          |b'.vel i - (dq (k * dt)).getD i 0| ≤ C * dt := by
  obtain ⟨t0, ht0, κ, hκ, C, H⟩ :=
    C113_convergence h hd ha hl hE tau fext oi hf hcc hab hM hq hdq
  refine ⟨min t0 (κ / w), lt_min ht0 (by positivity), C * (1 + w), fun dt h1 h2 => ?_⟩
  obtain ⟨N, hN⟩ := H (w * dt ^ 2) (by positivity)
  refine ⟨N, fun o hg he hmax k hk => ?_⟩
  have e1 : w * dt ^ 2 ≤ κ * dt := by
    have := h2.trans_le (min_le_right _ _)
    rw [lt_div_iff₀ hw] at this
    nlinarith
  have e2 : C * (dt + w * dt ^ 2 / dt) = C * (1 + w) * dt := by
    have := h1.ne'
    field_simp
  have := hN dt o h1 (h2.trans_le (min_le_left _ _)) e1 hg he hmax k hk
  rwa [e2] at this

/-! ## Witness -/

theorem extN_near2 : extN.NearLog2 where
  toNearLog := extN_near
  log_second := ⟨1, one_pos, 0, fun T U _ _ _ _ => by
    show (T.twist - U.twist - (T.twist - U.twist)).size ≤ _
    rw [sub_self]
    simp [Motion.size, Vec3.size]⟩

/-- The hypotheses hold for the branching three-joint witness under gravity and torques, which has a
motion for all times (C78). -/
example : ∃ (d : Bool) (q dq : ℝ → List ℝ), DReach extN demo d none ∧ demo.Definite ∧ demo.AxesOK ∧
    (∀ k < demo.dof, demo.load k = none) ∧ extN.NearLog2 ∧ demo.dof = 3 ∧
    demo.Moves extN (fun _ => 1) (fun _ => none) ⟨true, true, false, false, .euler, false, 0.01⟩ 5
      q dq ∧ q 0 = demo.q ∧ dq 0 = demo.dq := by
  obtain ⟨d, h⟩ := demo_dreach extN
  obtain ⟨q, dq, e1, e2, hM⟩ := C78_exists h.reach demo_definite demo_axesOK (fun _ => 1)
    (fun _ => none) ⟨true, true, false, false, .euler, false, 0.01⟩ rfl rfl (q0 := demo.q)
    (dq0 := demo.dq) rfl rfl
  exact ⟨d, q, dq, h, demo_definite, demo_axesOK, fun _ _ => rfl, extN_near2, rfl, hM 5, e1, e2⟩

end SpatialDyn
