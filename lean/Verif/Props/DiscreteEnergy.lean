import Verif.Props.TrueLog

/-!
# C115: energy along the steps of the variational integrator
-/

namespace SpatialDyn
open Set Body OneStep
open scoped ContDiff

variable {E : Ext} {b : Body} {d : Bool}

/-- A body that differs from `b` in its state only, as a state of `b`. -/
theorem atState_of {B : Body} (hs : StateOnly b B) (hi : Inv E B) :
    AtState E b (fun i => B.pos i, fun i => B.vel i) B := by
  have hn : B.dof = b.dof := hs.same_dof
  refine ⟨hs, hi, (stateOf_ofFn (by rw [hi.tree.lq, hn])).symm,
    (stateOf_ofFn (by rw [hi.tree.ldq, hn])).symm⟩

/-- C115: with gravity, and without torques, external forces and loads, the energy (kinetic and
potential) after any number of calls of `discrete::Integrate` within time `T` differs from the initial
energy by at most `C (dt + epsV / dt)`: with a tolerance of the order of the square of the step, by a
multiple of the step. -/
theorem C115_energy_drift (h : DReach E b d none) (hd : b.Definite) (ha : b.AxesOK)
    (hl : ∀ k < b.dof, b.load k = none) (hE : E.NearLog2) (T : ℝ) :
    ∃ t0 > 0, ∃ κ > 0, ∃ C, ∀ eps > 0, ∃ N : ℕ, ∀ (dt : ℝ) (o : DIntOpts), 0 < dt → dt < t0 →
      eps ≤ κ * dt → o.gravity = true → o.epsV = eps → N ≤ o.maxIter →
      ∀ k : ℕ, k * dt ≤ T → ∃ b', dsteps E (fun _ => 0) dt (fun _ => none) o k b = .ok b' ∧
        ∀ P P' : ℕ → Vec3 → Vec3,
          (∀ k < b.dof, ∀ x, (b.position k x).map Prod.fst = .ok (P k x)) →
          (∀ k < b.dof, ∀ x, (b'.position k x).map Prod.fst = .ok (P' k x)) →
          |(1 / 2 * (∑ i ∈ Finset.range b.dof, ∑ j ∈ Finset.range b.dof,
              b'.dq.getD i 0 * b'.inertia.1 i j * b'.dq.getD j 0) + b.potential P') -
            (1 / 2 * (∑ i ∈ Finset.range b.dof, ∑ j ∈ Finset.range b.dof,
              b.dq.getD i 0 * b.inertia.1 i j * b.dq.getD j 0) + b.potential P)| ≤
          C * (dt + eps / dt) := by
  have hr := h.reach
  have hm := hd.massive hr.inv.tree
  set oi : IntOpts := ⟨true, true, false, false, .euler, false, 0.01⟩ with hoi
  obtain ⟨q, dq, hq, hdq, hM⟩ := C78_exists hr hd ha (fun _ => 0) (fun _ => none) oi rfl rfl
    (q0 := b.q) (dq0 := b.dq) hr.inv.tree.lq hr.inv.tree.ldq
  obtain ⟨t0, ht0, κ, hκ, C, M, H⟩ :=
    discrete_track h hd ha hl hE (fun _ => 0) (fun _ => none) oi rfl rfl rfl (hM T) hq hdq
  obtain ⟨-, hS⟩ := (moves_iff hr hm cache0_clear (fun _ => 0) (fun _ => none) oi).1 (hM T)
  set Y := stateOf b q dq with hYdef
  have hY0 : Y 0 = b.state := by rw [hYdef]; unfold stateOf Body.state; rw [hq, hdq]
  have hen := field_energy hr hd ha (o := oi) rfl rfl rfl (Or.inl rfl) hS
  obtain ⟨R, hR⟩ := isCompact_Icc.exists_bound_of_continuousOn hS.cont
  -- the energy is Lipschitz near the motion
  set S := max R |M| with hSd
  obtain ⟨L, hL⟩ := (isCompact_closedBall (0 : State b.dof) S).exists_bound_of_continuousOn
    (((total_smooth hr).of_le (m := 1) (by simp)).continuous_fderiv (by norm_num)).continuousOn
  refine ⟨t0, ht0, κ, hκ, max L 0 * |C|, fun eps heps => ?_⟩
  obtain ⟨N, hN⟩ := H eps heps
  refine ⟨N, fun dt o h0 hdt hk hg he hmax k hkT => ?_⟩
  obtain ⟨B, dB, p, e1, e2, e3, e4, -, e5⟩ := hN dt o h0 hdt hk (by rw [hg]) he hmax k hkT
  refine ⟨B, e1, fun P P' hP hP' => ?_⟩
  rw [(atState_of e3 e2.reach.inv).energy hm hP', (atState_self hr.inv).energy hm hP]
  have ht : (k : ℝ) * dt ∈ Icc 0 T := ⟨by positivity, hkT⟩
  set z : State b.dof := (fun i => B.pos i, fun i => B.vel i) with hz
  have hw : 0 ≤ |C| * (dt + eps / dt) := by positivity
  have hC : C * (dt + eps / dt) ≤ |C| * (dt + eps / dt) :=
    mul_le_mul_of_nonneg_right (le_abs_self C) (by positivity)
  have hzY : ‖z - Y (k * dt)‖ ≤ |C| * (dt + eps / dt) := by
    rw [Prod.norm_def]
    refine max_le ((pi_norm_le_iff_of_nonneg hw).2 fun i => ?_)
      ((pi_norm_le_iff_of_nonneg hw).2 fun i => ?_)
    · exact (e5 i i.2).1.trans hC
    · exact (e5 i i.2).2.trans hC
  have hzR : ‖z‖ ≤ S := by
    refine le_trans ?_ (le_max_right R |M|)
    rw [Prod.norm_def]
    refine max_le ((pi_norm_le_iff_of_nonneg (abs_nonneg M)).2 fun i => ?_)
      ((pi_norm_le_iff_of_nonneg (abs_nonneg M)).2 fun i => ?_)
    · exact (e4 i (e3.same_dof.symm ▸ i.2)).1.trans (le_abs_self M)
    · exact (e4 i (e3.same_dof.symm ▸ i.2)).2.1.trans (le_abs_self M)
  have hlip := (convex_closedBall (0 : State b.dof) S).norm_image_sub_le_of_norm_fderiv_le
    (f := b.total) (𝕜 := ℝ) (C := max L 0)
    (fun x _ => ((total_smooth hr).differentiable (by simp)).differentiableAt)
    (fun x hx => (hL x hx).trans (le_max_left _ _)) (x := Y (k * dt)) (y := z)
    (mem_closedBall_zero_iff.2 ((hR _ ht).trans (le_max_left R |M|)))
    (mem_closedBall_zero_iff.2 hzR)
  rw [hen _ ht, hY0, Real.norm_eq_abs] at hlip
  refine hlip.trans ?_
  rw [mul_assoc]
  exact mul_le_mul_of_nonneg_left hzY (le_max_right _ _)

/-- The hypotheses hold for the branching three-joint witness in motion, with the logarithm of the
group of rigid motions. -/
example : ∃ d : Bool, DReach extLog demo d none ∧ demo.Definite ∧ demo.AxesOK ∧
    (∀ k < demo.dof, demo.load k = none) ∧ extLog.NearLog2 ∧ demo.dof = 3 ∧ demo.vel 0 = 1 := by
  obtain ⟨d, h⟩ := demo_dreach extLog
  exact ⟨d, h, demo_definite, demo_axesOK, fun _ _ => rfl, extLog_true.near2, rfl, rfl⟩

end SpatialDyn
