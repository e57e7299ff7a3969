import Verif.Lemmas.Flow
import Verif.Lemmas.Drift
import Verif.Lemmas.Demo

/-!
# C78-C80: motions exist, the integrators converge to them, and nearly keep the energy

`Moves` (`Verif.Spec.Flow`) says what a motion of the body is, through the accelerations that forward
dynamics answers; `steps` is `Integrate` called repeatedly.
-/

namespace SpatialDyn
open Set Body OneStep
open scoped ContDiff

variable {E : Ext} {b : Body} {d : Bool}

theorem cache0_clear : cache0.Clear := by constructor <;> rfl

theorem order_eq (m : Method) : OneStep.order m = m.order := by cases m <;> rfl

/-- C78: two motions from the same state are the same. -/
theorem C78_unique (h : Reach E b d) (hd : b.Definite) {tau : ℕ → ℝ} {fext : FExt} {o : IntOpts}
    (hf : o.friction = false) {T : ℝ} {q dq q' dq' : ℝ → List ℝ}
    (h1 : b.Moves E tau fext o T q dq) (h2 : b.Moves E tau fext o T q' dq')
    (hq : q 0 = q' 0) (hdq : dq 0 = dq' 0) : ∀ t ∈ Icc 0 T, q t = q' t ∧ dq t = dq' t := by
  have hm := hd.massive h.inv.tree
  obtain ⟨l1, s1⟩ := (moves_iff h hm cache0_clear tau fext o).1 h1
  obtain ⟨l2, s2⟩ := (moves_iff h hm cache0_clear tau fext o).1 h2
  have hF := (field_smooth h hd cache0_clear tau fext o hf).of_le (m := 1) (by simp)
  intro t ht
  have he := s1.unique hF s2 (by unfold stateOf; rw [hq, hdq]) t ht
  have ext : ∀ {l l' : List ℝ}, l.length = b.dof → l'.length = b.dof →
      (fun i : Fin b.dof => l.getD i 0) = (fun i : Fin b.dof => l'.getD i 0) → l = l' := by
    intro l l' e1 e2 e
    rw [← stateOf_ofFn e1, ← stateOf_ofFn e2, e]
  exact ⟨ext (l1 t ht).1 (l2 t ht).1 (Prod.ext_iff.1 he).1,
    ext (l1 t ht).2 (l2 t ht).2 (Prod.ext_iff.1 he).2⟩

/-- C78: with the velocity products and without friction, from every state a body of definite inertia
has a motion for all times, under any constant torques and any external forces fixed in the world. -/
theorem C78_exists (h : Reach E b d) (hd : b.Definite) (ha : b.AxesOK) (tau : ℕ → ℝ) (fext : FExt)
    (o : IntOpts) (hf : o.friction = false) (hcc : o.cc = true) {q0 dq0 : List ℝ}
    (hq : q0.length = b.dof) (hdq : dq0.length = b.dof) :
    ∃ q dq : ℝ → List ℝ, q 0 = q0 ∧ dq 0 = dq0 ∧ ∀ T, b.Moves E tau fext o T q dq := by
  have hm := hd.massive h.inv.tree
  obtain ⟨Y, h0, hY⟩ := field_forever h hd ha cache0_clear tau fext o hf hcc
    (fun i => q0.getD i 0, fun i => dq0.getD i 0)
  refine ⟨fun t => List.ofFn (Y t).1, fun t => List.ofFn (Y t).2, ?_, ?_, fun T => ?_⟩
  · simp only [h0]; exact stateOf_ofFn hq
  · simp only [h0]; exact stateOf_ofFn hdq
  · refine (moves_iff h hm cache0_clear tau fext o).2 ⟨fun t _ => by simp, ?_⟩
    have e : stateOf b (fun t => List.ofFn (Y t).1) (fun t => List.ofFn (Y t).2) = Y := by
      funext t
      exact Prod.ext (funext fun i => getD_ofFn _ i) (funext fun i => getD_ofFn _ i)
    rw [e]
    exact hY T

/-- C79: without friction and joint limits, calling `Integrate` repeatedly with step `dt` follows the
motion from the current state over any interval on which it exists, and never fails; every joint
position and velocity is within `C dt^p` of the motion at every step, with `p` = 1, 2, 4 for `kEuler`,
`kHeuns`, `kRk4`. -/
theorem C79_convergence (h : Reach E b d) (hd : b.Definite) (tau : ℕ → ℝ) (fext : FExt)
    (o : IntOpts) (hf : o.friction = false) (hl : o.jointLimits = false) {T : ℝ}
    {q dq : ℝ → List ℝ} (hM : b.Moves E tau fext o T q dq) (hq : q 0 = b.q) (hdq : dq 0 = b.dq) :
    ∃ C h0, 0 < h0 ∧ ∀ dt, 0 < dt → dt ≤ h0 → ∀ k : ℕ, k * dt ≤ T →
      ∃ b', steps E tau dt fext o k b = .ok b' ∧ b'.rbs = b.rbs ∧ ∀ i < b.dof,
        |b'.q.getD i 0 - (q (k * dt)).getD i 0| ≤ C * dt ^ o.method.order ∧
        |b'.dq.getD i 0 - (dq (k * dt)).getD i 0| ≤ C * dt ^ o.method.order := by
  have hm := hd.massive h.inv.tree
  obtain ⟨-, hS⟩ := (moves_iff h hm cache0_clear tau fext o).1 hM
  obtain ⟨C, h0, hpos, hC⟩ := scheme_converge (field_smooth h hd cache0_clear tau fext o hf)
    (fun _ => rfl) hS o.method
  refine ⟨C, h0, hpos, fun dt h1 h2 k hk => ?_⟩
  obtain ⟨b', e1, e2⟩ := steps_scheme h hm cache0_clear tau dt fext o hl k
  refine ⟨b', e1, e2.only.rbs, fun i hi => ?_⟩
  have h3 := hC dt h1 h2 k hk
  have h4 : stateOf b q dq 0 = b.state := by unfold stateOf Body.state; rw [hq, hdq]
  rw [h4, order_eq] at h3
  rw [Prod.norm_def] at h3
  have h5 := (norm_le_pi_norm _ (⟨i, hi⟩ : Fin b.dof)).trans ((le_max_left _ _).trans h3)
  have h6 := (norm_le_pi_norm _ (⟨i, hi⟩ : Fin b.dof)).trans ((le_max_right _ _).trans h3)
  rw [e2.q, e2.dq]
  have g1 := getD_ofFn ((scheme o.method (b.field E cache0 tau fext o) id dt)^[k] b.state).1 ⟨i, hi⟩
  have g2 := getD_ofFn ((scheme o.method (b.field E cache0 tau fext o) id dt)^[k] b.state).2 ⟨i, hi⟩
  simp only at g1 g2
  rw [g1, g2]
  exact ⟨h5, h6⟩

/-! ## C80 -/

theorem field_energy (h : Reach E b d) (hd : b.Definite) (ha : b.AxesOK) {o : IntOpts}
    (hf : o.friction = false) (hcc : o.cc = true) (hg : o.gravity = true)
    (hbase : o.aba = false ∨ b.T0.R.mulVec b.g = b.g) {T : ℝ} {Y : ℝ → State b.dof}
    (hY : Solves (b.field E cache0 (fun _ => 0) (fun _ => none) o) T Y) :
    ∀ t ∈ Icc 0 T, b.total (Y t) = b.total (Y 0) := by
  have hs := (total_smooth h).differentiable (by simp)
  have hder : ∀ t ∈ Icc 0 T, HasDerivWithinAt (fun t => b.total (Y t)) 0 (Icc 0 T) t := by
    intro t ht
    have h1 := (hs (Y t)).hasFDerivAt.comp_hasDerivWithinAt t (hY t ht)
    refine h1.congr_deriv ?_
    have e : (if o.aba = true then b.T0.R.mulVec b.g else b.g) = b.g := by
      rcases hbase with h | h
      · simp [h]
      · split
        · exact h
        · rfl
    rw [field_val h hd cache0_clear _ _ o hf, hcc, hg, e, total_rate h hd ha]
    simp
  exact constant_of_has_deriv_right_zero (fun t ht => (hder t ht).continuousWithinAt)
    fun t ht => within_right ht (hder t (Ico_subset_Icc_self ht))

/-- C80: with gravity and velocity products, and without torques, external forces, friction and joint
limits, the energy after any number of calls of `Integrate` within time `T` differs from the initial
energy by at most `C dt^p`, `p` = 1, 2, 4 for `kEuler`, `kHeuns`, `kRk4`.  (With `aba` the base must
not turn the gravity vector, see `C30_aba_base`.) -/
theorem C80_energy_drift (h : Reach E b d) (hd : b.Definite) (ha : b.AxesOK) (o : IntOpts)
    (hf : o.friction = false) (hl : o.jointLimits = false) (hcc : o.cc = true) (hg : o.gravity = true)
    (hbase : o.aba = false ∨ b.T0.R.mulVec b.g = b.g) (T : ℝ) :
    ∃ C h0, 0 < h0 ∧ ∀ dt, 0 < dt → dt ≤ h0 → ∀ k : ℕ, k * dt ≤ T →
      ∃ b', steps E (fun _ => 0) dt (fun _ => none) o k b = .ok b' ∧ ∀ P P' : ℕ → Vec3 → Vec3,
        (∀ k < b.dof, ∀ x, (b.position k x).map Prod.fst = .ok (P k x)) →
        (∀ k < b.dof, ∀ x, (b'.position k x).map Prod.fst = .ok (P' k x)) →
        |(1 / 2 * (∑ i ∈ Finset.range b.dof, ∑ j ∈ Finset.range b.dof,
            b'.dq.getD i 0 * b'.inertia.1 i j * b'.dq.getD j 0) + b.potential P') -
          (1 / 2 * (∑ i ∈ Finset.range b.dof, ∑ j ∈ Finset.range b.dof,
            b.dq.getD i 0 * b.inertia.1 i j * b.dq.getD j 0) + b.potential P)| ≤
        C * dt ^ o.method.order := by
  have hm := hd.massive h.inv.tree
  set F := b.field E cache0 (fun _ => 0) (fun _ => none) o with hFdef
  obtain ⟨Y, h0, hY⟩ := field_forever h hd ha cache0_clear (fun _ => 0) (fun _ => none) o hf hcc b.state
  have hF := field_smooth h hd cache0_clear (fun _ => 0) (fun _ => none) o hf
  obtain ⟨C, e0, hpos, hC⟩ := scheme_converge hF (fun _ => rfl) (hY T) o.method
  have hen := field_energy h hd ha hf hcc hg hbase (hY T)
  obtain ⟨R, hR⟩ := isCompact_Icc.exists_bound_of_continuousOn (hY T).cont
  -- the energy is Lipschitz near the motion
  obtain ⟨M, hM⟩ := (isCompact_closedBall (0 : State b.dof) (R + |C|)).exists_bound_of_continuousOn
    (((total_smooth h).of_le (m := 1) (by simp)).continuous_fderiv (by norm_num)).continuousOn
  refine ⟨max M 0 * C, min e0 1, lt_min hpos one_pos, fun dt h1 h2 k hk => ?_⟩
  obtain ⟨b', e1, e2⟩ := steps_scheme h hm cache0_clear (fun _ => 0) dt (fun _ => none) o hl k
  refine ⟨b', e1, fun P P' hP hP' => ?_⟩
  rw [e2.energy hm hP', (atState_self h.inv).energy hm hP]
  have ht : (k : ℝ) * dt ∈ Icc 0 T := ⟨by positivity, hk⟩
  have h3 := hC dt h1 (h2.trans (min_le_left _ _)) k hk
  rw [h0, order_eq] at h3
  rw [← hFdef] at h3 ⊢
  set z := (scheme o.method F id dt)^[k] b.state with hz
  have hCp : C * dt ^ o.method.order ≤ |C| := by
    have hp : dt ^ o.method.order ≤ 1 := pow_le_one₀ h1.le (h2.trans (min_le_right _ _))
    have hp0 : 0 ≤ dt ^ o.method.order := by positivity
    nlinarith [le_abs_self C, abs_nonneg C, neg_abs_le C]
  have hYR := hR _ ht
  have hzR : ‖z‖ ≤ R + |C| := by
    have : ‖z‖ ≤ ‖z - Y (k * dt)‖ + ‖Y (k * dt)‖ := by
      simpa using norm_add_le (z - Y (k * dt)) (Y (k * dt))
    linarith
  have hlip := (convex_closedBall (0 : State b.dof) (R + |C|)).norm_image_sub_le_of_norm_fderiv_le
    (f := b.total) (𝕜 := ℝ) (C := max M 0)
    (fun x _ => ((total_smooth h).differentiable (by simp)).differentiableAt)
    (fun x hx => (hM x hx).trans (le_max_left _ _)) (x := Y (k * dt)) (y := z)
    (by simpa using hYR.trans (by linarith [abs_nonneg C])) (by simpa using hzR)
  rw [hen _ ht, h0, Real.norm_eq_abs] at hlip
  refine hlip.trans ?_
  rw [mul_assoc]
  exact mul_le_mul_of_nonneg_left h3 (le_max_right _ _)

/-! ## Witness -/

/-- The hypotheses hold for the loaded witness body, for every method and both forward dynamics. -/
example (E : Ext) (m : Method) (aba : Bool) : ∃ (d : Bool) (q dq : ℝ → List ℝ),
    Reach E demoLoaded d ∧ demoLoaded.Definite ∧ demoLoaded.AxesOK ∧ demoLoaded.dof = 3 ∧
    demoLoaded.T0.R.mulVec demoLoaded.g = demoLoaded.g ∧ q 0 = demoLoaded.q ∧ dq 0 = demoLoaded.dq ∧
    ∀ T, demoLoaded.Moves E (fun _ => 1) (fun _ => none) ⟨true, true, false, false, m, aba, 0⟩ T q dq := by
  obtain ⟨d, h⟩ := demoLoaded_reach E
  obtain ⟨q, dq, h1, h2, h3⟩ := C78_exists h demoLoaded_definite demo_axesOK (fun _ => 1)
    (fun _ => none) ⟨true, true, false, false, m, aba, 0⟩ rfl rfl (q0 := demoLoaded.q)
    (dq0 := demoLoaded.dq) h.inv.tree.lq h.inv.tree.ldq
  exact ⟨d, q, dq, h, demoLoaded_definite, demo_axesOK, rfl, Mat3.one_mulVec _, h1, h2, h3⟩

end SpatialDyn
