import Verif.Lemmas.Damped
import Verif.Lemmas.JointLimits

/-!
# C143: robots with viscous friction come to rest where gravity does not pull

`Moves` and `steps` (`Verif.Spec.Flow`) are as in C78-C80; `Coef j 0 v 0` says that the joint has
viscous friction `v` and no other.
-/

namespace SpatialDyn
open Set Body OneStep Filter Topology

variable {E : Ext} {b : Body} {d : Bool}

/-- C143: with viscous friction a motion exists for all times from every state, under any constant
torques and any external forces fixed in the world. -/
theorem C143_exists (h : Reach E b d) (hd : b.Definite) (ha : b.AxesOK) {v : ℕ → ℝ}
    (hc : ∀ i < b.dof, Coef (b.rb i).joint 0 (v i) 0) (tau : ℕ → ℝ) (fext : FExt) {o : IntOpts}
    (hf : o.friction = true) (heps : 0 ≤ o.eps) (hcc : o.cc = true) {q0 dq0 : List ℝ}
    (hq : q0.length = b.dof) (hdq : dq0.length = b.dof) :
    ∃ q dq : ℝ → List ℝ, q 0 = q0 ∧ dq 0 = dq0 ∧ ∀ T, b.Moves E tau fext o T q dq := by
  have hm := hd.massive h.inv.tree
  obtain ⟨Y, h0, hY⟩ := damped_forever h hd ha cache0_clear hc tau fext hf heps hcc
    (fun i => q0.getD i 0, fun i => dq0.getD i 0)
  refine ⟨fun t => List.ofFn (Y t).1, fun t => List.ofFn (Y t).2, ?_, ?_, fun T => ?_⟩
  · simp only [h0]; exact stateOf_ofFn hq
  · simp only [h0]; exact stateOf_ofFn hdq
  · refine (moves_iff h hm cache0_clear tau fext o).2 ⟨fun t _ => by simp, ?_⟩
    have e : stateOf b (fun t => List.ofFn (Y t).1) (fun t => List.ofFn (Y t).2) = Y := by
      funext t
      exact Prod.ext (funext fun i => getD_ofFn _ i) (funext fun i => getD_ofFn _ i)
    rw [e]
    exact hY T

/-- C143: two motions from the same state are the same. -/
theorem C143_unique (h : Reach E b d) (hd : b.Definite) {v : ℕ → ℝ}
    (hc : ∀ i < b.dof, Coef (b.rb i).joint 0 (v i) 0) {tau : ℕ → ℝ} {fext : FExt} {o : IntOpts}
    (hf : o.friction = true) (heps : 0 ≤ o.eps) {T : ℝ} {q dq q' dq' : ℝ → List ℝ}
    (h1 : b.Moves E tau fext o T q dq) (h2 : b.Moves E tau fext o T q' dq')
    (hq : q 0 = q' 0) (hdq : dq 0 = dq' 0) : ∀ t ∈ Icc 0 T, q t = q' t ∧ dq t = dq' t := by
  have hm := hd.massive h.inv.tree
  obtain ⟨l1, s1⟩ := (moves_iff h hm cache0_clear tau fext o).1 h1
  obtain ⟨l2, s2⟩ := (moves_iff h hm cache0_clear tau fext o).1 h2
  have hF := (damped_smooth h hd cache0_clear hc tau fext hf heps).of_le (m := 1) (by simp)
  intro t ht
  have he := s1.unique hF s2 (by unfold stateOf; rw [hq, hdq]) t ht
  have ext : ∀ {l l' : List ℝ}, l.length = b.dof → l'.length = b.dof →
      (fun i : Fin b.dof => l.getD i 0) = (fun i : Fin b.dof => l'.getD i 0) → l = l' := by
    intro l l' e1 e2 e
    rw [← stateOf_ofFn e1, ← stateOf_ofFn e2, e]
  exact ⟨ext (l1 t ht).1 (l2 t ht).1 (Prod.ext_iff.1 he).1,
    ext (l1 t ht).2 (l2 t ht).2 (Prod.ext_iff.1 he).2⟩

/-- C143: without joint limits, calling `Integrate` repeatedly with step `dt` follows the motion, and
every joint position and velocity is within `C dt^p` of it, with `p` = 1, 2, 4 for `kEuler`, `kHeuns`,
`kRk4`. -/
theorem C143_convergence (h : Reach E b d) (hd : b.Definite) {v : ℕ → ℝ}
    (hc : ∀ i < b.dof, Coef (b.rb i).joint 0 (v i) 0) (tau : ℕ → ℝ) (fext : FExt) {o : IntOpts}
    (hf : o.friction = true) (heps : 0 ≤ o.eps) (hl : o.jointLimits = false) {T : ℝ}
    {q dq : ℝ → List ℝ} (hM : b.Moves E tau fext o T q dq) (hq : q 0 = b.q) (hdq : dq 0 = b.dq) :
    ∃ C h0, 0 < h0 ∧ ∀ dt, 0 < dt → dt ≤ h0 → ∀ k : ℕ, k * dt ≤ T →
      ∃ b', steps E tau dt fext o k b = .ok b' ∧ b'.rbs = b.rbs ∧ ∀ i < b.dof,
        |b'.q.getD i 0 - (q (k * dt)).getD i 0| ≤ C * dt ^ o.method.order ∧
        |b'.dq.getD i 0 - (dq (k * dt)).getD i 0| ≤ C * dt ^ o.method.order := by
  have hm := hd.massive h.inv.tree
  obtain ⟨-, hS⟩ := (moves_iff h hm cache0_clear tau fext o).1 hM
  obtain ⟨C, h0, hpos, hC⟩ := scheme_converge (damped_smooth h hd cache0_clear hc tau fext hf heps)
    (fun _ => rfl) hS o.method
  refine ⟨C, h0, hpos, fun dt h1 h2 k hk => ?_⟩
  obtain ⟨b', e1, e2⟩ := steps_scheme h hm cache0_clear tau dt fext o hl k
  refine ⟨b', e1, e2.only.rbs, fun i hi => ?_⟩
  have h3 := hC dt h1 h2 k hk
  have h4 : stateOf b q dq 0 = b.state := by unfold stateOf Body.state; rw [hq, hdq]
  rw [h4, order_eq] at h3
  rw [Prod.norm_def] at h3
  have h5 := (norm_le_pi_norm _ (⟨i, hi⟩ : Fin b.dof)).trans ((le_max_left _ _).trans h3)
  have h6 := (norm_le_pi_norm _ (⟨i, hi⟩ : Fin b.dof)).trans ((le_max_right _ _).trans h3)
  rw [e2.q, e2.dq]
  have g1 := getD_ofFn ((scheme o.method (b.field E cache0 tau fext o) id dt)^[k] b.state).1 ⟨i, hi⟩
  have g2 := getD_ofFn ((scheme o.method (b.field E cache0 tau fext o) id dt)^[k] b.state).2 ⟨i, hi⟩
  simp only at g1 g2
  rw [g1, g2]
  exact ⟨h5, h6⟩

/-! ## Coming to rest -/

/-- Torques against gravity in some positions. -/
noncomputable def Body.weightAt (b : Body) (q : Fin b.dof → ℝ) (i : ℕ) : ℝ :=
  (b.sysAt (padFin q) fun _ => 0).gravitySpec i

theorem coriolis_zero (b : Body) (u : ℕ → ℝ) (i : ℕ) : (b.sysAt u fun _ => 0).coriolisSpec i = 0 := by
  set σ := b.sysAt u fun _ => 0
  have hdq : ∀ j, σ.dq j = 0 := fun _ => rfl
  have hV : ∀ k, σ.V σ.dq k = 0 := fun k => Finset.sum_eq_zero fun j _ => by rw [hdq j, zero_smul]
  have hb : ∀ k, σ.bias k = 0 := fun k => Finset.sum_eq_zero fun j _ => by rw [hdq j, zero_smul]
  unfold Sys.coriolisSpec Sys.genForce
  refine Finset.sum_eq_zero fun k _ => ?_
  beta_reduce
  rw [hV, hb, Sys.Iw_zero, Motion.crossF_zero]
  simp [Motion.dot]

/-- The accelerations from rest, in terms of the torques against gravity. -/
theorem weight_acc (h : Reach E b d) (hd : b.Definite) {v : ℕ → ℝ} (q : Fin b.dof → ℝ) {i : ℕ}
    (hi : i < b.dof) : b.weightAt q i = -∑ j : Fin b.dof, (b.sysAt (padFin q) fun _ => 0).massSpec i j *
      b.dampedAt b.g (fun _ => 0) v (fun _ => none) true true (q, 0) j := by
  have e0 : (padFin (0 : Fin b.dof → ℝ)) = fun _ => 0 := by funext i; simp [padFin]
  have k := accAt_solves h hd b.g (fun i => 0 - v i * padFin (0 : Fin b.dof → ℝ) i) (fun _ => none)
    true true (q, 0) hi
  simp only [e0, mul_zero, sub_zero] at k
  have e1 : ∀ i, b.dampedAt b.g (fun _ => 0) v (fun _ => none) true true (q, 0) i =
      padFin (b.accAt b.g (fun _ => 0) (fun _ => none) true true (q, 0)) i := by
    intro i
    unfold dampedAt
    simp [e0, padFin]
  have e2 : (((b.setG b.g).sysAt (padFin q) fun _ => 0).idSpec (fun _ => 0) (fun _ => none) true true i) =
      b.weightAt q i := by
    show ((b.sysAt (padFin q) fun _ => 0).idSpec (fun _ => 0) (fun _ => none) true true i) = _
    have ex : (b.sysAt (padFin q) fun _ => 0).extSpec (fun _ => none) i = 0 := by
      unfold Sys.extSpec Sys.genForce
      rw [neg_eq_zero]
      exact Finset.sum_eq_zero fun k hk => by simp [Motion.dot]
    unfold Sys.idSpec weightAt
    rw [ex, coriolis_zero]
    simp
  rw [e2, Finset.sum_range] at k
  simp only [e1]
  linarith

theorem weight_turns (ht : ∀ i < b.dof,
      (b.rb i).joint.type = .rx ∨ (b.rb i).joint.type = .ry ∨ (b.rb i).joint.type = .rz) (i : ℕ)
    (y : State b.dof) (m : Fin b.dof → ℤ) :
    b.weightAt (y + ((fun i => 2 * Real.pi * (m i : ℝ)), 0)).1 i = b.weightAt y.1 i := by
  unfold weightAt
  rw [Prod.fst_add]
  simp only
  rw [sysAt_turns ht]

theorem weight_smooth (h : Reach E b d) (i : ℕ) :
    ContDiff ℝ 1 fun y : State b.dof => b.weightAt y.1 i :=
  (gravitySpec_smooth (w := fun _ _ => 0) h.inv.tree
    (fun i _ => padFin_smooth contDiff_fst i) i).of_le (by simp)

/-- The field of a damped robot in full. -/
theorem damped_val (h : Reach E b d) (hd : b.Definite) {v : ℕ → ℝ}
    (hc : ∀ i < b.dof, Coef (b.rb i).joint 0 (v i) 0) {o : IntOpts}
    (hf : o.friction = true) (heps : 0 ≤ o.eps) (hcc : o.cc = true) (hg : o.gravity = true)
    (hbase : o.aba = false ∨ b.T0.R.mulVec b.g = b.g) (y : State b.dof) :
    b.field E cache0 (fun _ => 0) (fun _ => none) o y =
      (y.2, b.dampedAt b.g (fun _ => 0) v (fun _ => none) true true y) := by
  have e : (if o.aba = true then b.T0.R.mulVec b.g else b.g) = b.g := by
    rcases hbase with h | h
    · simp [h]
    · split
      · exact h
      · rfl
  rw [field_damped h hd cache0_clear hc _ _ hf heps, hcc, hg, e]

theorem damped_settles (h : Reach E b d) (hd : b.Definite) (ha : b.AxesOK) (ht : ∀ i < b.dof,
      (b.rb i).joint.type = .rx ∨ (b.rb i).joint.type = .ry ∨ (b.rb i).joint.type = .rz)
    {v : ℕ → ℝ} (hc : ∀ i < b.dof, Coef (b.rb i).joint 0 (v i) 0) (hv : ∀ i < b.dof, 0 < v i)
    {o : IntOpts} (hf : o.friction = true) (heps : 0 ≤ o.eps) (hcc : o.cc = true)
    (hg : o.gravity = true) (hbase : o.aba = false ∨ b.T0.R.mulVec b.g = b.g)
    {Y : ℝ → State b.dof}
    (hY : ∀ T, Solves (b.field E cache0 (fun _ => 0) (fun _ => none) o) T Y) :
    (∃ l, Tendsto (fun t => b.total (Y t)) atTop (𝓝 l)) ∧
    (∀ i, Tendsto (fun t => (Y t).2 i) atTop (𝓝 0)) ∧
    (∀ i, Tendsto (fun t => (b.field E cache0 (fun _ => 0) (fun _ => none) o (Y t)).2 i) atTop (𝓝 0)) ∧
    ∀ i < b.dof, Tendsto (fun t => b.weightAt (Y t).1 i) atTop (𝓝 0) := by
  have hm := hd.massive h.inv.tree
  obtain ⟨⟨c, hlow⟩, hbdd⟩ := total_bounds h hd ha ht
  obtain ⟨h1, -, h2, h3, h4⟩ := settle
    (F := b.field E cache0 (fun _ => 0) (fun _ => none) o)
    ((damped_smooth h hd cache0_clear hc _ _ hf heps).of_le (by simp)) (fun _ => rfl)
    (fun y m => field_turns h hm cache0_clear _ _ o (fun i => .inr ⟨ht i i.2, m i, rfl⟩) y)
    ((total_smooth h).of_le (by simp)) (v := fun i => v i) (fun i => hv i i.2) (fun y => by
      rw [damped_val h hd hc hf heps hcc hg hbase]
      unfold dampedAt
      rw [total_rate h hd ha, Finset.sum_range]
      simp only [Option.getD_none, Motion.dot_zero, Finset.sum_const_zero, add_zero, zero_sub]
      rw [← Finset.sum_neg_distrib]
      refine Finset.sum_congr rfl fun i _ => ?_
      rw [show padFin y.2 i = y.2 i by simp [padFin]]
      ring) hlow hbdd hY
  refine ⟨h1, h2, h3, fun i hi => ?_⟩
  have e : ∀ t, b.weightAt (Y t).1 i = -∑ j : Fin b.dof,
      (b.sysAt (padFin (Y t).1) fun _ => 0).massSpec i j *
        (b.field E cache0 (fun _ => 0) (fun _ => none) o ((Y t).1, 0)).2 j := fun t => by
    rw [weight_acc h hd (v := v) _ hi, damped_val h hd hc hf heps hcc hg hbase]
  simp only [e]
  suffices hs : ∀ j : Fin b.dof, Tendsto (fun t => (b.sysAt (padFin (Y t).1) fun _ => 0).massSpec i j *
      (b.field E cache0 (fun _ => 0) (fun _ => none) o ((Y t).1, 0)).2 j) atTop (𝓝 0) by
    simpa using (tendsto_finset_sum Finset.univ fun j _ => hs j).neg
  intro j
  obtain ⟨K, hK0, hK⟩ := torus_bound
    (G := fun y : State b.dof => (b.sysAt (padFin y.1) fun _ => 0).massSpec i j)
    (massSpec_smooth (w := fun _ _ => 0) h.inv.tree
      (fun i _ => padFin_smooth contDiff_fst i) i j).continuous (fun y m => by
      rw [Prod.fst_add]
      simp only
      rw [sysAt_turns ht]) 0
  refine squeeze_zero_norm (a := fun t => K *
    ‖(b.field E cache0 (fun _ => 0) (fun _ => none) o ((Y t).1, 0)).2 j‖) (fun t => ?_) ?_
  · rw [norm_mul]
    exact mul_le_mul_of_nonneg_right (hK ((Y t).1, 0) (by simp)) (norm_nonneg _)
  · have := ((h4 j).norm).const_mul K
    rwa [norm_zero, mul_zero] at this

/-- The torques that `Gravity` answers. -/
theorem weight_at (h : Reach E b d) {y : State b.dof} {B : Body} (hA : AtState E b y B) {i : ℕ}
    (hi : i < b.dof) : B.gravity.1 i = b.weightAt y.1 i := by
  obtain ⟨B', d', hB', hA', hf⟩ := exists_at h y
  have ho := hA.obsEq hA'
  have e : B.fresh.gravitySpec i = B'.fresh.gravitySpec i := by
    rw [ho.poseEq.fresh]
  rw [(gravity_run hA.inv).2 i (by rw [hA.dof]; exact hi), e, hf]
  rfl

/-- C143: a robot whose joints all turn, each with some viscous friction, comes to rest when left to
itself (no torques, no external forces), from every state: along its motion the velocities and
accelerations tend to zero, the energy tends to a limit, and so do the torques that `Gravity` answers,
to zero: it settles where gravity does not pull.  (With `aba` the base must not turn the gravity
vector, see `C30_aba_base`.) -/
theorem C143_rest (h : Reach E b d) (hd : b.Definite) (ha : b.AxesOK) (ht : ∀ i < b.dof,
      (b.rb i).joint.type = .rx ∨ (b.rb i).joint.type = .ry ∨ (b.rb i).joint.type = .rz)
    {v : ℕ → ℝ} (hc : ∀ i < b.dof, Coef (b.rb i).joint 0 (v i) 0) (hv : ∀ i < b.dof, 0 < v i)
    {o : IntOpts} (hf : o.friction = true) (heps : 0 ≤ o.eps) (hcc : o.cc = true)
    (hg : o.gravity = true) (hbase : o.aba = false ∨ b.T0.R.mulVec b.g = b.g)
    {q dq : ℝ → List ℝ} (hM : ∀ T, b.Moves E (fun _ => 0) (fun _ => none) o T q dq) :
    ∃ l, ∀ ε > 0, ∃ T, ∀ t, T ≤ t → ∃ b1 B, b.setQ (q t) = .ok b1 ∧ b1.setDq (dq t) = .ok B ∧
      (∀ e, B.EnergyIs e → |e - l| ≤ ε) ∧ ∀ i < b.dof, |(dq t).getD i 0| ≤ ε ∧
        |B.acceleration E (fun _ => 0) (fun _ => none) o i| ≤ ε ∧ |B.gravity.1 i| ≤ ε := by
  have hm := hd.massive h.inv.tree
  have hS : ∀ T, Solves (b.field E cache0 (fun _ => 0) (fun _ => none) o) T (stateOf b q dq) :=
    fun T => ((moves_iff h hm cache0_clear _ _ o).1 (hM T)).2
  obtain ⟨⟨l, h1⟩, h2, h3, h4⟩ := damped_settles h hd ha ht hc hv hf heps hcc hg hbase hS
  refine ⟨l, fun ε hε => ?_⟩
  have near : ∀ {f : ℝ → ℝ} {a : ℝ}, Tendsto f atTop (𝓝 a) → ∀ᶠ t in atTop, |f t - a| ≤ ε :=
    fun hf => (Metric.tendsto_nhds.1 hf ε hε).mono fun t ht => by
      rw [Real.dist_eq] at ht; exact ht.le
  obtain ⟨T, hT⟩ := eventually_atTop.1 (((near h1).and (eventually_all.2 fun i => near (h2 i))).and
    ((eventually_all.2 fun i => near (h3 i)).and
      (eventually_all.2 fun i : Fin b.dof => near (h4 i i.2))))
  refine ⟨max T 0, fun t htT => ?_⟩
  obtain ⟨⟨k1, k2⟩, k3, k4⟩ := hT t ((le_max_left _ _).trans htT)
  obtain ⟨b1, B, e1, e2, -⟩ := hM t t ⟨(le_max_right _ _).trans htT, le_rfl⟩
  have hA := atState_of_set h e1 e2
  refine ⟨b1, B, e1, e2, fun e he => ?_, fun i hi => ?_⟩
  · rw [energyIs_at hA hm he]; exact k1
  · have g2 := k2 ⟨i, hi⟩
    have g3 := k3 ⟨i, hi⟩
    have g4 := k4 ⟨i, hi⟩
    rw [sub_zero] at g2 g3 g4
    refine ⟨g2, ?_, ?_⟩
    · have := field_of_set h hm cache0_clear (fun _ => 0) (fun _ => none) o e1 e2 ⟨i, hi⟩
      simp only at this
      rw [this]; exact g3
    · rw [weight_at h hA hi]; exact g4

/-- C143: and so does the simulated robot: after some time the velocities and the torques that
`Gravity` answers stay below any given bound for as long as one likes, if the steps are small enough. -/
theorem C143_simulation (h : Reach E b d) (hd : b.Definite) (ha : b.AxesOK) (ht : ∀ i < b.dof,
      (b.rb i).joint.type = .rx ∨ (b.rb i).joint.type = .ry ∨ (b.rb i).joint.type = .rz)
    {v : ℕ → ℝ} (hc : ∀ i < b.dof, Coef (b.rb i).joint 0 (v i) 0) (hv : ∀ i < b.dof, 0 < v i)
    {o : IntOpts} (hf : o.friction = true) (heps : 0 ≤ o.eps) (hcc : o.cc = true)
    (hg : o.gravity = true) (hbase : o.aba = false ∨ b.T0.R.mulVec b.g = b.g)
    (hl : o.jointLimits = false) {ε : ℝ} (hε : 0 < ε) :
    ∃ T0 : ℝ, ∀ T : ℝ, ∃ h0 > 0, ∀ dt : ℝ, 0 < dt → dt ≤ h0 → ∀ k : ℕ, T0 ≤ k * dt → k * dt ≤ T →
      ∃ b', steps E (fun _ => 0) dt (fun _ => none) o k b = .ok b' ∧
        ∀ i < b.dof, |b'.dq.getD i 0| ≤ ε ∧ |b'.gravity.1 i| ≤ ε := by
  have hm := hd.massive h.inv.tree
  set F := b.field E cache0 (fun _ => 0) (fun _ => none) o with hFdef
  obtain ⟨Y, hY0, hY⟩ := damped_forever h hd ha cache0_clear hc (fun _ => 0) (fun _ => none) hf heps hcc
    b.state
  obtain ⟨-, h2, -, h4⟩ := damped_settles h hd ha ht hc hv hf heps hcc hg hbase hY
  have near : ∀ {f : ℝ → ℝ}, Tendsto f atTop (𝓝 0) → ∀ᶠ t in atTop, |f t| ≤ ε / 2 :=
    fun hf => (Metric.tendsto_nhds.1 hf (ε / 2) (half_pos hε)).mono fun t ht => by
      rw [Real.dist_eq, sub_zero] at ht; exact ht.le
  obtain ⟨T0, hT0⟩ := eventually_atTop.1 ((eventually_all.2 fun i => near (h2 i)).and
    (eventually_all.2 fun i : Fin b.dof => near (h4 i i.2)))
  choose L hL0 hL using fun i : Fin b.dof => torus_lip (weight_smooth h i) (weight_turns ht i) 0
  refine ⟨T0, fun T => ?_⟩
  obtain ⟨C, h0, hpos, hC⟩ := scheme_converge
    (damped_smooth h hd cache0_clear hc (fun _ => 0) (fun _ => none) hf heps) (fun _ => rfl) (hY T) o.method
  set M := |C| * (1 + ∑ i, L i) with hM
  have hLs : ∀ i, L i ≤ ∑ i, L i := fun i =>
    Finset.single_le_sum (fun i _ => hL0 i) (Finset.mem_univ i)
  have hLnn : 0 ≤ ∑ i, L i := Finset.sum_nonneg fun i _ => hL0 i
  have hM0 : 0 ≤ M := by rw [hM]; positivity
  refine ⟨min h0 (min 1 (ε / 2 / (M + 1))), by positivity, fun dt d0 d1 k k0 k1 => ?_⟩
  have hp1 : 1 ≤ OneStep.order o.method := by cases o.method <;> decide
  have hdt1 : dt ≤ 1 := d1.trans ((min_le_right _ _).trans (min_le_left _ _))
  have hdp : dt ^ OneStep.order o.method ≤ dt := by
    calc dt ^ OneStep.order o.method ≤ dt ^ 1 := pow_le_pow_of_le_one d0.le hdt1 hp1
      _ = dt := pow_one _
  have hMdt : M * dt ≤ ε / 2 := by
    have : dt ≤ ε / 2 / (M + 1) := d1.trans ((min_le_right _ _).trans (min_le_right _ _))
    rw [le_div_iff₀ (by positivity)] at this
    nlinarith
  obtain ⟨b', e1, e2⟩ := steps_scheme h hm cache0_clear (fun _ => 0) dt (fun _ => none) o hl k
  refine ⟨b', e1, fun i hi => ?_⟩
  have h3 := hC dt d0 (d1.trans (min_le_left _ _)) k k1
  rw [hY0] at h3
  rw [← hFdef] at h3 e2
  set z := (scheme o.method F id dt)^[k] b.state with hz
  have h5 : ‖z - Y (k * dt)‖ ≤ |C| * dt := h3.trans
    ((mul_le_mul_of_nonneg_right (le_abs_self C) (by positivity)).trans
      (mul_le_mul_of_nonneg_left hdp (abs_nonneg C)))
  obtain ⟨g2, g4⟩ := hT0 _ k0
  have h6 := (norm_le_pi_norm (z - Y (k * dt)).2 ⟨i, hi⟩).trans ((norm_snd_le _).trans h5)
  have hC1 : |C| * dt ≤ ε / 2 := by
    refine le_trans ?_ hMdt
    rw [hM]
    refine mul_le_mul_of_nonneg_right ?_ d0.le
    nlinarith [abs_nonneg C, mul_nonneg (abs_nonneg C) hLnn]
  constructor
  · have := getD_ofFn z.2 ⟨i, hi⟩
    simp only at this
    rw [e2.dq, this]
    have a1 := g2 ⟨i, hi⟩
    have a2 : |z.2 ⟨i, hi⟩ - (Y (k * dt)).2 ⟨i, hi⟩| ≤ |C| * dt := h6
    have := abs_add_le (z.2 ⟨i, hi⟩ - (Y (k * dt)).2 ⟨i, hi⟩) ((Y (k * dt)).2 ⟨i, hi⟩)
    rw [sub_add_cancel] at this
    linarith
  · rw [weight_at h e2 hi]
    have a1 := g4 ⟨i, hi⟩
    have a2 := hL ⟨i, hi⟩ (z.1, 0) ((Y (k * dt)).1, 0) (by simp) (by simp)
    have a3 : ‖((z.1, 0) : State b.dof) - ((Y (k * dt)).1, 0)‖ ≤ |C| * dt := by
      refine le_trans ?_ h5
      rw [Prod.norm_def, Prod.norm_def]
      refine max_le_max le_rfl ?_
      simp
    rw [Real.norm_eq_abs] at a2
    simp only at a1 a2
    have a4 : |b.weightAt z.1 i - b.weightAt (Y (k * dt)).1 i| ≤ M * dt := by
      refine a2.trans ?_
      have := mul_le_mul (hLs ⟨i, hi⟩) a3 (norm_nonneg _) hLnn
      rw [hM]
      nlinarith [mul_nonneg (abs_nonneg C) d0.le]
    have := abs_add_le (b.weightAt z.1 i - b.weightAt (Y (k * dt)).1 i) (b.weightAt (Y (k * dt)).1 i)
    rw [sub_add_cancel] at this
    linarith

/-! ## Witness -/

/-- A pendulum with viscous friction. -/
noncomputable def creakRB : RB := { ballRB .rx with
  inertia := ⟨1, ⟨0, 0, -1⟩, 1⟩,
  joint := { mkJoint .rx with fCoulomb := .fin 0, fViscous := .fin 2, fStiction := .fin 0 } }

noncomputable def creak : Body :=
  { solo .rx with rbs := [{ creakRB with id := 0, idParent := -1 }] }

theorem creak_exec (E : Ext) :
    execAll E (Body.init cache0) [.addRigidBody creakRB (-1)] = some creak := by
  simp [execAll, Op.exec, Op.step, addRigidBody, Out.map, Out.bind, Body.init, pushSub, creak, solo]

theorem creak_reach (E : Ext) : ∃ d, Reach E creak d := by
  refine reach_execAll _ (Reach.init cache0) ?_ (creak_exec E)
  intro op hop
  simp only [List.mem_cons, List.not_mem_nil, or_false] at hop
  subst hop
  exact Iso.valid_one

theorem creak_definite : creak.Definite := by
  have h0 : ∀ k < creak.dof, k = 0 := fun k hk => Nat.lt_one_iff.1 hk
  refine ⟨fun k hk => ?_, fun k hk => ?_, fun k hk v hv => ?_, fun k hk L hL => ?_, fun k hk => ?_⟩
  all_goals first | cases hL | (rw [h0 k hk])
  · show (0 : ℝ) < 1; norm_num
  · exact ball_phys.2.1
  · exact ball_pd v hv
  · intro h
    have := congrArg (fun m : Motion => m.ang.x) h
    simp [creak, creakRB, Body.rb, ballRB, mkJoint, JType.subspace] at this

/-- The hypotheses hold for that pendulum pushed from any position with any speed, for every method and
both forward dynamics. -/
example (E : Ext) (m : Method) (aba : Bool) (x w : ℝ) : ∃ (d : Bool) (q dq : ℝ → List ℝ),
    Reach E creak d ∧ creak.Definite ∧ creak.AxesOK ∧ creak.dof = 1 ∧
    (∀ i < creak.dof, (creak.rb i).joint.type = .rx ∨ (creak.rb i).joint.type = .ry ∨
      (creak.rb i).joint.type = .rz) ∧
    (∀ i < creak.dof, Coef (creak.rb i).joint 0 2 0) ∧ creak.T0.R.mulVec creak.g = creak.g ∧
    q 0 = [x] ∧ dq 0 = [w] ∧
    ∀ T, creak.Moves E (fun _ => 0) (fun _ => none) ⟨true, true, true, false, m, aba, 0⟩ T q dq := by
  obtain ⟨d, h⟩ := creak_reach E
  have h0 : ∀ k < creak.dof, k = 0 := fun k hk => Nat.lt_one_iff.1 hk
  have hx : creak.AxesOK := fun k hk => by rw [h0 k hk]; rfl
  have hc : ∀ i < creak.dof, Coef (creak.rb i).joint 0 2 0 := fun i hi => by
    rw [h0 i hi]; exact ⟨rfl, rfl, rfl, le_rfl, by norm_num, le_rfl⟩
  obtain ⟨q, dq, h1, h2, h3⟩ := C143_exists h creak_definite hx (v := fun _ => 2) hc (fun _ => 0)
    (fun _ => none) (o := ⟨true, true, true, false, m, aba, 0⟩) rfl le_rfl rfl (q0 := [x])
    (dq0 := [w]) rfl rfl
  exact ⟨d, q, dq, h, creak_definite, hx, rfl, fun i hi => .inl (by rw [h0 i hi]; rfl), hc,
    Mat3.one_mulVec _, h1, h2, h3⟩

end SpatialDyn
