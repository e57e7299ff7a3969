import Verif.Lemmas.LoopCode
import Verif.Props.Converge

/-!
# C81, C82: the joint-space controller reaches its goal

`Driven` (`Verif.Spec.Loop`): the body moves under the torques the controller answers at every time.
`calls`: the controller is called repeatedly with an `integration_step`.
-/

namespace SpatialDyn
open Set Body OneStep Matrix
open scoped ContDiff

variable {E : Ext} {C : Ctl} {U : C.Quat → Prop} {b : Body} {d : Bool}

theorem near_norm {goal q dq : List ℝ} {ρ : ℝ} (hρ : 0 ≤ ρ) (h : Near b.dof goal q dq ρ) :
    ‖((fun i => q.getD i 0, fun i => dq.getD i 0) : State b.dof) - (vecOf b.dof goal, 0)‖ ≤ ρ :=
  state_norm_le hρ fun i => by
    have := h i i.2
    simpa [vecOf] using this

theorem norm_near {goal q dq : List ℝ} {ρ : ℝ}
    (h : ‖((fun i => q.getD i 0, fun i => dq.getD i 0) : State b.dof) - (vecOf b.dof goal, 0)‖ ≤ ρ) :
    Near b.dof goal q dq ρ := by
  intro i hi
  have h1 := state_coord (((fun i => q.getD i 0, fun i => dq.getD i 0) : State b.dof) -
    (vecOf b.dof goal, 0)) ⟨i, hi⟩
  simp only [vecOf, Prod.fst_sub, Prod.snd_sub, Pi.sub_apply, Pi.zero_apply, sub_zero] at h1
  exact ⟨h1.1.trans h, h1.2.trans h⟩

theorem driven_solves (h : Reach E b d) (hd : b.Definite) (hL : C.Law U) {goal : List ℝ}
    (hgl : goal.length = b.dof) {kp kv : ℝ} {maxAcc : Option ℝ} (ha : maxAcc.getD 0 ≤ 0)
    {thr : Option (ℝ × ℝ)} {o : IntOpts} (hf : o.friction = false) (hg : o.gravity = true)
    (hbase : o.aba = false ∨ b.T0.R.mulVec b.g = b.g) {T : ℝ} {q dq : ℝ → List ℝ}
    (hD : b.Driven E (fun B => B.jointSpaceControl E C (some goal) (kp, kv) maxAcc thr) o T q dq) :
    Solves (fun y => b.plant o.cc (b.pdTau (vecOf b.dof goal) kp kv y, y)) T (stateOf b q dq) := by
  have hm := hd.massive h.inv.tree
  intro t ht
  obtain ⟨b1, B, r, h1, h2, h3, h4⟩ := hD t ht
  have hA := atState_of_set h h1 h2
  obtain ⟨r', e1, e2, -⟩ := hA.control h hd hL hgl kp kv ha thr none
  have h3' : r = r' := by
    have := h3.symm.trans e1
    exact Out.ok.inj this
  subst h3'
  refine (hasDerivWithinAt_pi.2 fun i : Fin b.dof => (h4 i i.2).1).prodMk
    (hasDerivWithinAt_pi.2 fun i : Fin b.dof => ?_)
  have h5 := (h4 i i.2).2
  rw [field_of_set h hm cache0_clear r.1.1 noExt o h1 h2 i,
    field_plant h hd cache0_clear hf hg hbase e2] at h5
  exact h5

/-- C81: the goal is locally exponentially stable.  A body of definite inertia that starts close
enough to the goal, and slowly enough, and moves under the torques of the controller with positive
gains, approaches the goal exponentially, together with its velocities; the velocity products, which
the controller does not compensate, may act (`o.cc`).  Gravity is compensated, there is no friction,
and the acceleration is not clipped.  (With `aba` the base must not turn the gravity vector.) -/
theorem C81_stable (h : Reach E b d) (hd : b.Definite) (hL : C.Law U) {goal : List ℝ}
    (hgl : goal.length = b.dof) {kp kv : ℝ} (hp : 0 < kp) (hv : 0 < kv) {maxAcc : Option ℝ}
    (ha : maxAcc.getD 0 ≤ 0) (thr : Option (ℝ × ℝ)) {o : IntOpts} (hf : o.friction = false)
    (hg : o.gravity = true) (hbase : o.aba = false ∨ b.T0.R.mulVec b.g = b.g) :
    ∃ r > 0, ∃ K, ∃ w > 0, ∀ T q dq,
      b.Driven E (fun B => B.jointSpaceControl E C (some goal) (kp, kv) maxAcc thr) o T q dq →
      ∀ ρ, 0 ≤ ρ → ρ ≤ r → Near b.dof goal (q 0) (dq 0) ρ →
      ∀ t ∈ Icc 0 T, Near b.dof goal (q t) (dq t) (K * ρ * Real.exp (-(w * t))) := by
  obtain ⟨r, hr, K, w, hw, key⟩ := (pdLyap b.dof hp hv).stable
    (loop_zero h hd (vecOf b.dof goal) kp kv o.cc) (loop_deriv h hd (vecOf b.dof goal) kp kv o.cc)
  refine ⟨r, hr, |K|, w, hw, fun T q dq hD ρ hρ hρr hN t ht => ?_⟩
  have h1 := near_norm hρ hN
  have h2 := key T (stateOf b q dq) (driven_solves h hd hL hgl ha hf hg hbase hD) (h1.trans hρr) t ht
  refine norm_near (h2.trans ?_)
  have := le_abs_self K
  gcongr
  exact h1

/-- C81: when the velocity products do not act, this holds from everywhere. -/
theorem C81_global (h : Reach E b d) (hd : b.Definite) (hL : C.Law U) {goal : List ℝ}
    (hgl : goal.length = b.dof) {kp kv : ℝ} (hp : 0 < kp) (hv : 0 < kv) {maxAcc : Option ℝ}
    (ha : maxAcc.getD 0 ≤ 0) (thr : Option (ℝ × ℝ)) {o : IntOpts} (hf : o.friction = false)
    (hg : o.gravity = true) (hcc : o.cc = false)
    (hbase : o.aba = false ∨ b.T0.R.mulVec b.g = b.g) :
    ∃ K, ∃ w > 0, ∀ T q dq,
      b.Driven E (fun B => B.jointSpaceControl E C (some goal) (kp, kv) maxAcc thr) o T q dq →
      ∀ ρ, 0 ≤ ρ → Near b.dof goal (q 0) (dq 0) ρ →
      ∀ t ∈ Icc 0 T, Near b.dof goal (q t) (dq t) (K * ρ * Real.exp (-(w * t))) := by
  obtain ⟨K, w, hw, key⟩ := (pdLyap b.dof hp hv).stable_global
    (loop_linear h hd (vecOf b.dof goal) kp kv)
  refine ⟨|K|, w, hw, fun T q dq hD ρ hρ hN t ht => ?_⟩
  have h1 := near_norm hρ hN
  have hS := driven_solves h hd hL hgl ha hf hg hbase hD
  rw [hcc] at hS
  have h2 := key T (stateOf b q dq) hS t ht
  refine norm_near (h2.trans ?_)
  have := le_abs_self K
  gcongr
  exact h1

/-- C81: from every state close to the goal there is such a motion, for all times. -/
theorem C81_exists (h : Reach E b d) (hd : b.Definite) (hL : C.Law U) {goal : List ℝ}
    (hgl : goal.length = b.dof) {kp kv : ℝ} (hp : 0 < kp) (hv : 0 < kv) {maxAcc : Option ℝ}
    (ha : maxAcc.getD 0 ≤ 0) (thr : Option (ℝ × ℝ)) {o : IntOpts} (hf : o.friction = false)
    (hg : o.gravity = true) (hbase : o.aba = false ∨ b.T0.R.mulVec b.g = b.g) :
    ∃ r > 0, ∀ q0 dq0 : List ℝ, q0.length = b.dof → dq0.length = b.dof → Near b.dof goal q0 dq0 r →
      ∃ q dq : ℝ → List ℝ, q 0 = q0 ∧ dq 0 = dq0 ∧ ∀ T,
        b.Driven E (fun B => B.jointSpaceControl E C (some goal) (kp, kv) maxAcc thr) o T q dq := by
  have hm := hd.massive h.inv.tree
  obtain ⟨r, hr, key⟩ := (pdLyap b.dof hp hv).exists_forever
    (loop_zero h hd (vecOf b.dof goal) kp kv o.cc) (loop_deriv h hd (vecOf b.dof goal) kp kv o.cc)
    (loop_smooth h hd (vecOf b.dof goal) kp kv o.cc)
  refine ⟨r, hr, fun q0 dq0 hq hdq hN => ?_⟩
  obtain ⟨Y, h0, hY⟩ := key _ (near_norm hr.le hN)
  refine ⟨fun t => List.ofFn (Y t).1, fun t => List.ofFn (Y t).2, ?_, ?_, fun T t ht => ?_⟩
  · simp only [h0]; exact stateOf_ofFn hq
  · simp only [h0]; exact stateOf_ofFn hdq
  · obtain ⟨b1, h1, e1⟩ := setQ_total (b := b) (q := List.ofFn (Y t).1) (by simp)
    obtain ⟨B, h2, e2⟩ := setDq_total (b := b1) (q := List.ofFn (Y t).2) (by simp [e1])
    have hA := atState_of_set h h1 h2
    obtain ⟨r', a1, a2, -⟩ := hA.control h hd hL hgl kp kv ha thr none
    refine ⟨b1, B, r', h1, h2, a1, fun i hi => ?_⟩
    have hs := hY T t ht
    have e : ((fun i => (List.ofFn (Y t).1).getD i 0, fun i => (List.ofFn (Y t).2).getD i 0) :
        State b.dof) = Y t :=
      Prod.ext (funext fun i => getD_ofFn _ i) (funext fun i => getD_ofFn _ i)
    have g1 : ∀ s, (List.ofFn (Y s).1).getD i 0 = (Y s).1 ⟨i, hi⟩ := fun s => getD_ofFn _ ⟨i, hi⟩
    have g2 : ∀ s, (List.ofFn (Y s).2).getD i 0 = (Y s).2 ⟨i, hi⟩ := fun s => getD_ofFn _ ⟨i, hi⟩
    simp only [g1, g2]
    constructor
    · exact hasDerivWithinAt_pi.1 ((hasFDerivAt_fst (𝕜 := ℝ)).comp_hasDerivWithinAt t hs) ⟨i, hi⟩
    · rw [field_of_set h hm cache0_clear r'.1.1 noExt o h1 h2 ⟨i, hi⟩,
        field_plant h hd cache0_clear hf hg hbase a2, e]
      exact hasDerivWithinAt_pi.1 ((hasFDerivAt_snd (𝕜 := ℝ)).comp_hasDerivWithinAt t hs) ⟨i, hi⟩

/-! ## C82: repeated calls with an integration step -/

/-- The map of one call. -/
noncomputable def callMap (b : Body) (goal : List ℝ) (kp kv dt : ℝ) (y : State b.dof) : State b.dof :=
  rk4 (fun z => b.plant true (b.pdTau (vecOf b.dof goal) kp kv y, z)) id dt y

theorem calls_map (h : Reach E b d) (hd : b.Definite) (hL : C.Law U) {goal : List ℝ}
    (hgl : goal.length = b.dof) (kp kv : ℝ) {maxAcc : Option ℝ} (ha : maxAcc.getD 0 ≤ 0)
    (thr : Option (ℝ × ℝ)) (dt : ℝ) {y : State b.dof} {B : Body} (hA : AtState E b y B) (n : ℕ) :
    ∃ b', calls (fun B => B.jointSpaceControl E C (some goal) (kp, kv) maxAcc thr (step := some dt))
      n B = .ok b' ∧ AtState E b ((callMap b goal kp kv dt)^[n] y) b' := by
  induction n with
  | zero => exact ⟨B, rfl, hA⟩
  | succ n ih =>
    obtain ⟨b1, h1, h2⟩ := ih
    obtain ⟨r, e1, -, -, -, e2⟩ := h2.control h hd hL hgl kp kv ha thr (some dt)
    refine ⟨r.2, by simp only [calls, h1, e1], ?_⟩
    rw [Function.iterate_succ_apply']
    exact e2 dt rfl

/-- C82: called repeatedly with an integration step that is not too large, from a state close to the
goal, the controller never fails and the body approaches the goal exponentially in the time `k dt`:
`r`, `K`, the rate `w` and the largest step `h0` do not depend on the step, the state or the number of
calls. -/
theorem C82_sampled (h : Reach E b d) (hd : b.Definite) (hL : C.Law U) {goal : List ℝ}
    (hgl : goal.length = b.dof) {kp kv : ℝ} (hp : 0 < kp) (hv : 0 < kv) {maxAcc : Option ℝ}
    (ha : maxAcc.getD 0 ≤ 0) (thr : Option (ℝ × ℝ)) :
    ∃ r > 0, ∃ K, ∃ w > 0, ∃ h0 > 0, ∀ dt, 0 < dt → dt ≤ h0 → ∀ b1 B q dq, b.setQ q = .ok b1 →
      b1.setDq dq = .ok B → ∀ ρ, 0 ≤ ρ → ρ ≤ r → Near b.dof goal q dq ρ → ∀ k : ℕ,
      ∃ b', calls (fun B => B.jointSpaceControl E C (some goal) (kp, kv) maxAcc thr (step := some dt))
        k B = .ok b' ∧ b'.rbs = b.rbs ∧
        Near b.dof goal b'.q b'.dq (K * ρ * Real.exp (-(w * (k * dt)))) := by
  have hG : ContDiff ℝ 1 (b.plant true) := (plant_smooth h hd true).of_le (by simp)
  have hu : ContDiff ℝ 1 (b.pdTau (vecOf b.dof goal) kp kv) := (pdTau_smooth h _ kp kv).of_le (by simp)
  have hz := loop_zero h hd (vecOf b.dof goal) kp kv true
  obtain ⟨ρ0, hρ0, h1, hh1, K0, hK0⟩ := rk4_frozen (y0 := (vecOf b.dof goal, 0)) hG hu hz
  obtain ⟨r, hr, K, w, hw, h2, hh2, key⟩ := (pdLyap b.dof hp hv).stable_discrete hz
    (loop_deriv h hd (vecOf b.dof goal) kp kv true) (Φ := callMap b goal kp kv) hρ0 hh1 hK0
  refine ⟨r, hr, |K|, w, hw, h2, hh2, fun dt hdt hdt' b1 B q dq s1 s2 ρ hρ hρr hN k => ?_⟩
  have hA := atState_of_set h s1 s2
  obtain ⟨b', c1, c2⟩ := calls_map h hd hL hgl kp kv ha thr dt hA k
  refine ⟨b', c1, c2.only.rbs, norm_near ?_⟩
  have e : ((fun i => b'.q.getD i 0, fun i => b'.dq.getD i 0) : State b.dof) =
      (callMap b goal kp kv dt)^[k] (fun i => q.getD i 0, fun i => dq.getD i 0) := by
    rw [c2.q, c2.dq]
    exact Prod.ext (funext fun i => getD_ofFn _ i) (funext fun i => getD_ofFn _ i)
  have hn := near_norm hρ hN
  rw [e]
  refine (key dt hdt hdt' _ (hn.trans hρr) k).trans ?_
  have := le_abs_self K
  gcongr

/-- C82: and eventually every call reports convergence, whatever the (positive) thresholds. -/
theorem C82_reports (h : Reach E b d) (hd : b.Definite) (hL : C.Law U) {goal : List ℝ}
    (hgl : goal.length = b.dof) {kp kv : ℝ} (hp : 0 < kp) (hv : 0 < kv) {maxAcc : Option ℝ}
    (ha : maxAcc.getD 0 ≤ 0) :
    ∃ r > 0, ∃ h0 > 0, ∀ dt, 0 < dt → dt ≤ h0 → ∀ b1 B q dq, b.setQ q = .ok b1 →
      b1.setDq dq = .ok B → Near b.dof goal q dq r → ∀ t : ℝ × ℝ, 0 < t.1 → 0 < t.2 →
      ∃ N, ∀ k ≥ N, ∃ b' r',
        calls (fun B => B.jointSpaceControl E C (some goal) (kp, kv) maxAcc (some t)
          (step := some dt)) k B = .ok b' ∧
        b'.jointSpaceControl E C (some goal) (kp, kv) maxAcc (some t) (step := some dt) = .ok r' ∧
        r'.1.2 = true := by
  obtain ⟨r, hr, K, w, hw, h0, hh0, key⟩ := C82_sampled (E := E) h hd hL hgl hp hv ha none
  refine ⟨r, hr, h0, hh0, fun dt hdt hdt' b1 B q dq s1 s2 hN t ht1 ht2 => ?_⟩
  have hA := atState_of_set h s1 s2
  -- the errors become small
  have hlim : Filter.Tendsto (fun k : ℕ => b.dof * (K * r * Real.exp (-(w * (k * dt)))) ^ 2)
      Filter.atTop (nhds 0) := by
    have e1 : Filter.Tendsto (fun k : ℕ => w * ((k : ℝ) * dt)) Filter.atTop Filter.atTop :=
      (tendsto_natCast_atTop_atTop.atTop_mul_const hdt).const_mul_atTop hw
    have e2 := Real.tendsto_exp_neg_atTop_nhds_zero.comp e1
    have e3 := ((e2.const_mul (K * r)).pow 2).const_mul (b.dof : ℝ)
    simpa [Function.comp] using e3
  have hpos : 0 < min (t.1 ^ 2) (t.2 ^ 2) := by positivity
  obtain ⟨N, hNN⟩ := Filter.eventually_atTop.1 (hlim.eventually (gt_mem_nhds hpos))
  refine ⟨N, fun k hk => ?_⟩
  obtain ⟨b', c1, c2⟩ := calls_map (E := E) h hd hL hgl kp kv ha (some t) dt hA k
  obtain ⟨r', a1, -, a3, -⟩ := c2.control h hd hL hgl kp kv ha (some t) (some dt)
  refine ⟨b', r', c1, a1, a3.2 fun t' e => ?_⟩
  obtain rfl := Option.some.inj e
  obtain ⟨b'', f1, f2⟩ := calls_map (E := E) h hd hL hgl kp kv ha none dt hA k
  obtain ⟨b3, g1, -, g2⟩ := key dt hdt hdt' b1 B q dq s1 s2 r hr.le le_rfl hN k
  have hb : b3 = b'' := Out.ok.inj (g1.symm.trans f1)
  subst hb
  have hsmall := hNN k hk
  have hsum : ∀ f : ℕ → ℝ, (∀ i < b.dof, |f i| ≤ K * r * Real.exp (-(w * (k * dt)))) →
      ∑ i ∈ Finset.range b.dof, f i ^ 2 ≤ b.dof * (K * r * Real.exp (-(w * (k * dt)))) ^ 2 := by
    intro f hfi
    refine (Finset.sum_le_sum fun i hi => sq_le_sq' (abs_le.1 (hfi i (Finset.mem_range.1 hi))).1
      (abs_le.1 (hfi i (Finset.mem_range.1 hi))).2).trans_eq ?_
    simp
  rw [f2.q, f2.dq, ← c2.q, ← c2.dq] at g2
  constructor
  · rw [Real.sqrt_lt' ht1]
    exact (hsum _ fun i hi => (g2 i hi).1).trans_lt (hsmall.trans_le (min_le_left _ _))
  · rw [Real.sqrt_lt' ht2]
    exact (hsum _ fun i hi => (g2 i hi).2).trans_lt (hsmall.trans_le (min_le_right _ _))

/-- C82: in particular `joint_space_control(ab, goal, integration_step=dt)`, everything else left at
its default. -/
theorem C82_defaults (h : Reach E b d) (hd : b.Definite) (hL : C.Law U) {goal : List ℝ}
    (hgl : goal.length = b.dof) :
    ∃ r > 0, ∃ K, ∃ w > 0, ∃ h0 > 0, ∀ dt, 0 < dt → dt ≤ h0 → ∀ b1 B q dq, b.setQ q = .ok b1 →
      b1.setDq dq = .ok B → ∀ ρ, 0 ≤ ρ → ρ ≤ r → Near b.dof goal q dq ρ → ∀ k : ℕ,
      ∃ b', calls (fun B => B.jointSpaceControl E C (some goal) (step := some dt)) k B = .ok b' ∧
        b'.rbs = b.rbs ∧ Near b.dof goal b'.q b'.dq (K * ρ * Real.exp (-(w * (k * dt)))) :=
  C82_sampled h hd hL hgl (by norm_num) (by norm_num) (by simp) none

/-- C81: the same for motions under `joint_space_control(ab, goal)`. -/
theorem C81_defaults (h : Reach E b d) (hd : b.Definite) (hL : C.Law U) {goal : List ℝ}
    (hgl : goal.length = b.dof) :
    ∃ r > 0, ∃ K, ∃ w > 0, ∀ T q dq,
      b.Driven E (fun B => B.jointSpaceControl E C (some goal)) IntOpts.make T q dq →
      ∀ ρ, 0 ≤ ρ → ρ ≤ r → Near b.dof goal (q 0) (dq 0) ρ →
      ∀ t ∈ Icc 0 T, Near b.dof goal (q t) (dq t) (K * ρ * Real.exp (-(w * t))) :=
  C81_stable h hd hL hgl (by norm_num) (by norm_num) (by simp) none rfl rfl (.inl rfl)

/-- The hypotheses hold for the loaded witness body, which has states other than the goal that are as
close to it as needed. -/
example (E : Ext) {r : ℝ} (hr : 0 < r) : ∃ d b1 B, Reach E demoLoaded d ∧ demoLoaded.Definite ∧
    ctl0.Law Mat3.IsRot ∧ demoLoaded.dof = 3 ∧ demoLoaded.setQ [1 + r, 2, 3] = .ok b1 ∧
    b1.setDq [r, 0, -r] = .ok B ∧ Near demoLoaded.dof [1, 2, 3] [1 + r, 2, 3] [r, 0, -r] r := by
  obtain ⟨d, h⟩ := demoLoaded_reach E
  obtain ⟨b1, h1, e1⟩ := setQ_total (b := demoLoaded) (q := [1 + r, 2, 3]) rfl
  obtain ⟨B, h2, e2⟩ := setDq_total (b := b1) (q := [r, 0, -r]) (by rw [e1]; rfl)
  refine ⟨d, b1, B, h, demoLoaded_definite, ctl0_law, rfl, h1, h2, fun i hi => ?_⟩
  have hi : i < 3 := hi
  interval_cases i <;> simp [abs_of_pos hr, hr.le]

end SpatialDyn
