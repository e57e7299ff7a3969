import Verif.Lemmas.TaskSteer
import Verif.Props.Posture

/-!
# C95, C96: a body under operational-space control

`opspace_control` in the loop, near a configuration that meets all its goals.
-/

namespace SpatialDyn
open Set Body OneStep Matrix

variable {E : Ext} {C : Ctl} {U : C.Quat → Prop} {b : Body} {d : Bool} {T : Set ℝ}

section
variable {a : CtlArgs C} {m : ℕ} {c : ℝ}

theorem Body.Aim.stable (hA : Aim E b a m c) (h : Careful E T b d) (hD : b.Definite) (hd : 0 < b.dof)
    (h0 : (0 : ℝ) ∈ T) (hE : ∀ e ∈ T, E.LeastSquares e) (hL : C.Law U) {o : IntOpts}
    (hf : o.friction = false) (hg : o.gravity = true)
    (hbase : o.aba = false ∨ b.T0.R.mulVec b.g = b.g) :
    ∃ r > 0, ∃ K, ∃ w > 0, ∀ S q dq, b.Driven E (fun B => B.opspaceControl E C a) o S q dq →
      ∀ ρ, 0 ≤ ρ → ρ ≤ r → Near b.dof a.qDes (q 0) (dq 0) ρ →
      ∀ t ∈ Icc 0 S, Near b.dof a.qDes (q t) (dq t) (K * ρ * Real.exp (-(w * t))) := by
  obtain ⟨ρ0, hρ, key⟩ := hA.near h.reach hD hd h0 hE hL
  obtain ⟨L⟩ := hA.lyap
  exact (key a.dt a.xThr a.dxThr a.oriThr a.wThr).1.stable hρ h.reach hD
    (fun _ _ _ _ s1 s2 => Held.set ⟨_, h⟩ s1 s2) hf hg hbase (hA.rest h.reach hD _)
    (hA.plant_deriv h.reach hD hd _) L

theorem Body.Aim.exists (hA : Aim E b a m c) (h : Careful E T b d) (hD : b.Definite) (hd : 0 < b.dof)
    (h0 : (0 : ℝ) ∈ T) (hE : ∀ e ∈ T, E.LeastSquares e) (hL : C.Law U) {o : IntOpts}
    (hf : o.friction = false) (hg : o.gravity = true)
    (hbase : o.aba = false ∨ b.T0.R.mulVec b.g = b.g) :
    ∃ r > 0, ∀ q0 dq0 : List ℝ, q0.length = b.dof → dq0.length = b.dof →
      Near b.dof a.qDes q0 dq0 r → ∃ q dq : ℝ → List ℝ, q 0 = q0 ∧ dq 0 = dq0 ∧
        ∀ S, b.Driven E (fun B => B.opspaceControl E C a) o S q dq := by
  obtain ⟨ρ0, hρ, key⟩ := hA.near h.reach hD hd h0 hE hL
  obtain ⟨L⟩ := hA.lyap
  exact (key a.dt a.xThr a.dxThr a.oriThr a.wThr).1.exists hρ h.reach hD
    (fun _ _ _ _ s1 s2 => Held.set ⟨_, h⟩ s1 s2) hf hg hbase (hA.tau_cd h.reach hD hd)
    (hA.rest h.reach hD _) (hA.plant_deriv h.reach hD hd _) L

theorem Body.Aim.sampled (hA : Aim E b a m c) (h : Careful E T b d) (hD : b.Definite) (hd : 0 < b.dof)
    (h0 : (0 : ℝ) ∈ T) (hE : ∀ e ∈ T, E.LeastSquares e) (hL : C.Law U) :
    ∃ r > 0, ∃ K, ∃ w > 0, ∃ h0 > 0, ∀ dt, 0 < dt → dt ≤ h0 → ∀ t1 t2 t3 t4 b1 B q dq,
      b.setQ q = .ok b1 → b1.setDq dq = .ok B → ∀ ρ, 0 ≤ ρ → ρ ≤ r → Near b.dof a.qDes q dq ρ →
      ∀ k : ℕ, ∃ b' y, calls (fun B => B.opspaceControl E C
          { a with dt := dt, xThr := t1, dxThr := t2, oriThr := t3, wThr := t4 }) k B = .ok b' ∧
        Held E T b' ∧ AtState E b y b' ∧
        ((m = 3 ∧ singQ E b a.xTask y.1) ∨ (m = 6 ∧ ¬ singQ E b a.xTask y.1 ∧ a.dwMax ≤ 0)) ∧
        (∃ r, b'.opspaceControl E C
          { a with dt := dt, xThr := t1, dxThr := t2, oriThr := t3, wThr := t4 } = .ok r) ∧
        Near b.dof a.qDes b'.q b'.dq (K * ρ * Real.exp (-(w * (k * dt)))) := by
  obtain ⟨ρ0, hρ, key⟩ := hA.near h.reach hD hd h0 hE hL
  obtain ⟨L⟩ := hA.lyap
  obtain ⟨r, hr, K, w, hw, s0, hs0, g⟩ := steer_sampled (P := Held E T)
    (u := b.tauOf (accQ b a c m)) (goal := a.qDes) hρ h.reach hD
    (fun _ _ _ _ s1 s2 => Held.set ⟨_, h⟩ s1 s2) (hA.tau_cd h.reach hD hd) (hA.rest h.reach hD _)
    (hA.plant_deriv h.reach hD hd _) L
  refine ⟨r, hr, K, w, hw, s0, hs0, fun dt hdt hdt' t1 t2 t3 t4 b1 B q dq s1 s2 ρ g1 g2 hN k => ?_⟩
  obtain ⟨b', y, c1, c2, c3, c4, c5⟩ :=
    g dt hdt hdt' _ ((key dt t1 t2 t3 t4).2.1 hdt) b1 B q dq s1 s2 ρ g1 g2 hN k
  obtain ⟨rr, e1, -⟩ := (key dt t1 t2 t3 t4).1 y b' c4 c3 c2
  exact ⟨b', y, c1, c2, c3, (key dt t1 t2 t3 t4).2.2 y c4, ⟨rr, e1⟩, c5⟩

theorem below_of {t : ℝ} (ht : t ≠ 0) {v : Vec3} (h1 : |v.x| ≤ |t| / 2) (h2 : |v.y| ≤ |t| / 2)
    (h3 : |v.z| ≤ |t| / 2) : Below t v := by
  refine .inr ?_
  have h0 : 0 < |t| := abs_pos.2 ht
  have e : t ^ 2 = |t| ^ 2 := (sq_abs t).symm
  have k : ∀ x : ℝ, |x| ≤ |t| / 2 → x * x ≤ (|t| / 2) ^ 2 := fun x hx => by
    rw [← abs_mul_abs_self x]
    nlinarith [abs_nonneg x]
  show v.x * v.x + v.y * v.y + v.z * v.z < t ^ 2
  rw [e]
  nlinarith [k _ h1, k _ h2, k _ h3]

theorem Body.Aim.reports (hA : Aim E b a m c) (h : Careful E T b d) (hD : b.Definite) (hd : 0 < b.dof)
    (h0 : (0 : ℝ) ∈ T) (hE : ∀ e ∈ T, E.LeastSquares e) (hL : C.Law U) :
    ∃ r > 0, ∃ h0 > 0, ∀ dt, 0 < dt → dt ≤ h0 → ∀ b1 B q dq, b.setQ q = .ok b1 →
      b1.setDq dq = .ok B → Near b.dof a.qDes q dq r →
      ∀ t1 t2 t3 t4 : ℝ, t1 ≠ 0 → t2 ≠ 0 → t3 ≠ 0 → t4 ≠ 0 → ∃ N, ∀ k ≥ N, ∃ b' r',
        calls (fun B => B.opspaceControl E C
          { a with dt := dt, xThr := t1, dxThr := t2, oriThr := t3, wThr := t4 }) k B = .ok b' ∧
        b'.opspaceControl E C
          { a with dt := dt, xThr := t1, dxThr := t2, oriThr := t3, wThr := t4 } = .ok r' ∧
        r'.1.2.testBit 0 = true ∧ r'.1.2.testBit 1 = true ∧ r'.1.2.testBit 3 = true ∧
        (m = 6 → r'.1.2.testBit 2 = true) ∧ (r'.1.2.testBit 4 = true ↔ m = 3) := by
  obtain ⟨r, hr, K, w, hw, s0, hs0, key⟩ := hA.sampled h hD hd h0 hE hL
  refine ⟨r, hr, s0, hs0, fun dt hdt hdt' b1 B q dq s1 s2 hN t1 t2 t3 t4 p1 p2 p3 p4 => ?_⟩
  have hc : 0 < |c| + 1 := by positivity
  set ε := min (min (|t1| / 2) (|t2| / 2)) (min (|t3| / (2 * (|c| + 1))) (|t4| / 2)) with hε
  have hε0 : 0 < ε := by
    have := abs_pos.2 p1; have := abs_pos.2 p2; have := abs_pos.2 p3; have := abs_pos.2 p4
    positivity
  have le1 : ε ≤ |t1| / 2 := (min_le_left _ _).trans (min_le_left _ _)
  have le2 : ε ≤ |t2| / 2 := (min_le_left _ _).trans (min_le_right _ _)
  have le3 : ε ≤ |t3| / (2 * (|c| + 1)) := (min_le_right _ _).trans (min_le_left _ _)
  have le4 : ε ≤ |t4| / 2 := (min_le_right _ _).trans (min_le_right _ _)
  obtain ⟨δ, hδ, hsm⟩ := hA.small h.reach hd hε0
  have hlim : Filter.Tendsto (fun k : ℕ => K * r * Real.exp (-(w * (k * dt))))
      Filter.atTop (nhds 0) := by
    have e1 : Filter.Tendsto (fun k : ℕ => w * ((k : ℝ) * dt)) Filter.atTop Filter.atTop :=
      (tendsto_natCast_atTop_atTop.atTop_mul_const hdt).const_mul_atTop hw
    have e2 := Real.tendsto_exp_neg_atTop_nhds_zero.comp e1
    have e3 := e2.const_mul (K * r)
    simpa [Function.comp] using e3
  obtain ⟨N, hNN⟩ := Filter.eventually_atTop.1 (hlim.eventually (gt_mem_nhds hδ))
  refine ⟨N, fun k hk => ?_⟩
  obtain ⟨b', y, c1, ⟨d', c2⟩, c3, c4, ⟨r', c5⟩, c6⟩ :=
    key dt hdt hdt' t1 t2 t3 t4 b1 B q dq s1 s2 r hr.le le_rfl hN k
  refine ⟨b', r', c1, c5, ?_⟩
  have hn : b'.dof = b.dof := c3.dof
  have hy : ‖y - (vecOf b.dof a.qDes, 0)‖ ≤ δ := by
    have e : ((fun i => b'.q.getD i 0, fun i => b'.dq.getD i 0) : State b.dof) = y := by
      rw [c3.q, c3.dq]
      exact Prod.ext (funext fun i => getD_ofFn _ i) (funext fun i => getD_ofFn _ i)
    rw [← e]
    exact near_norm hδ.le (fun i hi => ⟨(c6 i hi).1.trans (hNN k hk).le, (c6 i hi).2.trans (hNN k hk).le⟩)
  obtain ⟨e1, e2⟩ := hsm y hy
  obtain ⟨J, x, R, hR, hbit⟩ := C51_status c2.reach hL (by omega) c5
  obtain ⟨eJ, eX, eR⟩ := c3.reads hd hR
  have hfr : a.quatTask = none := hA.frame
  dsimp only at hbit eJ eX eR
  rw [hfr] at hbit
  have hV : C.turn none (jacVel b'.dof J b'.dqFun) =
      jacVel b.dof (b.jacQ (b.dof - 1) a.xTask y.1) (padFin y.2) := by
    show jacVel b'.dof J b'.dqFun = _
    rw [c3.dqPad hn, eJ]
  rw [hV] at hbit
  obtain ⟨q0, q1, q2, q3, q4, -, -⟩ := hbit
  have hm3 : 3 ≤ m := by rcases c4 with ⟨rfl, -⟩ | ⟨rfl, -⟩ <;> omega
  refine ⟨q0.2 (below_of p1 ?_ ?_ ?_), q1.2 (below_of p2 ?_ ?_ ?_), q3.2 (below_of p4 ?_ ?_ ?_),
    fun hm => q2.2 (below_of p3 ?_ ?_ ?_), ?_⟩
  · rw [eX]; exact ((e1 ⟨0, by omega⟩).trans_le le1).le
  · rw [eX]; exact ((e1 ⟨1, by omega⟩).trans_le le1).le
  · rw [eX]; exact ((e1 ⟨2, by omega⟩).trans_le le1).le
  · exact ((e2 0 (by omega)).trans_le le2).le
  · exact ((e2 1 (by omega)).trans_le le2).le
  · exact ((e2 2 (by omega)).trans_le le2).le
  · exact ((e2 3 (by omega)).trans_le le4).le
  · exact ((e2 4 (by omega)).trans_le le4).le
  · exact ((e2 5 (by omega)).trans_le le4).le
  all_goals try
    have hsc : ∀ x : ℝ, |c⁻¹ * x| < ε → |x| ≤ |t3| / 2 := fun x hx => by
      have hcp : 0 < |c| := abs_pos.2 hA.c0
      rw [abs_mul, abs_inv] at hx
      have h1 : |x| < |c| * ε := by
        rw [inv_mul_lt_iff₀ hcp] at hx
        exact hx
      have h2 : (|c| + 1) * ε ≤ |t3| / 2 := by
        rw [le_div_iff₀ (by positivity)] at le3
        linarith
      nlinarith
  · rw [eR]; subst hm; exact hsc _ (e1 3)
  · rw [eR]; subst hm; exact hsc _ (e1 4)
  · rw [eR]; subst hm; exact hsc _ (e1 5)
  · rw [q4, hn]
    change b'.Singular E (jac6 b.dof J) 0.01 ↔ _
    rw [eJ]
    refine (c3.singular c2.reach hD hd 6 _ _ _).trans ?_
    change singQ E b a.xTask y.1 ↔ _
    rcases c4 with ⟨rfl, hs⟩ | ⟨rfl, hs, -⟩
    · simp [hs]
    · simp [hs]

end

/-! ## C95 -/

/-- C95: near a configuration that meets the goals for the position of the tracked point and for the
posture, where the full Jacobian counts as singular, a body whose torques are those of
`opspace_control` at every time returns to that configuration exponentially. -/
theorem C95_point_stable (h : Careful E T b d) (hD : b.Definite) (hx : b.AxesOK) (hd : 0 < b.dof)
    (h0 : (0 : ℝ) ∈ T) (hE : ∀ e ∈ T, E.LeastSquares e) (hL : C.Law U) {a : CtlArgs C}
    (hG : b.PointGoal E a) {o : IntOpts} (hf : o.friction = false) (hg : o.gravity = true)
    (hbase : o.aba = false ∨ b.T0.R.mulVec b.g = b.g) :
    ∃ r > 0, ∃ K, ∃ w > 0, ∀ S q dq, b.Driven E (fun B => B.opspaceControl E C a) o S q dq →
      ∀ ρ, 0 ≤ ρ → ρ ≤ r → Near b.dof a.qDes (q 0) (dq 0) ρ →
      ∀ t ∈ Icc 0 S, Near b.dof a.qDes (q t) (dq t) (K * ρ * Real.exp (-(w * t))) :=
  (point_aim hG h.reach hD hx hd).stable h hD hd h0 hE hL hf hg hbase

/-- C95: and from every state near it there is such a motion, for all times. -/
theorem C95_point_exists (h : Careful E T b d) (hD : b.Definite) (hx : b.AxesOK) (hd : 0 < b.dof)
    (h0 : (0 : ℝ) ∈ T) (hE : ∀ e ∈ T, E.LeastSquares e) (hL : C.Law U) {a : CtlArgs C}
    (hG : b.PointGoal E a) {o : IntOpts} (hf : o.friction = false) (hg : o.gravity = true)
    (hbase : o.aba = false ∨ b.T0.R.mulVec b.g = b.g) :
    ∃ r > 0, ∀ q0 dq0 : List ℝ, q0.length = b.dof → dq0.length = b.dof →
      Near b.dof a.qDes q0 dq0 r → ∃ q dq : ℝ → List ℝ, q 0 = q0 ∧ dq 0 = dq0 ∧
        ∀ S, b.Driven E (fun B => B.opspaceControl E C a) o S q dq :=
  (point_aim hG h.reach hD hx hd).exists h hD hd h0 hE hL hf hg hbase

/-- C95 for the whole pose, where the Jacobian does not count as singular. -/
theorem C95_pose_stable (h : Careful E T b d) (hD : b.Definite) (hx : b.AxesOK) (hd : 0 < b.dof)
    (h0 : (0 : ℝ) ∈ T) (hE : ∀ e ∈ T, E.LeastSquares e) (hL : C.Law U) {a : CtlArgs C}
    (hG : b.PoseGoal E U a) {o : IntOpts} (hf : o.friction = false) (hg : o.gravity = true)
    (hbase : o.aba = false ∨ b.T0.R.mulVec b.g = b.g) :
    ∃ r > 0, ∃ K, ∃ w > 0, ∀ S q dq, b.Driven E (fun B => B.opspaceControl E C a) o S q dq →
      ∀ ρ, 0 ≤ ρ → ρ ≤ r → Near b.dof a.qDes (q 0) (dq 0) ρ →
      ∀ t ∈ Icc 0 S, Near b.dof a.qDes (q t) (dq t) (K * ρ * Real.exp (-(w * t))) := by
  obtain ⟨c, hA⟩ := pose_aim hL hG h.reach hD hx hd
  exact hA.stable h hD hd h0 hE hL hf hg hbase

theorem C95_pose_exists (h : Careful E T b d) (hD : b.Definite) (hx : b.AxesOK) (hd : 0 < b.dof)
    (h0 : (0 : ℝ) ∈ T) (hE : ∀ e ∈ T, E.LeastSquares e) (hL : C.Law U) {a : CtlArgs C}
    (hG : b.PoseGoal E U a) {o : IntOpts} (hf : o.friction = false) (hg : o.gravity = true)
    (hbase : o.aba = false ∨ b.T0.R.mulVec b.g = b.g) :
    ∃ r > 0, ∀ q0 dq0 : List ℝ, q0.length = b.dof → dq0.length = b.dof →
      Near b.dof a.qDes q0 dq0 r → ∃ q dq : ℝ → List ℝ, q 0 = q0 ∧ dq 0 = dq0 ∧
        ∀ S, b.Driven E (fun B => B.opspaceControl E C a) o S q dq := by
  obtain ⟨c, hA⟩ := pose_aim hL hG h.reach hD hx hd
  exact hA.exists h hD hd h0 hE hL hf hg hbase

/-! ## C96 -/

/-- C96: calls with a small time step bring the body to the configuration exponentially. -/
theorem C96_point_sampled (h : Careful E T b d) (hD : b.Definite) (hx : b.AxesOK) (hd : 0 < b.dof)
    (h0 : (0 : ℝ) ∈ T) (hE : ∀ e ∈ T, E.LeastSquares e) (hL : C.Law U) {a : CtlArgs C}
    (hG : b.PointGoal E a) :
    ∃ r > 0, ∃ K, ∃ w > 0, ∃ h0 > 0, ∀ dt, 0 < dt → dt ≤ h0 → ∀ b1 B q dq, b.setQ q = .ok b1 →
      b1.setDq dq = .ok B → ∀ ρ, 0 ≤ ρ → ρ ≤ r → Near b.dof a.qDes q dq ρ → ∀ k : ℕ,
      ∃ b', calls (fun B => B.opspaceControl E C { a with dt := dt }) k B = .ok b' ∧
        b'.rbs = b.rbs ∧ Near b.dof a.qDes b'.q b'.dq (K * ρ * Real.exp (-(w * (k * dt)))) := by
  obtain ⟨r, hr, K, w, hw, s0, hs0, key⟩ :=
    (point_aim hG h.reach hD hx hd).sampled h hD hd h0 hE hL
  refine ⟨r, hr, K, w, hw, s0, hs0, fun dt hdt hdt' b1 B q dq s1 s2 ρ g1 g2 hN k => ?_⟩
  obtain ⟨b', y, c1, -, c3, -, -, c6⟩ :=
    key dt hdt hdt' a.xThr a.dxThr a.oriThr a.wThr b1 B q dq s1 s2 ρ g1 g2 hN k
  exact ⟨b', c1, c3.only.rbs, c6⟩

/-- C96 for the whole pose. -/
theorem C96_pose_sampled (h : Careful E T b d) (hD : b.Definite) (hx : b.AxesOK) (hd : 0 < b.dof)
    (h0 : (0 : ℝ) ∈ T) (hE : ∀ e ∈ T, E.LeastSquares e) (hL : C.Law U) {a : CtlArgs C}
    (hG : b.PoseGoal E U a) :
    ∃ r > 0, ∃ K, ∃ w > 0, ∃ h0 > 0, ∀ dt, 0 < dt → dt ≤ h0 → ∀ b1 B q dq, b.setQ q = .ok b1 →
      b1.setDq dq = .ok B → ∀ ρ, 0 ≤ ρ → ρ ≤ r → Near b.dof a.qDes q dq ρ → ∀ k : ℕ,
      ∃ b', calls (fun B => B.opspaceControl E C { a with dt := dt }) k B = .ok b' ∧
        b'.rbs = b.rbs ∧ Near b.dof a.qDes b'.q b'.dq (K * ρ * Real.exp (-(w * (k * dt)))) := by
  obtain ⟨c, hA⟩ := pose_aim hL hG h.reach hD hx hd
  obtain ⟨r, hr, K, w, hw, s0, hs0, key⟩ := hA.sampled h hD hd h0 hE hL
  refine ⟨r, hr, K, w, hw, s0, hs0, fun dt hdt hdt' b1 B q dq s1 s2 ρ g1 g2 hN k => ?_⟩
  obtain ⟨b', y, c1, -, c3, -, -, c6⟩ :=
    key dt hdt hdt' a.xThr a.dxThr a.oriThr a.wThr b1 B q dq s1 s2 ρ g1 g2 hN k
  exact ⟨b', c1, c3.only.rbs, c6⟩

/-- C96: after finitely many calls, and from then on, the status word reports that the position and
the velocities have converged, and that the full Jacobian is singular. -/
theorem C96_point_reports (h : Careful E T b d) (hD : b.Definite) (hx : b.AxesOK) (hd : 0 < b.dof)
    (h0 : (0 : ℝ) ∈ T) (hE : ∀ e ∈ T, E.LeastSquares e) (hL : C.Law U) {a : CtlArgs C}
    (hG : b.PointGoal E a) :
    ∃ r > 0, ∃ h0 > 0, ∀ dt, 0 < dt → dt ≤ h0 → ∀ b1 B q dq, b.setQ q = .ok b1 →
      b1.setDq dq = .ok B → Near b.dof a.qDes q dq r →
      ∀ t1 t2 t3 t4 : ℝ, t1 ≠ 0 → t2 ≠ 0 → t3 ≠ 0 → t4 ≠ 0 → ∃ N, ∀ k ≥ N, ∃ b' r',
        calls (fun B => B.opspaceControl E C
          { a with dt := dt, xThr := t1, dxThr := t2, oriThr := t3, wThr := t4 }) k B = .ok b' ∧
        b'.opspaceControl E C
          { a with dt := dt, xThr := t1, dxThr := t2, oriThr := t3, wThr := t4 } = .ok r' ∧
        r'.1.2.testBit 0 = true ∧ r'.1.2.testBit 1 = true ∧ r'.1.2.testBit 3 = true ∧
        r'.1.2.testBit 4 = true := by
  obtain ⟨r, hr, s0, hs0, key⟩ := (point_aim hG h.reach hD hx hd).reports h hD hd h0 hE hL
  refine ⟨r, hr, s0, hs0, fun dt hdt hdt' b1 B q dq s1 s2 hN t1 t2 t3 t4 p1 p2 p3 p4 => ?_⟩
  obtain ⟨N, hN⟩ := key dt hdt hdt' b1 B q dq s1 s2 hN t1 t2 t3 t4 p1 p2 p3 p4
  refine ⟨N, fun k hk => ?_⟩
  obtain ⟨b', r', e1, e2, e3, e4, e5, -, e6⟩ := hN k hk
  exact ⟨b', r', e1, e2, e3, e4, e5, e6.2 rfl⟩

/-- C96 for the whole pose: the status word reports the convergence of position, orientation and both
velocities, and no singularity. -/
theorem C96_pose_reports (h : Careful E T b d) (hD : b.Definite) (hx : b.AxesOK) (hd : 0 < b.dof)
    (h0 : (0 : ℝ) ∈ T) (hE : ∀ e ∈ T, E.LeastSquares e) (hL : C.Law U) {a : CtlArgs C}
    (hG : b.PoseGoal E U a) :
    ∃ r > 0, ∃ h0 > 0, ∀ dt, 0 < dt → dt ≤ h0 → ∀ b1 B q dq, b.setQ q = .ok b1 →
      b1.setDq dq = .ok B → Near b.dof a.qDes q dq r →
      ∀ t1 t2 t3 t4 : ℝ, t1 ≠ 0 → t2 ≠ 0 → t3 ≠ 0 → t4 ≠ 0 → ∃ N, ∀ k ≥ N, ∃ b' r',
        calls (fun B => B.opspaceControl E C
          { a with dt := dt, xThr := t1, dxThr := t2, oriThr := t3, wThr := t4 }) k B = .ok b' ∧
        b'.opspaceControl E C
          { a with dt := dt, xThr := t1, dxThr := t2, oriThr := t3, wThr := t4 } = .ok r' ∧
        r'.1.2.testBit 0 = true ∧ r'.1.2.testBit 1 = true ∧ r'.1.2.testBit 2 = true ∧
        r'.1.2.testBit 3 = true ∧ r'.1.2.testBit 4 = false := by
  obtain ⟨c, hA⟩ := pose_aim hL hG h.reach hD hx hd
  obtain ⟨r, hr, s0, hs0, key⟩ := hA.reports h hD hd h0 hE hL
  refine ⟨r, hr, s0, hs0, fun dt hdt hdt' b1 B q dq s1 s2 hN t1 t2 t3 t4 p1 p2 p3 p4 => ?_⟩
  obtain ⟨N, hN⟩ := key dt hdt hdt' b1 B q dq s1 s2 hN t1 t2 t3 t4 p1 p2 p3 p4
  refine ⟨N, fun k hk => ?_⟩
  obtain ⟨b', r', e1, e2, e3, e4, e5, e6, e7⟩ := hN k hk
  refine ⟨b', r', e1, e2, e3, e4, e6 rfl, e5, ?_⟩
  by_contra hb
  have := e7.1 (by simpa using hb)
  omega

/-- C95, C96 for the Python function: with position, orientation, posture and thresholds given,
`opspace_control` is the controller of the theorems above, for every body. -/
theorem C95_python (k : PyCtl C) {x : Vec3} {Q : OriArg C} {qd : List ℝ} {p o : ℝ × ℝ}
    (h1 : k.pos = some x) (h2 : k.ori = some Q) (h3 : k.joint = some qd)
    (h4 : k.posThreshold = some p) (h5 : k.oriThreshold = some o) :
    (fun B : Body => B.pyOpspaceControl E C k) = fun B => B.opspaceControl E C
      { xDes := x, quatDes := Q.goal, qDes := qd, kpKvPos := k.posGains
        kpKvOri := k.oriGains, kpKvJoint := k.jointGains, xTask := k.taskPos.getD 0
        quatTask := k.taskOri.map OriArg.task
        ddxMax := k.maxPosAcc.getD 0, dwMax := k.maxOriAcc.getD 0
        xThr := p.1, dxThr := p.2, oriThr := o.1, wThr := o.2
        gravityComp := k.gravityComp, dt := k.step.getD 0 } := by
  funext B
  unfold pyOpspaceControl pyPos pyOri
  rw [h1, h2, h3, h4, h5]
  rfl

/-! ## Concrete cases -/

/-- The orientation error of the witness is the rotation vector, to first order. -/
theorem ctl0_tracks {R : Mat3} (hR : R.IsRot) : ctl0.Tracks R 1 := by
  intro n f p hf hrot hp
  change f p = R at hp
  have hA := hf.mul (SmMat.const (X := Fin n → ℝ) R.T)
  have c1 : ∀ {g : (Fin n → ℝ) → ℝ}, Sm g → ContDiffAt ℝ 1 g p := fun hg =>
    (ContDiff.of_le hg (by decide)).contDiffAt
  refine ⟨⟨?_, ?_, ?_⟩, fun v w hd => ?_⟩
  · exact c1 ((hA.m21.sub hA.m12).div_const 2)
  · exact c1 ((hA.m02.sub hA.m20).div_const 2)
  · exact c1 ((hA.m10.sub hA.m01).div_const 2)
  · have hM := (hd.mul (HasDerivMat.const R.T 0)).congr_deriv (N' := skew w) (by
      rw [zero_smul, add_zero, hp]
      have e : R * R.T = 1 := hR.mul_T
      show skew w * R * R.T + R * 0 = skew w
      rw [Mat3.mul_assoc', e, Mat3.mul_one']
      ext <;> simp)
    rw [one_smul]
    refine ⟨((hM.d21.sub hM.d12).div_const 2).congr_deriv ?_,
      ((hM.d02.sub hM.d20).div_const 2).congr_deriv ?_,
      ((hM.d10.sub hM.d01).div_const 2).congr_deriv ?_⟩ <;> simp [skew] <;> ring

theorem singularNear_of (h : Reach E b d) (hD : b.Definite) (hd : 0 < b.dof) {off : Vec3}
    {goal : List ℝ} {P : Prop} {ρ : ℝ} (hρ : 0 < ρ)
    (hs : ∀ q, ‖q - vecOf b.dof goal‖ ≤ ρ → (singQ E b off q ↔ P)) :
    b.SingularNear E off goal P := by
  refine ⟨ρ, hρ, fun q b1 J b2 hq h1 hJ => ?_⟩
  obtain ⟨hA, d', hr⟩ := atState_setQ h h1
  have hn : b1.dof = b.dof := hA.dof
  obtain ⟨b4, p2⟩ := position_of_index hA.inv (lastLink (b := b1) (by omega)).index off
  obtain ⟨b5, o2⟩ := orientation_of_index hA.inv (lastLink (b := b1) (by omega)).index
  have eJ := (hA.reads hd ⟨⟨_, hJ⟩, ⟨_, p2⟩, ⟨_, o2⟩⟩).1
  rw [← hs (fun i => q.getD i 0) ((pi_norm_le_iff_of_nonneg hρ.le).2 fun i => hq i i.2), eJ]
  exact hA.singular hr hD hd 6 (b.dof - 1) off 0.01

/-- With the least-squares solver of the witness, `IsSingular` tests the determinant. -/
theorem singQ_extLs (off : Vec3) (q : Fin b.dof → ℝ) : singQ extLs b off q ↔
    (projInv (b.massQ q)⁻¹ (b.rowsQ 6 (b.dof - 1) off q)).det = 0 := by
  unfold singQ
  show decide ((toMat 6 (DMat.ofM _).e).det = 0) = true ↔ _
  rw [decide_eq_true_iff, toMat_ofM]

/-- With fewer than six joints the full Jacobian is singular everywhere. -/
theorem singular_few (h : Reach extLs b d) (hD : b.Definite) (hd : 0 < b.dof) (h6 : b.dof < 6)
    (off : Vec3) (goal : List ℝ) : b.SingularNear extLs off goal True := by
  refine singularNear_of h hD hd one_pos fun q _ => ?_
  rw [singQ_extLs]
  refine ⟨fun _ => trivial, fun _ => ?_⟩
  set K := b.rowsQ 6 (b.dof - 1) off q
  have hni : ¬ Function.Injective (Kᵀ.mulVecLin) := by
    intro hi
    have := LinearMap.finrank_le_finrank_of_injective hi
    simp at this
    omega
  have hv : ∃ v, v ≠ 0 ∧ Kᵀ *ᵥ v = 0 := by
    by_contra hc
    push Not at hc
    exact hni ((injective_iff_map_eq_zero _).2 fun v hv => by
      by_contra hv0
      exact hc v hv0 hv)
  obtain ⟨v, hv, e⟩ := hv
  refine Matrix.exists_mulVec_eq_zero_iff.1 ⟨v, hv, ?_⟩
  show (_ * _ * _) *ᵥ v = 0
  rw [← Matrix.mulVec_mulVec, e, Matrix.mulVec_zero]

/-- And where the frame can move in every direction it is not, nor around. -/
theorem regular_near (h : Reach extLs b d) (hD : b.Definite) (hd : 0 < b.dof) (off : Vec3)
    (goal : List ℝ) (hK : ∀ v, ∃ w, b.rowsQ 6 (b.dof - 1) off (vecOf b.dof goal) *ᵥ w = v) :
    b.SingularNear extLs off goal False := by
  have hk : b.dof - 1 < b.dof := by omega
  have hcont : ContinuousAt (fun q => (projInv (b.massQ q)⁻¹
      (b.rowsQ 6 (b.dof - 1) off q)).det) (vecOf b.dof goal) := by
    have hK := rowsQ_cd h 6 hk off (vecOf b.dof goal)
    exact (CdM.det ((hK.mul ((massQ_cd h _).inv (massQ_det h hD _))).mul hK.tr)).continuousAt
  obtain ⟨ρ, hρ, hX⟩ := Metric.eventually_nhds_iff.1
    (hcont.eventually_ne (rank_det h hD (vecOf b.dof goal) hK))
  refine singularNear_of h hD hd (half_pos hρ) fun q hq => ?_
  rw [singQ_extLs, iff_false]
  refine hX ?_
  rw [dist_eq_norm]
  linarith

/-- Goals for the gantry: its point at the origin. -/
noncomputable def gantryHome : CtlArgs ctl0 :=
  { ctlGoal none with xDes := 0, qDes := [0, 0, 0, 0], kpKvPos := (⟨80, 80, 80⟩, ⟨8, 8, 8⟩) }

theorem gantry_home : gantry0.PointGoal extLs gantryHome := by
  obtain ⟨d, h⟩ := gantry_reach extLs
  have hl : gantry0.LinkIdx (-1) 3 :=
    ⟨by show 3 < 4; omega, .inr ⟨by show (3 : ℤ) = -1 + 4; omega, by omega⟩⟩
  have h1 : gantry0.setQ [0, 0, 0, 0] = .ok gantry0 := by
    simp [gantry0, gantry, setQ, dof]
  obtain ⟨J, hJ⟩ := jacobian_total gantry0 hl 0
  obtain ⟨b1, p1⟩ := position_of_index h.inv hl.index 0
  obtain ⟨b2, p2⟩ := orientation_of_index h.inv hl.index
  rw [gantry_tw 3 (by omega), show (1 : Iso).app 0 = 0 by ext <;> simp [Iso.app, Mat3.mulVec]] at p1
  have hj := gantry_jac hl hJ
  refine ⟨by norm_num [gantryHome], by norm_num [gantryHome], by norm_num [gantryHome, ctlGoal],
    le_rfl, rfl, rfl, rfl, ⟨_, J.1, _, h1, ⟨⟨_, hJ⟩, ⟨_, p1⟩, ⟨_, p2⟩⟩, fun v => ?_⟩,
    singular_few h gantry_definite (by show 0 < 4; omega) (by show 4 < 6; omega) _ _⟩
  refine ⟨fun i => if i = 0 then v.x else if i = 1 then v.y else if i = 2 then v.z else 0, ?_⟩
  show (jacVel 4 J.1 _).lin = v
  simp only [jacVel, Finset.sum_range_succ, Finset.sum_range_zero]
  rw [hj 0 (by omega), hj 1 (by omega), hj 2 (by omega), hj 3 (by omega)]
  ext <;> simp [gantryType, JType.subspace]

theorem gantry_axes : gantry0.AxesOK := fun k hk => by
  have hk : k < 4 := hk
  rw [gantry_joint k hk]
  rfl

/-- The hypotheses of the theorems about the point hold for the gantry. -/
example : ∃ d, Careful extLs univ gantry0 d ∧ gantry0.Definite ∧ gantry0.AxesOK ∧ 0 < gantry0.dof ∧
    (∀ e ∈ (univ : Set ℝ), extLs.LeastSquares e) ∧ ctl0.Law Mat3.IsRot ∧
    gantry0.PointGoal extLs gantryHome := by
  obtain ⟨d, h⟩ := gantry_reach extLs
  exact ⟨d, h.careful, gantry_definite, gantry_axes, by show 0 < 4; omega,
    fun e _ => extLs_leastSquares e, ctl0_law, gantry_home⟩

/-- The gantry comes home: from every state near enough there is such a motion, and it converges. -/
example : ∃ r > 0, ∃ K, ∃ w > 0, ∀ q0 dq0 : List ℝ, q0.length = 4 → dq0.length = 4 →
    Near 4 [0, 0, 0, 0] q0 dq0 r → ∃ q dq : ℝ → List ℝ, q 0 = q0 ∧ dq 0 = dq0 ∧
      ∀ t ≥ 0, Near 4 [0, 0, 0, 0] (q t) (dq t) (K * r * Real.exp (-(w * t))) := by
  obtain ⟨d, h⟩ := gantry_reach extLs
  obtain ⟨r, hr, K, w, hw, key⟩ := C95_point_stable (o := IntOpts.make) h.careful gantry_definite
    gantry_axes (by show 0 < 4; omega) (mem_univ (0 : ℝ)) (fun e _ => extLs_leastSquares e) ctl0_law
    gantry_home rfl rfl (.inl rfl)
  obtain ⟨r', hr', key'⟩ := C95_point_exists (o := IntOpts.make) h.careful gantry_definite
    gantry_axes (by show 0 < 4; omega) (mem_univ (0 : ℝ)) (fun e _ => extLs_leastSquares e) ctl0_law
    gantry_home rfl rfl (.inl rfl)
  refine ⟨min r r', lt_min hr hr', K, w, hw, fun q0 dq0 l1 l2 hN => ?_⟩
  obtain ⟨q, dq, e1, e2, hS⟩ := key' q0 dq0 l1 l2
    (fun i hi => ⟨(hN i hi).1.trans (min_le_right _ _), (hN i hi).2.trans (min_le_right _ _)⟩)
  exact ⟨q, dq, e1, e2, fun t ht => key t q dq (hS t) _ (lt_min hr hr').le (min_le_left _ _)
    (by rw [e1, e2]; exact hN) t ⟨ht, le_rfl⟩⟩

/-- Goals for the free-flying body. -/
noncomputable def flyerHome : CtlArgs ctl0 :=
  { ctlGoal none with xDes := 0, kpKvPos := (⟨80, 80, 80⟩, ⟨8, 8, 8⟩), kpKvOri := (80, 8) }

theorem flyer_axes : flyer0.AxesOK := fun k hk => by
  have hk : k < 6 := hk
  rw [flyer_joint k hk]
  rfl

theorem flyer_home : flyer0.PoseGoal extLs Mat3.IsRot flyerHome := by
  obtain ⟨d, h⟩ := flyer_reach extLs
  change Reach extLs flyer0 d at h
  have hl : flyer0.LinkIdx (-1) 5 :=
    ⟨by show 5 < 6; omega, .inr ⟨by show (5 : ℤ) = -1 + 6; omega, by omega⟩⟩
  have h1 : flyer0.setQ [0, 0, 0, 0, 0, 0] = .ok flyer0 := by
    simp [flyer0, flyer, setQ, dof]
  obtain ⟨hA, -⟩ := atState_setQ h h1
  obtain ⟨J, hJ⟩ := jacobian_total flyer0 hl 0
  obtain ⟨b1, p1⟩ := position_of_index h.inv hl.index 0
  obtain ⟨b2, p2⟩ := orientation_of_index h.inv hl.index
  rw [flyer_tw 5 (by omega)] at p1 p2
  rw [show (1 : Iso).app 0 = 0 by ext <;> simp [Iso.app, Mat3.mulVec]] at p1
  have hj : ∀ j < 6, ∀ i : Fin 6, (J.1 j).entry i = if i.1 = j then 1 else 0 := fun j hj i =>
    flyer_jac hl hJ i (⟨j, hj⟩ : Fin flyer0.dof)
  have hR : flyer0.Reads (-1) 0 J.1 0 (1 : Mat3) := ⟨⟨_, hJ⟩, ⟨_, p1⟩, ⟨_, p2⟩⟩
  have hw : ∀ V : Motion, ∃ w, jacVel 6 J.1 w = V := fun V => by
    refine ⟨fun j => V.entry j, ?_⟩
    have e : ∀ i < 6, (jacVel 6 J.1 fun j => V.entry j).entry i = V.entry i := fun i hi => by
      unfold jacVel
      rw [entry_sum, Finset.sum_eq_single i (fun j hj' hne => by
        rw [hj j (Finset.mem_range.1 hj') ⟨i, hi⟩, if_neg (fun e => hne e.symm), mul_zero])
        (fun hn => absurd (Finset.mem_range.2 hi) hn), hj i hi ⟨i, hi⟩, if_pos rfl, mul_one]
    ext
    · exact e 0 (by omega)
    · exact e 1 (by omega)
    · exact e 2 (by omega)
    · exact e 3 (by omega)
    · exact e 4 (by omega)
    · exact e 5 (by omega)
  have eJ := (hA.reads (by show 0 < 6; omega) hR).1
  refine ⟨by norm_num [flyerHome], by norm_num [flyerHome], by norm_num [flyerHome],
    by norm_num [flyerHome, ctlGoal], ⟨le_rfl, le_rfl⟩, rfl, rfl, rfl, Mat3.isRot_one,
    ⟨1, one_pos, ctl0_tracks Mat3.isRot_one⟩, ⟨_, J.1, h1, hR, hw⟩,
    regular_near h flyer_definite (by show 0 < 6; omega) _ _ fun v => ?_⟩
  obtain ⟨w, hw⟩ := hw ⟨⟨v 0, v 1, v 2⟩, ⟨v 3, v 4, v 5⟩⟩
  refine ⟨fun i => w i, funext fun i => ?_⟩
  rw [rowsQ_mulVec]
  change (jacVel 6 (flyer0.jacQ 5 0 (vecOf 6 [0, 0, 0, 0, 0, 0])) _).entry i = _
  have e : jacVel 6 (flyer0.jacQ 5 0 (vecOf 6 [0, 0, 0, 0, 0, 0])) (padFin fun i : Fin 6 => w i) =
      jacVel 6 J.1 w := by
    rw [eJ]
    refine Finset.sum_congr rfl fun j hj => ?_
    unfold padFin
    rw [dif_pos (Finset.mem_range.1 hj)]
    rfl
  rw [show (padFin fun i : Fin flyer0.dof => w i) = padFin fun i : Fin 6 => w i from rfl, e, hw]
  fin_cases i <;> rfl

/-- The hypotheses of the theorems about the pose hold for the free-flying body. -/
example : ∃ d, Careful extLs univ flyer0 d ∧ flyer0.Definite ∧ flyer0.AxesOK ∧ 0 < flyer0.dof ∧
    (∀ e ∈ (univ : Set ℝ), extLs.LeastSquares e) ∧ ctl0.Law Mat3.IsRot ∧
    flyer0.PoseGoal extLs Mat3.IsRot flyerHome := by
  obtain ⟨d, h⟩ := flyer_reach extLs
  exact ⟨d, Reach.careful h, flyer_definite, flyer_axes, by show 0 < 6; omega,
    fun e _ => extLs_leastSquares e, ctl0_law, flyer_home⟩

end SpatialDyn
