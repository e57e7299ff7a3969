import Verif.Props.CompensatedFriction

/-! C146, C154, C155: simulations of robots with viscous friction, with torques computed from the state. -/

namespace SpatialDyn
open Finset Body OneStep
open scoped ContDiff

variable {E : Ext} {b : Body} {d : Bool}

theorem field_viscous (h : Reach E b d) (hd : b.Definite) {v : ℕ → ℝ}
    (hc : ∀ i < b.dof, Coef (b.rb i).joint 0 (v i) 0) (tau : ℕ → ℝ) (fext : FExt) {o : IntOpts}
    (hf : o.friction = true) (heps : 0 ≤ o.eps) (y : State b.dof) :
    b.field E cache0 tau fext o y = b.field E cache0
      (padFin fun i : Fin b.dof => tau i - v i * y.2 i) fext { o with friction := false } y := by
  rw [field_damped h hd cache0_clear hc tau fext hf heps y, field_val h hd cache0_clear _ _ _ rfl]
  refine Prod.ext rfl ?_
  unfold dampedAt accAt
  have e : vec b.dof (fun i => tau i - v i * padFin y.2 i) =
      vec b.dof (padFin fun i : Fin b.dof => tau i - v i * y.2 i) := by
    funext i
    simp [vec, padFin]
  rw [e]

/-- C146: a robot with viscous friction, driven by torques computed from the state, stays near its motion too. -/
theorem C146_feedback_viscous (h : Reach E b d) (hd : b.Definite) {v : ℕ → ℝ}
    (hc : ∀ i < b.dof, Coef (b.rb i).joint 0 (v i) 0) {law : List ℝ → List ℝ → ℕ → ℝ}
    (hlaw : ∀ i < b.dof, ContDiff ℝ 1 fun y : (Fin b.dof → ℝ) × (Fin b.dof → ℝ) =>
      law (List.ofFn y.1) (List.ofFn y.2) i) {fext : FExt} {o : IntOpts}
    (hf : o.friction = true) (heps : 0 ≤ o.eps) (hl : o.jointLimits = false) {T : ℝ} {q dq : ℝ → List ℝ}
    (hM : b.MovesWith E (fun t => law (q t) (dq t)) fext o T q dq) :
    ∃ C h0 : ℝ, 0 < h0 ∧ ∀ dt, 0 < dt → dt ≤ h0 → ∀ e, 0 ≤ e → e ≤ h0 →
      ∀ (q0 dq0 : List ℝ) (b1 B : Body), b.setQ q0 = .ok b1 → b1.setDq dq0 = .ok B →
      (∀ i < b.dof, |q0.getD i 0 - (q 0).getD i 0| ≤ e ∧ |dq0.getD i 0 - (dq 0).getD i 0| ≤ e) →
      ∀ k : ℕ, k * dt ≤ T → ∃ B', feedback E law dt fext o k B = .ok B' ∧ ∀ i < b.dof,
        |B'.q.getD i 0 - (q (k * dt)).getD i 0| ≤ C * (dt + e) ∧
        |B'.dq.getD i 0 - (dq (k * dt)).getD i 0| ≤ C * (dt + e) := by
  refine feedback_near h hd hlaw ?_ (fun tau => ?_) hl hM
  · rw [show (fun p : (Fin b.dof → ℝ) × State b.dof => b.field E cache0 (padFin p.1) fext o p.2) =
      fun p => b.field E cache0 (padFin fun i : Fin b.dof => p.1 i - v i * p.2.2 i) fext
        { o with friction := false } p.2 from funext fun p => by
          rw [field_viscous h hd hc _ fext hf heps]; simp only [padFin_at]]
    have hu : ContDiff ℝ ∞ fun p : (Fin b.dof → ℝ) × State b.dof => fun i : Fin b.dof => p.1 i - v i * p.2.2 i :=
      contDiff_pi.2 fun i => ((contDiff_apply ℝ ℝ i).comp contDiff_fst).sub (contDiff_const.mul
        ((contDiff_apply ℝ ℝ i).comp (contDiff_snd.comp contDiff_snd)))
    exact (field_inputs h hd fext { o with friction := false } rfl).comp (hu.prodMk contDiff_snd)
  · funext y
    rw [field_viscous h hd hc _ fext hf heps, field_viscous h hd hc _ fext hf heps]
    simp only [padFin_at]

/-- A motion under a law that reaches a goal is simulated up to the goal. -/
theorem viscous_simulation (h : Reach E b d) (hd : b.Definite) {v : ℕ → ℝ}
    (hc : ∀ i < b.dof, Coef (b.rb i).joint 0 (v i) 0) {law : List ℝ → List ℝ → ℕ → ℝ}
    (hlaw : ∀ i < b.dof, ContDiff ℝ 1 fun y : (Fin b.dof → ℝ) × (Fin b.dof → ℝ) =>
      law (List.ofFn y.1) (List.ofFn y.2) i) (goal : List ℝ) {o : IntOpts}
    (hf : o.friction = true) (heps : 0 ≤ o.eps) (hl : o.jointLimits = false) {q dq : ℝ → List ℝ}
    (hM : ∀ T, b.MovesWith E (fun t => law (q t) (dq t)) noExt o T q dq)
    (hR : ∀ ε > 0, ∃ T, ∀ t, T ≤ t → ∀ i < b.dof,
      |(q t).getD i 0 - goal.getD i 0| ≤ ε ∧ |(dq t).getD i 0| ≤ ε)
    {b1 B : Body} (e1 : b.setQ (q 0) = .ok b1) (e2 : b1.setDq (dq 0) = .ok B) :
    ∀ ε > 0, ∃ T0 : ℝ, ∀ T : ℝ, ∃ h0 > 0, ∀ dt : ℝ, 0 < dt → dt ≤ h0 → ∀ k : ℕ, T0 ≤ k * dt → k * dt ≤ T →
      ∃ B', feedback E law dt noExt o k B = .ok B' ∧ ∀ i < b.dof,
        |B'.q.getD i 0 - goal.getD i 0| ≤ ε ∧ |B'.dq.getD i 0| ≤ ε := by
  intro ε hε
  obtain ⟨T0, hT0⟩ := hR (ε / 2) (half_pos hε)
  refine ⟨T0, fun T => ?_⟩
  obtain ⟨C, h0, hpos, hC⟩ := C146_feedback_viscous h hd hc hlaw hf heps hl (hM T)
  refine ⟨min h0 (ε / 2 / (|C| + 1)), by positivity, fun dt d0 d1 k k0 k1 => ?_⟩
  obtain ⟨B', e3, e4⟩ := hC dt d0 (d1.trans (min_le_left _ _)) 0 le_rfl hpos.le _ _ b1 B e1 e2
    (fun i _ => by simp) k k1
  have hs : C * (dt + 0) ≤ ε / 2 := by
    have := (le_div_iff₀ (by positivity)).1 (d1.trans (min_le_right _ _))
    nlinarith [le_abs_self C, abs_nonneg C]
  refine ⟨B', e3, fun i hi => ?_⟩
  have g1 := e4 i hi
  have g2 := hT0 _ k0 i hi
  constructor
  · have := abs_sub_le (B'.q.getD i 0) ((q (k * dt)).getD i 0) (goal.getD i 0)
    linarith [g1.1, g2.1]
  · have := abs_sub_le (B'.dq.getD i 0) ((dq (k * dt)).getD i 0) 0
    rw [sub_zero, sub_zero] at this
    linarith [g1.2, g2.2]

/-- C155: with viscous friction, switched on, and every joint damped by the control or by its friction, calls of
`Integrate` with the torques of control with compensation of gravity bring the robot as close to the goal as
wanted and keep it there for as long as wanted, if the steps are short enough. -/
theorem C155_viscous_simulation (h : Reach E b d) (hd : b.Definite) (ha : b.AxesOK) {v : ℕ → ℝ}
    (hc : ∀ i < b.dof, Coef (b.rb i).joint 0 (v i) 0) (goal : List ℝ) {kp kv : ℕ → ℝ}
    (hk : ∀ i < b.dof, 0 < kp i) (hv : ∀ i < b.dof, 0 < kv i + v i) {o : IntOpts} (hf : o.friction = true)
    (heps : 0 ≤ o.eps) (hcc : o.cc = true) (hg : o.gravity = true) (hl : o.jointLimits = false)
    (hbase : o.aba = false ∨ b.T0.R.mulVec b.g = b.g) {law : List ℝ → List ℝ → ℕ → ℝ}
    (hlaw : ∀ q dq b1, b.setQ q = .ok b1 → ∀ i < b.dof,
      law q dq i = b1.gravity.1 i - kp i * (q.getD i 0 - goal.getD i 0) - kv i * dq.getD i 0)
    {q0 dq0 : List ℝ} {b1 B : Body} (e1 : b.setQ q0 = .ok b1) (e2 : b1.setDq dq0 = .ok B) :
    ∀ ε > 0, ∃ T0 : ℝ, ∀ T : ℝ, ∃ h0 > 0, ∀ dt : ℝ, 0 < dt → dt ≤ h0 → ∀ k : ℕ, T0 ≤ k * dt → k * dt ≤ T →
      ∃ B', feedback E law dt noExt o k B = .ok B' ∧ ∀ i < b.dof,
        |B'.q.getD i 0 - goal.getD i 0| ≤ ε ∧ |B'.dq.getD i 0| ≤ ε := by
  have hm := hd.massive h.inv.tree
  have hl2 : dq0.length = b.dof := by
    obtain ⟨hs, hn, -⟩ := h.after_setQ e1
    rw [← hn]
    exact setDq_length e2
  obtain ⟨tau, q, dq, rfl, rfl, hM, htau⟩ := C155_viscous_motion h hd ha hc goal hk (fun i hi => (hv i hi).le) hf
    heps hcc hg hbase (setQ_length e1) hl2
  refine viscous_simulation h hd hc (fun i hi => ?_) goal hf heps hl (fun T t ht => ?_)
    (C155_viscous h hd ha hc goal hk hv hf heps hcc hg hbase hM fun t _ => htau t) e1 e2
  · have g1 : ∀ v : Fin b.dof → ℝ, (List.ofFn v).getD i 0 = v ⟨i, hi⟩ := fun v => by simp [List.getD, hi]
    have e : (fun y : State b.dof => law (List.ofFn y.1) (List.ofFn y.2) i) = fun y : State b.dof =>
        heldTau b (fun i => goal.getD i 0) kp kv y ⟨i, hi⟩ := by
      funext y
      obtain ⟨c1, f1, -⟩ := setQ_total (b := b) (q := List.ofFn y.1) (by simp)
      have ey : (fun i : Fin b.dof => (List.ofFn y.1).getD i 0) = y.1 := funext fun i => by simp
      rw [hlaw _ _ c1 f1 i hi, weight_set h f1 hi, g1, g1, ey]
      rfl
    rw [e]
    exact (contDiff_pi.1 (heldTau_smooth h _ kp kv)) ⟨i, hi⟩
  · obtain ⟨c1, B1, f1, f2, f3⟩ := hM T t ht
    refine ⟨c1, B1, f1, f2, fun i hi => ⟨(f3 i hi).1, (f3 i hi).2.congr_deriv ?_⟩⟩
    have g := fun w => field_of_set h hm cache0_clear w noExt o f1 f2 ⟨i, hi⟩
    simp only at g
    rw [g, g, field_viscous h hd hc _ noExt hf heps, field_viscous h hd hc _ noExt hf heps]
    have e : ∀ j : Fin b.dof, tau t j = law (q t) (dq t) j := fun j => by
      rw [htau t c1 f1 j j.2, hlaw (q t) (dq t) c1 f1 j j.2]
    simp only [e]

/-- C154: and so do those of proportional control with the gravity of the goal compensated and large gains, where
the joints turn. -/
theorem C154_viscous_simulation (h : Reach E b d) (hd : b.Definite) (ha : b.AxesOK) (ht : ∀ i < b.dof,
      (b.rb i).joint.type = .rx ∨ (b.rb i).joint.type = .ry ∨ (b.rb i).joint.type = .rz) {v : ℕ → ℝ}
    (hc : ∀ i < b.dof, Coef (b.rb i).joint 0 (v i) 0) :
    ∃ K, ∀ goal Bg, b.setQ goal = .ok Bg → ∀ kp kv : ℕ → ℝ, (∀ i < b.dof, K < kp i) →
      (∀ i < b.dof, 0 < kv i + v i) → ∀ o : IntOpts, o.friction = true → 0 ≤ o.eps → o.cc = true →
      o.gravity = true → o.jointLimits = false → (o.aba = false ∨ b.T0.R.mulVec b.g = b.g) →
      ∀ q0 dq0 b1 B, b.setQ q0 = .ok b1 → b1.setDq dq0 = .ok B →
      ∀ ε > 0, ∃ T0 : ℝ, ∀ T : ℝ, ∃ h0 > 0, ∀ dt : ℝ, 0 < dt → dt ≤ h0 → ∀ k : ℕ, T0 ≤ k * dt → k * dt ≤ T →
        ∃ B', feedback E (fun q dq i => Bg.gravity.1 i - kp i * (q.getD i 0 - goal.getD i 0) - kv i * dq.getD i 0)
          dt noExt o k B = .ok B' ∧ ∀ i < b.dof,
          |B'.q.getD i 0 - goal.getD i 0| ≤ ε ∧ |B'.dq.getD i 0| ≤ ε := by
  obtain ⟨K, hK⟩ := C154_viscous h hd ha ht hc
  refine ⟨max K 0, fun goal Bg hG kp kv hk hv o hf heps hcc hg hl hbase q0 dq0 b1 B e1 e2 => ?_⟩
  have hl2 : dq0.length = b.dof := by
    obtain ⟨hs, hn, -⟩ := h.after_setQ e1
    rw [← hn]
    exact setDq_length e2
  obtain ⟨q, dq, rfl, rfl, hM⟩ := C154_motion h hd ha ht goal Bg.gravity.1 (kp := kp) (kv := fun i => kv i + v i)
    (fun i hi => (le_max_right _ _).trans_lt (hk i hi)) (fun i hi => (hv i hi).le)
    (o := { o with friction := false }) rfl hcc hg hbase (setQ_length e1) hl2
  have hM' : ∀ T, b.MovesWith E (fun t i => Bg.gravity.1 i - kp i * ((q t).getD i 0 - goal.getD i 0) -
      kv i * (dq t).getD i 0) noExt o T q dq := fun T => by
    rw [movesWith_viscous h hd hc _ _ hf heps]
    have e : (fun (t : ℝ) (i : ℕ) => Bg.gravity.1 i - kp i * ((q t).getD i 0 - goal.getD i 0) -
        (kv i + v i) * (dq t).getD i 0) = fun t i => (Bg.gravity.1 i - kp i * ((q t).getD i 0 - goal.getD i 0) -
        kv i * (dq t).getD i 0) - v i * (dq t).getD i 0 := by
      funext t i; ring
    rw [← e]
    exact hM T
  refine viscous_simulation h hd hc (law := fun q dq i =>
      Bg.gravity.1 i - kp i * (q.getD i 0 - goal.getD i 0) - kv i * dq.getD i 0) (fun i hi => ?_) goal hf heps hl hM'
    (hK goal Bg hG kp kv (fun i hi => (le_max_left _ _).trans_lt (hk i hi)) hv o hf heps hcc hg hbase q dq hM') e1 e2
  have g1 : ∀ v : Fin b.dof → ℝ, (List.ofFn v).getD i 0 = v ⟨i, hi⟩ := fun v => by simp [List.getD, hi]
  simp only [g1]
  have h1 : ContDiff ℝ 1 fun y : State b.dof => y.1 ⟨i, hi⟩ := (contDiff_apply ℝ ℝ _).comp contDiff_fst
  have h2 : ContDiff ℝ 1 fun y : State b.dof => y.2 ⟨i, hi⟩ := (contDiff_apply ℝ ℝ _).comp contDiff_snd
  exact (contDiff_const.sub (contDiff_const.mul (h1.sub contDiff_const))).sub (contDiff_const.mul h2)

/-- The hypotheses hold for a pendulum with viscous friction, with the proportional part alone. -/
example (E : Ext) (x w : ℝ) : ∃ d, Reach E creak d ∧ creak.Definite ∧ creak.AxesOK ∧ (∀ i < creak.dof,
      (creak.rb i).joint.type = .rx ∨ (creak.rb i).joint.type = .ry ∨ (creak.rb i).joint.type = .rz) ∧
    (∀ i < creak.dof, Coef (creak.rb i).joint 0 2 0) ∧ 0 ≤ IntOpts.make.eps ∧
    (∃ law : List ℝ → List ℝ → ℕ → ℝ, ∀ q dq b1, creak.setQ q = .ok b1 → ∀ i < creak.dof,
      law q dq i = b1.gravity.1 i - 1 * (q.getD i 0 - [1].getD i 0) - 0 * dq.getD i 0) ∧
    ∃ b1 B, creak.setQ [x] = .ok b1 ∧ b1.setDq [w] = .ok B := by
  obtain ⟨d, h⟩ := creak_reach E
  have h0 : ∀ k < creak.dof, k = 0 := fun k hk => Nat.lt_one_iff.1 hk
  obtain ⟨b1, h1, e1⟩ := setQ_total (b := creak) (q := [x]) rfl
  obtain ⟨B, h2, -⟩ := setDq_total (b := b1) (q := [w]) (by rw [e1]; rfl)
  exact ⟨d, h, creak_definite, fun k hk => by rw [h0 k hk]; rfl,
    fun i hi => .inl (by rw [h0 i hi]; rfl), fun i hi => by rw [h0 i hi]; exact ⟨rfl, rfl, rfl, le_rfl, by norm_num, le_rfl⟩,
    by norm_num [IntOpts.make],
    ⟨fun q dq i => creak.weightAt (fun i : Fin creak.dof => q.getD i 0) i -
      1 * (q.getD i 0 - [1].getD i 0) - 0 * dq.getD i 0, fun q dq c1 f1 i hi => by rw [weight_set h f1 hi]⟩,
    b1, B, h1, h2⟩

end SpatialDyn
