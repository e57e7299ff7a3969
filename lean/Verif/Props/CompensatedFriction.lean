import Verif.Props.CompensatedEnergy
import Verif.Props.Damped

/-! C154, C155: the same with viscous friction in the joints, which damps as the control does. -/

namespace SpatialDyn
open Finset Body OneStep

variable {E : Ext} {b : Body} {d : Bool}

/-- Motions with viscous friction are the motions without friction under less torque. -/
theorem movesWith_viscous (h : Reach E b d) (hd : b.Definite) {v : ℕ → ℝ}
    (hc : ∀ i < b.dof, Coef (b.rb i).joint 0 (v i) 0) (tau : ℝ → ℕ → ℝ) (fext : FExt) {o : IntOpts}
    (hf : o.friction = true) (heps : 0 ≤ o.eps) (T : ℝ) (q dq : ℝ → List ℝ) :
    b.MovesWith E tau fext o T q dq ↔
      b.MovesWith E (fun t i => tau t i - v i * (dq t).getD i 0) fext { o with friction := false } T q dq := by
  have key : ∀ {t : ℝ} {b1 B : Body}, b.setQ (q t) = .ok b1 → b1.setDq (dq t) = .ok B → ∀ i < b.dof,
      B.acceleration E (tau t) fext o i =
        B.acceleration E (fun i => tau t i - v i * (dq t).getD i 0) fext { o with friction := false } i := by
    intro t b1 B e1 e2 i hi
    obtain ⟨hs, hn, -, -, -, d', hB⟩ := h.after_set ⟨b1, e1, e2⟩
    rw [acceleration_damped hB (hs.definite hd) (v := v) (fun j hj => by
      rw [show B.rb = b.rb by unfold Body.rb; rw [hs.rbs]]; exact hc j (hj.trans_eq hn)) (tau t) fext hf heps
      (hi.trans_eq hn.symm)]
    unfold Body.vel
    rw [setDq_dq e2]
  constructor <;> intro hM t ht <;> obtain ⟨b1, B, e1, e2, e3⟩ := hM t ht <;>
    refine ⟨b1, B, e1, e2, fun i hi => ⟨(e3 i hi).1, (e3 i hi).2.congr_deriv ?_⟩⟩
  · exact key e1 e2 i hi
  · exact (key e1 e2 i hi).symm

/-- C155: with viscous friction in the joints and friction switched on, control with compensation of gravity
reaches the goal if every joint is damped by the control or by its friction. -/
theorem C155_viscous (h : Reach E b d) (hd : b.Definite) (ha : b.AxesOK) {v : ℕ → ℝ}
    (hc : ∀ i < b.dof, Coef (b.rb i).joint 0 (v i) 0) (goal : List ℝ) {kp kv : ℕ → ℝ}
    (hk : ∀ i < b.dof, 0 < kp i) (hv : ∀ i < b.dof, 0 < kv i + v i) {o : IntOpts} (hf : o.friction = true)
    (heps : 0 ≤ o.eps) (hcc : o.cc = true) (hg : o.gravity = true)
    (hbase : o.aba = false ∨ b.T0.R.mulVec b.g = b.g)
    {tau : ℝ → ℕ → ℝ} {q dq : ℝ → List ℝ} (hM : ∀ T, b.MovesWith E tau noExt o T q dq)
    (htau : ∀ t, 0 ≤ t → ∀ b1, b.setQ (q t) = .ok b1 → ∀ i < b.dof,
      tau t i = b1.gravity.1 i - kp i * ((q t).getD i 0 - goal.getD i 0) - kv i * (dq t).getD i 0) :
    ∀ ε > 0, ∃ T, ∀ t, T ≤ t → ∀ i < b.dof,
      |(q t).getD i 0 - goal.getD i 0| ≤ ε ∧ |(dq t).getD i 0| ≤ ε :=
  C155_reaches h hd ha goal hk hv (o := { o with friction := false }) rfl hcc hg hbase
    (fun T => (movesWith_viscous h hd hc _ _ hf heps T q dq).1 (hM T)) fun t ht b1 e1 i hi => by
      rw [htau t ht b1 e1 i hi]; ring

/-- C155: such motions exist from every state and for all times. -/
theorem C155_viscous_motion (h : Reach E b d) (hd : b.Definite) (ha : b.AxesOK) {v : ℕ → ℝ}
    (hc : ∀ i < b.dof, Coef (b.rb i).joint 0 (v i) 0) (goal : List ℝ) {kp kv : ℕ → ℝ}
    (hk : ∀ i < b.dof, 0 < kp i) (hv : ∀ i < b.dof, 0 ≤ kv i + v i) {o : IntOpts} (hf : o.friction = true)
    (heps : 0 ≤ o.eps) (hcc : o.cc = true) (hg : o.gravity = true)
    (hbase : o.aba = false ∨ b.T0.R.mulVec b.g = b.g)
    {q0 dq0 : List ℝ} (hq : q0.length = b.dof) (hdq : dq0.length = b.dof) :
    ∃ (tau : ℝ → ℕ → ℝ) (q dq : ℝ → List ℝ), q 0 = q0 ∧ dq 0 = dq0 ∧
      (∀ T, b.MovesWith E tau noExt o T q dq) ∧ ∀ t, ∀ b1, b.setQ (q t) = .ok b1 → ∀ i < b.dof,
        tau t i = b1.gravity.1 i - kp i * ((q t).getD i 0 - goal.getD i 0) - kv i * (dq t).getD i 0 := by
  obtain ⟨tau, q, dq, h1, h2, hM, ht⟩ := C155_motion h hd ha goal hk (kv := fun i => kv i + v i) hv
    (o := { o with friction := false }) rfl hcc hg hbase hq hdq
  refine ⟨fun t i => tau t i + v i * (dq t).getD i 0, q, dq, h1, h2, fun T => ?_, fun t b1 e1 i hi => ?_⟩
  · rw [movesWith_viscous h hd hc _ _ hf heps]
    simpa only [add_sub_cancel_right] using hM T
  · simp only
    rw [ht t b1 e1 i hi]; ring

/-- C155: nor do the kinetic energy and the weighted distance from the goal ever grow together. -/
theorem C155_viscous_energy (h : Reach E b d) (hd : b.Definite) (ha : b.AxesOK) {v : ℕ → ℝ}
    (hc : ∀ i < b.dof, Coef (b.rb i).joint 0 (v i) 0) (goal : List ℝ) (kp : ℕ → ℝ) {kv : ℕ → ℝ}
    (hv : ∀ i < b.dof, 0 ≤ kv i + v i) {o : IntOpts}
    (hf : o.friction = true) (heps : 0 ≤ o.eps) (hcc : o.cc = true) (hg : o.gravity = true)
    (hbase : o.aba = false ∨ b.T0.R.mulVec b.g = b.g) {T : ℝ}
    {tau : ℝ → ℕ → ℝ} {q dq : ℝ → List ℝ} (hM : b.MovesWith E tau noExt o T q dq)
    (htau : ∀ t ∈ Set.Icc 0 T, ∀ b1, b.setQ (q t) = .ok b1 → ∀ i < b.dof,
      tau t i = b1.gravity.1 i - kp i * ((q t).getD i 0 - goal.getD i 0) - kv i * (dq t).getD i 0)
    {s t : ℝ} (h0 : 0 ≤ s) (hst : s ≤ t) (hT : t ≤ T) {bs bt : Body} (es : b.setQ (q s) = .ok bs)
    (et : b.setQ (q t) = .ok bt) :
    ∑ i ∈ range b.dof, (dq t).getD i 0 * ∑ j ∈ range b.dof, bt.inertia.1 i j * (dq t).getD j 0 +
        ∑ i ∈ range b.dof, kp i * ((q t).getD i 0 - goal.getD i 0) ^ 2 ≤
      ∑ i ∈ range b.dof, (dq s).getD i 0 * ∑ j ∈ range b.dof, bs.inertia.1 i j * (dq s).getD j 0 +
        ∑ i ∈ range b.dof, kp i * ((q s).getD i 0 - goal.getD i 0) ^ 2 :=
  C155_energy h hd ha goal kp hv (o := { o with friction := false }) rfl hcc hg hbase
    ((movesWith_viscous h hd hc _ _ hf heps T q dq).1 hM)
    (fun t ht b1 e1 i hi => by rw [htau t ht b1 e1 i hi]; ring) h0 hst hT es et

/-- C155: so, started at rest, no joint goes farther from the goal than the start allows. -/
theorem C155_viscous_overshoot (h : Reach E b d) (hd : b.Definite) (ha : b.AxesOK) {v : ℕ → ℝ}
    (hc : ∀ i < b.dof, Coef (b.rb i).joint 0 (v i) 0) (goal : List ℝ) {kp kv : ℕ → ℝ}
    (hk : ∀ i < b.dof, 0 ≤ kp i) (hv : ∀ i < b.dof, 0 ≤ kv i + v i) {o : IntOpts}
    (hf : o.friction = true) (heps : 0 ≤ o.eps) (hcc : o.cc = true) (hg : o.gravity = true)
    (hbase : o.aba = false ∨ b.T0.R.mulVec b.g = b.g) {T : ℝ}
    {tau : ℝ → ℕ → ℝ} {q dq : ℝ → List ℝ} (hM : b.MovesWith E tau noExt o T q dq)
    (htau : ∀ t ∈ Set.Icc 0 T, ∀ b1, b.setQ (q t) = .ok b1 → ∀ i < b.dof,
      tau t i = b1.gravity.1 i - kp i * ((q t).getD i 0 - goal.getD i 0) - kv i * (dq t).getD i 0)
    (h0 : ∀ i < b.dof, (dq 0).getD i 0 = 0) {t : ℝ} (ht : t ∈ Set.Icc 0 T) {i : ℕ} (hi : i < b.dof) :
    kp i * ((q t).getD i 0 - goal.getD i 0) ^ 2 ≤
      ∑ j ∈ range b.dof, kp j * ((q 0).getD j 0 - goal.getD j 0) ^ 2 :=
  C155_overshoot h hd ha goal hk hv (o := { o with friction := false }) rfl hcc hg hbase
    ((movesWith_viscous h hd hc _ _ hf heps T q dq).1 hM)
    (fun t ht b1 e1 i hi => by rw [htau t ht b1 e1 i hi]; ring) h0 ht hi

/-- C154: and so does proportional control with the gravity of the goal compensated and large gains. -/
theorem C154_viscous (h : Reach E b d) (hd : b.Definite) (ha : b.AxesOK) (ht : ∀ i < b.dof,
      (b.rb i).joint.type = .rx ∨ (b.rb i).joint.type = .ry ∨ (b.rb i).joint.type = .rz) {v : ℕ → ℝ}
    (hc : ∀ i < b.dof, Coef (b.rb i).joint 0 (v i) 0) :
    ∃ K, ∀ goal Bg, b.setQ goal = .ok Bg → ∀ kp kv : ℕ → ℝ, (∀ i < b.dof, K < kp i) →
      (∀ i < b.dof, 0 < kv i + v i) → ∀ o : IntOpts, o.friction = true → 0 ≤ o.eps → o.cc = true →
      o.gravity = true → (o.aba = false ∨ b.T0.R.mulVec b.g = b.g) → ∀ q dq : ℝ → List ℝ,
      (∀ T, b.MovesWith E
        (fun t i => Bg.gravity.1 i - kp i * ((q t).getD i 0 - goal.getD i 0) - kv i * (dq t).getD i 0)
          noExt o T q dq) →
      ∀ ε > 0, ∃ T, ∀ t, T ≤ t → ∀ i < b.dof,
        |(q t).getD i 0 - goal.getD i 0| ≤ ε ∧ |(dq t).getD i 0| ≤ ε := by
  obtain ⟨K, hK⟩ := C154_reaches h hd ha ht
  refine ⟨K, fun goal Bg hG kp kv hk hv o hf heps hcc hg hbase q dq hM => ?_⟩
  refine hK goal Bg hG kp (fun i => kv i + v i) hk hv { o with friction := false } rfl hcc hg hbase q dq fun T => ?_
  have e : (fun (t : ℝ) (i : ℕ) => Bg.gravity.1 i - kp i * ((q t).getD i 0 - goal.getD i 0) -
      (kv i + v i) * (dq t).getD i 0) = fun t i => (Bg.gravity.1 i - kp i * ((q t).getD i 0 - goal.getD i 0) -
      kv i * (dq t).getD i 0) - v i * (dq t).getD i 0 := by
    funext t i; ring
  rw [e]
  exact (movesWith_viscous h hd hc _ _ hf heps T q dq).1 (hM T)

/-- The hypotheses hold for a pendulum with viscous friction switched on, with the proportional part
alone. -/
example (E : Ext) (x w : ℝ) : ∃ d, Reach E creak d ∧ creak.Definite ∧ creak.AxesOK ∧ (∀ i < creak.dof,
      (creak.rb i).joint.type = .rx ∨ (creak.rb i).joint.type = .ry ∨ (creak.rb i).joint.type = .rz) ∧
    (∀ i < creak.dof, Coef (creak.rb i).joint 0 2 0) ∧ 0 ≤ IntOpts.make.eps ∧
    ∃ (tau : ℝ → ℕ → ℝ) (q dq : ℝ → List ℝ), q 0 = [x] ∧ dq 0 = [w] ∧
      (∀ T, creak.MovesWith E tau noExt { IntOpts.make with friction := true } T q dq) ∧
      ∀ t, ∀ b1, creak.setQ (q t) = .ok b1 → ∀ i < creak.dof,
        tau t i = b1.gravity.1 i - 1 * ((q t).getD i 0 - [1].getD i 0) - 0 * (dq t).getD i 0 := by
  obtain ⟨d, h⟩ := creak_reach E
  have h0 : ∀ k < creak.dof, k = 0 := fun k hk => Nat.lt_one_iff.1 hk
  have ha : creak.AxesOK := fun k hk => by rw [h0 k hk]; rfl
  have hc : ∀ i < creak.dof, Coef (creak.rb i).joint 0 2 0 := fun i hi => by
    rw [h0 i hi]; exact ⟨rfl, rfl, rfl, le_rfl, by norm_num, le_rfl⟩
  have he : 0 ≤ IntOpts.make.eps := by norm_num [IntOpts.make]
  exact ⟨d, h, creak_definite, ha, fun i hi => .inl (by rw [h0 i hi]; rfl), hc, he,
    C155_viscous_motion h creak_definite ha (v := fun _ => 2) hc [1] (kp := fun _ => 1) (kv := fun _ => 0)
      (fun _ _ => one_pos) (fun _ _ => by norm_num) (o := { IntOpts.make with friction := true }) rfl he rfl rfl (.inl rfl) rfl rfl⟩

end SpatialDyn
