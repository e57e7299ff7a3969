import Verif.Spec.Feedback
import Verif.Props.SpringsSettle

/-!
# C146, C154: simulations with torques computed from the state
-/

namespace SpatialDyn
open Finset Body OneStep Filter Topology
open scoped ContDiff

variable {E : Ext} {b : Body} {d : Bool}

theorem setDq_length {b b' : Body} {x : List ℝ} (hx : b.setDq x = .ok b') : x.length = b.dof := by
  unfold Body.setDq at hx
  split at hx
  · cases hx
  · next h => exact not_not.1 h

/-- The states after calls with torques computed from the state. -/
theorem feedback_from (h : Reach E b d) (hm : b.Massive) (law : List ℝ → List ℝ → ℕ → ℝ)
    (dt : ℝ) (fext : FExt) (o : IntOpts) (ho : o.jointLimits = false) {s : State b.dof} {B : Body}
    (hB : AtState E b s B) : ∃ z : ℕ → State b.dof, z 0 = s ∧
      (∀ n, z (n + 1) = scheme o.method
        (b.field E cache0 (law (List.ofFn (z n).1) (List.ofFn (z n).2)) fext o) id dt (z n)) ∧
      ∀ n, ∃ B', feedback E law dt fext o n B = .ok B' ∧ AtState E b (z n) B' := by
  have e : b.codeFilter o.jointLimits = id := by
    funext y
    unfold codeFilter
    simp [ho]
  refine ⟨fun n => Nat.rec s (fun _ y => scheme o.method
    (b.field E cache0 (law (List.ofFn y.1) (List.ofFn y.2)) fext o) id dt y) n, rfl, fun _ => rfl, fun n => ?_⟩
  induction n with
  | zero => exact ⟨B, rfl, hB⟩
  | succ n ih =>
    obtain ⟨b1, h1, h2⟩ := ih
    obtain ⟨b2, h3, h4⟩ := h2.integrate h.inv hm.symI (hm.posMass h.inv.tree) cache0_clear
      (law b1.q b1.dq) dt fext o
    refine ⟨b2, by simp [feedback, h1, h3], ?_⟩
    rw [e, h2.q, h2.dq] at h4
    exact h4

/-- Simulations with torques computed from the state, where accelerations depend smoothly on torques and state. -/
theorem feedback_near (h : Reach E b d) (hd : b.Definite) {law : List ℝ → List ℝ → ℕ → ℝ}
    (hlaw : ∀ i < b.dof, ContDiff ℝ 1 fun y : (Fin b.dof → ℝ) × (Fin b.dof → ℝ) =>
      law (List.ofFn y.1) (List.ofFn y.2) i) {fext : FExt} {o : IntOpts}
    (hin : ContDiff ℝ ∞ fun p : (Fin b.dof → ℝ) × State b.dof => b.field E cache0 (padFin p.1) fext o p.2)
    (hpad : ∀ tau, b.field E cache0 tau fext o = b.field E cache0 (padFin fun i : Fin b.dof => tau i) fext o)
    (hl : o.jointLimits = false) {T : ℝ} {q dq : ℝ → List ℝ}
    (hM : b.MovesWith E (fun t => law (q t) (dq t)) fext o T q dq) :
    ∃ C h0 : ℝ, 0 < h0 ∧ ∀ dt, 0 < dt → dt ≤ h0 → ∀ e, 0 ≤ e → e ≤ h0 →
      ∀ (q0 dq0 : List ℝ) (b1 B : Body), b.setQ q0 = .ok b1 → b1.setDq dq0 = .ok B →
      (∀ i < b.dof, |q0.getD i 0 - (q 0).getD i 0| ≤ e ∧ |dq0.getD i 0 - (dq 0).getD i 0| ≤ e) →
      ∀ k : ℕ, k * dt ≤ T → ∃ B', feedback E law dt fext o k B = .ok B' ∧ ∀ i < b.dof,
        |B'.q.getD i 0 - (q (k * dt)).getD i 0| ≤ C * (dt + e) ∧
        |B'.dq.getD i 0 - (dq (k * dt)).getD i 0| ≤ C * (dt + e) := by
  have hm := hd.massive h.inv.tree
  obtain ⟨Φ, p1, p2, p3⟩ := scheme_inputs (F := fun w => b.field E cache0 (padFin w) fext o)
    (hin.of_le (by simp)) (fun _ _ => rfl) o.method
  set U : State b.dof → Fin b.dof → ℝ := fun y i => law (List.ofFn y.1) (List.ofFn y.2) i with hU
  have hUs : ContDiff ℝ 1 U := contDiff_pi.2 fun i => hlaw i i.2
  have hS := movesWith_solves h hm hM
  have hst : ∀ t ∈ Set.Icc 0 T, ((List.ofFn (stateOf b q dq t).1) = q t) ∧
      List.ofFn (stateOf b q dq t).2 = dq t := by
    intro t ht
    obtain ⟨b1, B, e1, e2, -⟩ := hM t ht
    refine ⟨stateOf_ofFn (setQ_length e1), stateOf_ofFn ?_⟩
    obtain ⟨hs, hn, -⟩ := h.after_setQ e1
    rw [← hn]
    exact setDq_length e2
  obtain ⟨C, h0, hC, hpos, hle, hn⟩ := hold_near (W := ℝ)
    (Φ := fun p : ℝ × (ℝ × State b.dof) => Φ (p.1, (U p.2.2, p.2.2)))
    (p1.comp (contDiff_fst.prodMk ((hUs.comp (contDiff_snd.comp contDiff_snd)).prodMk
      (contDiff_snd.comp contDiff_snd)))) (T := T) (τ := fun _ => 0) (Y := stateOf b q dq)
    ⟨0, fun _ _ _ _ => by simp⟩
    (fun t ht => by
      have e : U (stateOf b q dq t) = fun i : Fin b.dof => law (q t) (dq t) i := by
        rw [hU]; simp only [(hst t ht).1, (hst t ht).2]
      simp only
      rw [p2, e, ← hpad (law (q t) (dq t))]
      exact hS t ht)
  refine ⟨C, h0, hpos, fun dt h1 h2 e he hs q0 dq0 b1 B e1 e2 hnear k hk => ?_⟩
  obtain ⟨z, hz0, hz, hB⟩ := feedback_from h hm law dt fext o hl (atState_of_set h e1 e2)
  obtain ⟨B', e3, e4⟩ := hB k
  refine ⟨B', e3, fun i hi => e4.near (s := stateOf b q dq (k * dt)) ?_ hi⟩
  have g := hn dt h1 h2 e 0 he le_rfl (by linarith) z (fun _ => 0) ?_
    (fun n hn => by simp) (fun n _ => ?_) k hk
  · rwa [add_zero] at g
  · rw [hz0]
    exact (cut_near (y := (fun i => q0.getD i 0, fun i => dq0.getD i 0)) he).2 fun i => hnear i i.2
  · rw [hz, hpad, p3]

/-- C146: if a program computes the torques from the state, by any smooth law, and calls `Integrate` with
them, the robot stays within `C (dt + e)` of its motion under that law, from a state within `e` of the start
of the motion, with every method. -/
theorem C146_feedback (h : Reach E b d) (hd : b.Definite) {law : List ℝ → List ℝ → ℕ → ℝ}
    (hlaw : ∀ i < b.dof, ContDiff ℝ 1 fun y : (Fin b.dof → ℝ) × (Fin b.dof → ℝ) =>
      law (List.ofFn y.1) (List.ofFn y.2) i) {fext : FExt} {o : IntOpts}
    (ho : o.friction = false) (hl : o.jointLimits = false) {T : ℝ} {q dq : ℝ → List ℝ}
    (hM : b.MovesWith E (fun t => law (q t) (dq t)) fext o T q dq) :
    ∃ C h0 : ℝ, 0 < h0 ∧ ∀ dt, 0 < dt → dt ≤ h0 → ∀ e, 0 ≤ e → e ≤ h0 →
      ∀ (q0 dq0 : List ℝ) (b1 B : Body), b.setQ q0 = .ok b1 → b1.setDq dq0 = .ok B →
      (∀ i < b.dof, |q0.getD i 0 - (q 0).getD i 0| ≤ e ∧ |dq0.getD i 0 - (dq 0).getD i 0| ≤ e) →
      ∀ k : ℕ, k * dt ≤ T → ∃ B', feedback E law dt fext o k B = .ok B' ∧ ∀ i < b.dof,
        |B'.q.getD i 0 - (q (k * dt)).getD i 0| ≤ C * (dt + e) ∧
        |B'.dq.getD i 0 - (dq (k * dt)).getD i 0| ≤ C * (dt + e) :=
  feedback_near h hd hlaw (field_inputs h hd fext o ho) (fun tau => field_pad h hd tau fext o ho) hl hM

/-- C154: so a program that applies the torques of proportional control with damping call by call brings the
robot as close to the goal as wanted and keeps it there for as long as wanted, if the steps are short
enough. -/
theorem C154_simulation (h : Reach E b d) (hd : b.Definite) (ha : b.AxesOK) (ht : ∀ i < b.dof,
      (b.rb i).joint.type = .rx ∨ (b.rb i).joint.type = .ry ∨ (b.rb i).joint.type = .rz) :
    ∃ K, ∀ goal Bg, b.setQ goal = .ok Bg → ∀ kp kv : ℕ → ℝ, (∀ i < b.dof, K < kp i) →
      (∀ i < b.dof, 0 < kv i) → ∀ o : IntOpts, o.friction = false → o.cc = true → o.gravity = true →
      o.jointLimits = false → (o.aba = false ∨ b.T0.R.mulVec b.g = b.g) →
      ∀ q0 dq0 b1 B, b.setQ q0 = .ok b1 → b1.setDq dq0 = .ok B →
      ∀ ε > 0, ∃ T0 : ℝ, ∀ T : ℝ, ∃ h0 > 0, ∀ dt : ℝ, 0 < dt → dt ≤ h0 → ∀ k : ℕ, T0 ≤ k * dt → k * dt ≤ T →
        ∃ B', feedback E (fun q dq i => Bg.gravity.1 i - kp i * (q.getD i 0 - goal.getD i 0) - kv i * dq.getD i 0)
          dt noExt o k B = .ok B' ∧ ∀ i < b.dof,
          |B'.q.getD i 0 - goal.getD i 0| ≤ ε ∧ |B'.dq.getD i 0| ≤ ε := by
  obtain ⟨K, hK⟩ := C154_reaches h hd ha ht
  refine ⟨max K 0, fun goal Bg hG kp kv hk hv o hf hcc hg hl hbase q0 dq0 b1 B e1 e2 ε hε => ?_⟩
  have hl1 := setQ_length e1
  have hl2 : dq0.length = b.dof := by
    obtain ⟨hs, hn, -⟩ := h.after_setQ e1
    rw [← hn]
    exact setDq_length e2
  obtain ⟨q, dq, hq, hdq, hM⟩ := C154_motion h hd ha ht goal Bg.gravity.1 (kp := kp) (kv := kv)
    (fun i hi => (le_max_right _ _).trans_lt (hk i hi)) (fun i hi => (hv i hi).le) hf hcc hg hbase hl1 hl2
  obtain ⟨T0, hT0⟩ := hK goal Bg hG kp kv (fun i hi => (le_max_left _ _).trans_lt (hk i hi)) hv o hf hcc hg hbase
    q dq hM (ε / 2) (half_pos hε)
  refine ⟨T0, fun T => ?_⟩
  obtain ⟨C, h0, hpos, hC⟩ := C146_feedback h hd (law := fun q dq i =>
      Bg.gravity.1 i - kp i * (q.getD i 0 - goal.getD i 0) - kv i * dq.getD i 0) (fun i hi => by
    have g1 : ∀ v : Fin b.dof → ℝ, (List.ofFn v).getD i 0 = v ⟨i, hi⟩ := fun v => by simp [List.getD, hi]
    simp only [g1]
    have h1 : ContDiff ℝ 1 fun y : State b.dof => y.1 ⟨i, hi⟩ := (contDiff_apply ℝ ℝ _).comp contDiff_fst
    have h2 : ContDiff ℝ 1 fun y : State b.dof => y.2 ⟨i, hi⟩ := (contDiff_apply ℝ ℝ _).comp contDiff_snd
    exact (contDiff_const.sub (contDiff_const.mul (h1.sub contDiff_const))).sub (contDiff_const.mul h2))
    hf hl (hM T)
  refine ⟨min h0 (ε / 2 / (|C| + 1)), by positivity, fun dt d0 d1 k k0 k1 => ?_⟩
  obtain ⟨B', e3, e4⟩ := hC dt d0 (d1.trans (min_le_left _ _)) 0 le_rfl hpos.le q0 dq0 b1 B e1 e2
    (fun i _ => by rw [hq, hdq]; simp) k k1
  have hs : C * (dt + 0) ≤ ε / 2 := by
    have := (le_div_iff₀ (by positivity)).1 (d1.trans (min_le_right _ _))
    nlinarith [le_abs_self C, abs_nonneg C]
  refine ⟨B', e3, fun i hi => ?_⟩
  have g1 := e4 i hi
  have g2 := hT0 _ k0 i hi
  constructor
  · have := abs_sub_le (B'.q.getD i 0) ((q (k * dt)).getD i 0) (goal.getD i 0)
    linarith [g1.1, g2.1]
  · have := abs_sub_le (B'.dq.getD i 0) ((dq (k * dt)).getD i 0) 0
    rw [sub_zero, sub_zero] at this
    linarith [g1.2, g2.2]

/-- The hypotheses hold for a pendulum, at every start. -/
example (E : Ext) (x w : ℝ) : ∃ d, Reach E creak d ∧ creak.Definite ∧ creak.AxesOK ∧ (∀ i < creak.dof,
      (creak.rb i).joint.type = .rx ∨ (creak.rb i).joint.type = .ry ∨ (creak.rb i).joint.type = .rz) ∧
    ∃ b1 B Bg, creak.setQ [x] = .ok b1 ∧ b1.setDq [w] = .ok B ∧ creak.setQ [1] = .ok Bg := by
  obtain ⟨d, h⟩ := creak_reach E
  have h0 : ∀ k < creak.dof, k = 0 := fun k hk => Nat.lt_one_iff.1 hk
  obtain ⟨b1, h1, e1⟩ := setQ_total (b := creak) (q := [x]) rfl
  obtain ⟨B, h2, -⟩ := setDq_total (b := b1) (q := [w]) (by rw [e1]; rfl)
  obtain ⟨Bg, h3, -⟩ := setQ_total (b := creak) (q := [1]) rfl
  exact ⟨d, h, creak_definite, fun k hk => by rw [h0 k hk]; rfl,
    fun i hi => .inl (by rw [h0 i hi]; rfl), b1, B, Bg, h1, h2, h3⟩

end SpatialDyn
