import Verif.Props.Compensated
import Verif.Props.Speed

/-! C155: how far a robot goes under control with compensation of gravity. -/

namespace SpatialDyn
open Finset Body OneStep
open scoped ContDiff

variable {E : Ext} {b : Body} {d : Bool}

/-- C155: the kinetic energy (by `Inertia`) and the weighted distance from the goal never grow together: so
no joint ever goes farther from the goal than the start allows. -/
theorem C155_energy (h : Reach E b d) (hd : b.Definite) (ha : b.AxesOK) (goal : List ℝ) (kp : ℕ → ℝ)
    {kv : ℕ → ℝ} (hv : ∀ i < b.dof, 0 ≤ kv i) {o : IntOpts} (hf : o.friction = false)
    (hcc : o.cc = true) (hg : o.gravity = true) (hbase : o.aba = false ∨ b.T0.R.mulVec b.g = b.g) {T : ℝ}
    {tau : ℝ → ℕ → ℝ} {q dq : ℝ → List ℝ} (hM : b.MovesWith E tau noExt o T q dq)
    (htau : ∀ t ∈ Set.Icc 0 T, ∀ b1, b.setQ (q t) = .ok b1 → ∀ i < b.dof,
      tau t i = b1.gravity.1 i - kp i * ((q t).getD i 0 - goal.getD i 0) - kv i * (dq t).getD i 0)
    {s t : ℝ} (h0 : 0 ≤ s) (hst : s ≤ t) (hT : t ≤ T) {bs bt : Body} (es : b.setQ (q s) = .ok bs)
    (et : b.setQ (q t) = .ok bt) :
    ∑ i ∈ range b.dof, (dq t).getD i 0 * ∑ j ∈ range b.dof, bt.inertia.1 i j * (dq t).getD j 0 +
        ∑ i ∈ range b.dof, kp i * ((q t).getD i 0 - goal.getD i 0) ^ 2 ≤
      ∑ i ∈ range b.dof, (dq s).getD i 0 * ∑ j ∈ range b.dof, bs.inertia.1 i j * (dq s).getD j 0 +
        ∑ i ∈ range b.dof, kp i * ((q s).getD i 0 - goal.getD i 0) ^ 2 := by
  have hm := hd.massive h.inv.tree
  set a : ℕ → ℝ := fun i => goal.getD i 0 with hadef
  set Y := stateOf b q dq with hYdef
  have hS : ∀ t ∈ Set.Icc 0 T, HasDerivWithinAt Y (heldField E b a kp kv o (Y t)) (Set.Icc 0 T) t := by
    intro t ht
    refine (movesWith_solves h hm hM t ht).congr_deriv (field_congr h hd (fun i hi => ?_) noExt hf _)
    obtain ⟨b1, B, e1, -⟩ := hM t ht
    rw [htau t ht b1 e1 i hi, weight_set h e1 hi]
    exact (padFin_at (heldTau b a kp kv (stateOf b q dq t)) ⟨i, hi⟩).symm
  have hE : ∀ t ∈ Set.Icc 0 T, HasDerivWithinAt (fun t => restEnergy b a kp (Y t))
      (-∑ i : Fin b.dof, kv i * (Y t).2 i ^ 2) (Set.Icc 0 T) t := by
    intro t ht
    have := (((restEnergy_smooth h a kp).differentiable (by simp)) (Y t)).hasFDerivAt.comp_hasDerivWithinAt t
      (hS t ht)
    rw [held_rate h hd ha hf hcc hg hbase] at this
    exact this
  have hanti : AntitoneOn (fun t => restEnergy b a kp (Y t)) (Set.Icc 0 T) := by
    refine antitoneOn_of_hasDerivWithinAt_nonpos (convex_Icc _ _)
      (f' := fun t => -∑ i : Fin b.dof, kv i * (Y t).2 i ^ 2) (fun x hx => (hE x hx).continuousWithinAt)
      (fun x hx => (hE x (interior_subset hx)).mono interior_subset) fun x _ => ?_
    rw [neg_nonpos]
    exact sum_nonneg fun i _ => mul_nonneg (hv i i.2) (sq_nonneg _)
  have key := hanti ⟨h0, hst.trans hT⟩ ⟨h0.trans hst, hT⟩ hst
  simp only [restEnergy_eq, form_energy] at key
  have e : ∀ (x : ℝ) (bx : Body), b.setQ (q x) = .ok bx → ∑ i ∈ range b.dof, (dq x).getD i 0 *
      ∑ j ∈ range b.dof, bx.inertia.1 i j * (dq x).getD j 0 = b.inertiaForm (Y x) := fun x bx ex =>
    inertiaForm_form h hd ex fun i => (dq x).getD i 0
  have e2 : ∀ x : ℝ, ∑ i ∈ range b.dof, kp i * ((q x).getD i 0 - goal.getD i 0) ^ 2 =
      2 * ∑ i : Fin b.dof, kp i / 2 * ((Y x).1 i - a i) ^ 2 := fun x => by
    rw [sum_range, mul_sum]
    exact sum_congr rfl fun i _ => by
      show kp i * ((Y x).1 i - a i) ^ 2 = _
      ring
  rw [e t bt et, e s bs es, e2, e2]
  linarith

/-- C155: started at rest, no joint goes farther from the goal than the start allows. -/
theorem C155_overshoot (h : Reach E b d) (hd : b.Definite) (ha : b.AxesOK) (goal : List ℝ) {kp : ℕ → ℝ}
    (hk : ∀ i < b.dof, 0 ≤ kp i)
    {kv : ℕ → ℝ} (hv : ∀ i < b.dof, 0 ≤ kv i) {o : IntOpts} (hf : o.friction = false)
    (hcc : o.cc = true) (hg : o.gravity = true) (hbase : o.aba = false ∨ b.T0.R.mulVec b.g = b.g) {T : ℝ}
    {tau : ℝ → ℕ → ℝ} {q dq : ℝ → List ℝ} (hM : b.MovesWith E tau noExt o T q dq)
    (htau : ∀ t ∈ Set.Icc 0 T, ∀ b1, b.setQ (q t) = .ok b1 → ∀ i < b.dof,
      tau t i = b1.gravity.1 i - kp i * ((q t).getD i 0 - goal.getD i 0) - kv i * (dq t).getD i 0)
    (h0 : ∀ i < b.dof, (dq 0).getD i 0 = 0) {t : ℝ} (ht : t ∈ Set.Icc 0 T) {i : ℕ} (hi : i < b.dof) :
    kp i * ((q t).getD i 0 - goal.getD i 0) ^ 2 ≤
      ∑ j ∈ range b.dof, kp j * ((q 0).getD j 0 - goal.getD j 0) ^ 2 := by
  obtain ⟨bt, Bt, et, -⟩ := hM t ht
  obtain ⟨bs, Bs, es, -⟩ := hM 0 ⟨le_rfl, ht.1.trans ht.2⟩
  have key := C155_energy h hd ha goal kp hv hf hcc hg hbase hM htau le_rfl ht.1 ht.2 es et
  have z : ∑ i ∈ range b.dof, (dq 0).getD i 0 * ∑ j ∈ range b.dof, bs.inertia.1 i j * (dq 0).getD j 0 = 0 :=
    sum_eq_zero fun i hi => by rw [h0 i (mem_range.1 hi), zero_mul]
  have p : 0 ≤ ∑ i ∈ range b.dof, (dq t).getD i 0 * ∑ j ∈ range b.dof, bt.inertia.1 i j * (dq t).getD j 0 := by
    rw [inertiaForm_form h hd et fun i => (dq t).getD i 0, ← form_energy]
    exact energy2_nonneg h.inv hd _ _
  have := single_le_sum (f := fun i => kp i * ((q t).getD i 0 - goal.getD i 0) ^ 2)
    (fun i hi => mul_nonneg (hk i (mem_range.1 hi)) (sq_nonneg _)) (mem_range.2 hi)
  linarith

/-- The hypotheses hold for a pendulum that starts at rest, at every position. -/
example (E : Ext) (x : ℝ) : ∃ d, Reach E creak d ∧ creak.Definite ∧ creak.AxesOK ∧
    ∃ (tau : ℝ → ℕ → ℝ) (q dq : ℝ → List ℝ), q 0 = [x] ∧ (∀ i < creak.dof, (dq 0).getD i 0 = 0) ∧
      (∀ T, creak.MovesWith E tau noExt { IntOpts.make with friction := false } T q dq) ∧
      ∀ t, ∀ b1, creak.setQ (q t) = .ok b1 → ∀ i < creak.dof,
        tau t i = b1.gravity.1 i - 1 * ((q t).getD i 0 - [1].getD i 0) - 1 * (dq t).getD i 0 := by
  obtain ⟨d, h⟩ := creak_reach E
  have h0 : ∀ k < creak.dof, k = 0 := fun k hk => Nat.lt_one_iff.1 hk
  have ha : creak.AxesOK := fun k hk => by rw [h0 k hk]; rfl
  obtain ⟨tau, q, dq, e1, e2, e3, e4⟩ := C155_motion (q0 := [x]) (dq0 := [0]) h creak_definite ha [1]
    (fun _ _ => one_pos) (fun _ _ => zero_le_one) (o := { IntOpts.make with friction := false })
    rfl rfl rfl (.inl rfl) rfl rfl
  exact ⟨d, h, creak_definite, ha, tau, q, dq, e1, fun i hi => by rw [e2, h0 i hi]; rfl, e3, e4⟩

end SpatialDyn
