import Verif.Props.Sensitivity
import Verif.Props.Control

/-!
# C153: where a robot rests under proportional control

A robot whose joints all turn is held by torques `g - kp (q - goal)`, one gain per joint.  If `g` is what
`Gravity` answers at the goal and the gains are large, it rests at the goal and nowhere else; without the
compensation it rests at most a constant over the gain away from the goal.
-/

namespace SpatialDyn
open Finset Body OneStep

variable {E : Ext} {b : Body} {d : Bool}

/-- At rest, `ForwardDynamics` answers zero exactly for the torques that `Gravity` answers. -/
theorem rest_iff (h : Reach E b d) (hd : b.Definite) {q dq : List ℝ} {b1 B : Body} (h1 : b.setQ q = .ok b1)
    (h2 : b1.setDq dq = .ok B) (h0 : ∀ i < b.dof, dq.getD i 0 = 0) (tau : ℕ → ℝ) {o : FDOpts}
    (hf : o.friction = false) (hg : o.gravity = true) :
    (∀ i < b.dof, (B.fd E tau noExt o).1 i = 0) ↔ ∀ i < b.dof, tau i = b1.gravity.1 i := by
  obtain ⟨hs, hn, hfr, -, hvel, d', r⟩ := h.after_set ⟨b1, h1, h2⟩
  obtain ⟨hs1, hn1, hf1, d1, r1⟩ := h.after_setQ h1
  have hD := hs.definite hd
  have hm := hD.massive r.inv.tree
  have hrest : ∀ i < B.dof, B.dq.getD i 0 = 0 := fun i hi => by
    rw [setDq_dq h2]; exact h0 i (hi.trans_eq hn)
  have hid : ∀ i < b.dof, B.fresh.idSpec (fun _ => 0) noExt o.cc o.gravity i = b1.gravity.1 i := by
    intro i hi
    have := congrFun (idSpec_gravity (b := B) (cc := o.cc) (g := true) fun _ => hrest) ⟨i, by rw [hn]; exact hi⟩
    simp only [vec, if_true] at this
    rw [hg, this, (gravity_run r1.inv).2 i (by rw [hn1]; exact hi), hfr, hf1]
    rfl
  have row : ∀ i < b.dof, ∑ j ∈ range b.dof, B.fresh.massSpec i j * (B.fd E tau noExt o).1 j =
      tau i - b1.gravity.1 i := by
    intro i hi
    have := fd_solves r hm (hD.form r) tau noExt o i (by rw [hn]; exact hi)
    unfold Sys.fdRhs at this
    simp only [hf, Bool.false_eq_true, if_false, hn] at this
    rw [this, hid i hi]
  constructor
  · intro hz i hi
    have := row i hi
    rw [sum_eq_zero fun j hj => by rw [hz j (mem_range.1 hj), mul_zero]] at this
    linarith
  · intro ht i hi
    refine Sys.solve_unique (y := fun _ => 0) (fresh_det r hm (hD.form r)) (fun k hk => ?_) i
      (by rw [hn]; exact hi)
    rw [hn] at hk ⊢
    rw [row k hk, ht k hk, sub_self]
    simp

/-- C153: with gains above a constant, the same for all goals, and the gravity of the goal compensated, a
robot at rest stays at rest exactly at the goal. -/
theorem C153_only (h : Reach E b d) (hd : b.Definite) (ht : ∀ i < b.dof,
      (b.rb i).joint.type = .rx ∨ (b.rb i).joint.type = .ry ∨ (b.rb i).joint.type = .rz) :
    ∃ K, ∀ goal Bg, b.setQ goal = .ok Bg → ∀ kp : ℕ → ℝ, (∀ i < b.dof, K < kp i) →
      ∀ q dq b1 B, b.setQ q = .ok b1 → b1.setDq dq = .ok B → (∀ i < b.dof, dq.getD i 0 = 0) →
      ∀ o : FDOpts, o.friction = false → o.gravity = true →
      ((∀ i < b.dof,
          (B.fd E (fun i => Bg.gravity.1 i - kp i * (q.getD i 0 - goal.getD i 0)) noExt o).1 i = 0) ↔
        ∀ i < b.dof, q.getD i 0 = goal.getD i 0) := by
  obtain ⟨L, hL⟩ := C152_gravity h ht
  refine ⟨b.dof * |L|, fun goal Bg hG kp hk q dq b1 B h1 h2 h0 o hf hg => ?_⟩
  rw [rest_iff h hd h1 h2 h0 _ hf hg]
  constructor
  · intro hb
    by_contra hne
    simp only [not_forall] at hne
    obtain ⟨l, hl, hne⟩ := hne
    have a1 : ∀ i ∈ range b.dof, kp i * |q.getD i 0 - goal.getD i 0| ≤ |L| * apart b.dof q goal := by
      intro i hi
      have hi := mem_range.1 hi
      have e := hb i hi
      have k0 : 0 ≤ kp i := (by positivity : (0 : ℝ) ≤ b.dof * |L|).trans (hk i hi).le
      have e' : kp i * (q.getD i 0 - goal.getD i 0) = -(b1.gravity.1 i - Bg.gravity.1 i) := by linarith
      rw [← abs_of_nonneg k0, ← abs_mul, e', abs_neg]
      exact (hL q goal b1 Bg h1 hG i hi).trans
        (mul_le_mul_of_nonneg_right (le_abs_self L) (apart_nonneg _ _ _))
    have a2 : ∑ i ∈ range b.dof, b.dof * |L| * |q.getD i 0 - goal.getD i 0| <
        ∑ i ∈ range b.dof, kp i * |q.getD i 0 - goal.getD i 0| :=
      sum_lt_sum (fun i hi => mul_le_mul_of_nonneg_right (hk i (mem_range.1 hi)).le (abs_nonneg _))
        ⟨l, mem_range.2 hl, mul_lt_mul_of_pos_right (hk l hl) (abs_pos.2 (sub_ne_zero.2 hne))⟩
    have a3 := sum_le_sum a1
    rw [← mul_sum] at a2
    rw [sum_const, card_range, nsmul_eq_mul, ← mul_assoc] at a3
    exact absurd (a2.trans_le a3) (lt_irrefl _)
  · intro he i hi
    have : |b1.gravity.1 i - Bg.gravity.1 i| ≤ 0 := by
      refine (hL q goal b1 Bg h1 hG i hi).trans (le_of_eq ?_)
      unfold apart
      rw [sum_eq_zero fun j hj => by rw [he j (mem_range.1 hj), sub_self, abs_zero], mul_zero]
    rw [he i hi, sub_self, mul_zero, sub_zero]
    exact (sub_eq_zero.1 (abs_eq_zero.1 (le_antisymm this (abs_nonneg _)))).symm

/-- C153: without compensation, wherever it rests each joint is at most a constant over its gain away from
the goal. -/
theorem C153_offset (h : Reach E b d) (hd : b.Definite) (ht : ∀ i < b.dof,
      (b.rb i).joint.type = .rx ∨ (b.rb i).joint.type = .ry ∨ (b.rb i).joint.type = .rz) :
    ∃ G, ∀ (goal : List ℝ) (kp : ℕ → ℝ), (∀ i < b.dof, 0 < kp i) →
      ∀ q dq b1 B, b.setQ q = .ok b1 → b1.setDq dq = .ok B → (∀ i < b.dof, dq.getD i 0 = 0) →
      ∀ o : FDOpts, o.friction = false → o.gravity = true →
      (∀ i < b.dof, (B.fd E (fun i => -kp i * (q.getD i 0 - goal.getD i 0)) noExt o).1 i = 0) →
        ∀ i < b.dof, |q.getD i 0 - goal.getD i 0| ≤ G / kp i := by
  obtain ⟨G, hG⟩ := C149_gravity h ht
  refine ⟨G, fun goal kp hk q dq b1 B h1 h2 h0 o hf hg hz i hi => ?_⟩
  have e := (rest_iff h hd h1 h2 h0 _ hf hg).1 hz i hi
  rw [le_div_iff₀ (hk i hi)]
  have := hG q b1 h1 i hi
  rw [← e, abs_mul, abs_neg, abs_of_pos (hk i hi)] at this
  linarith

/-- The hypotheses hold for a pendulum at rest, at every position and for every goal; with its constant `K`
the gains `K + 1` do. -/
example (E : Ext) : ∃ d, Reach E creak d ∧ creak.Definite ∧ (∀ i < creak.dof,
      (creak.rb i).joint.type = .rx ∨ (creak.rb i).joint.type = .ry ∨ (creak.rb i).joint.type = .rz) ∧
    ∀ x : ℝ, ∃ b1 B, creak.setQ [x] = .ok b1 ∧ b1.setDq [0] = .ok B := by
  obtain ⟨d, h⟩ := creak_reach E
  have h0 : ∀ k < creak.dof, k = 0 := fun k hk => Nat.lt_one_iff.1 hk
  refine ⟨d, h, creak_definite, fun i hi => .inl (by rw [h0 i hi]; rfl), fun x => ?_⟩
  obtain ⟨b1, h1, e1⟩ := setQ_total (b := creak) (q := [x]) rfl
  obtain ⟨B, h2, -⟩ := setDq_total (b := b1) (q := [0]) (by rw [e1]; rfl)
  exact ⟨b1, B, h1, h2⟩

end SpatialDyn
