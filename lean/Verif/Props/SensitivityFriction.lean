import Verif.Props.Sensitivity

/-! C152 with friction: viscous friction keeps it, Coulomb friction breaks it. -/

namespace SpatialDyn
open Finset Body OneStep

variable {E : Ext} {b : Body} {d : Bool}

/-- C152: the accelerations, by either method, of a robot whose friction is viscous. -/
theorem C152_viscous (h : Reach E b d) (hd : b.Definite) (ht : ∀ i < b.dof,
      (b.rb i).joint.type = .rx ∨ (b.rb i).joint.type = .ry ∨ (b.rb i).joint.type = .rz) {v : ℕ → ℝ}
    (hc : ∀ i < b.dof, Coef (b.rb i).joint 0 (v i) 0) (fext : FExt) (R : ℝ) :
    ∃ L, ∀ q dq b1 B q' dq' b1' B', b.setQ q = .ok b1 → b1.setDq dq = .ok B →
      b.setQ q' = .ok b1' → b1'.setDq dq' = .ok B' →
      (∀ j < b.dof, |dq.getD j 0| ≤ R) → (∀ j < b.dof, |dq'.getD j 0| ≤ R) →
      ∀ (tau tau' : ℕ → ℝ) (o : IntOpts), o.friction = true → 0 ≤ o.eps → ∀ i < b.dof,
      |B.acceleration E tau fext o i - B'.acceleration E tau' fext o i| ≤
        L * ((1 + ∑ j ∈ range b.dof, |tau' j|) * (apart b.dof q q' + apart b.dof dq dq') +
          ∑ j ∈ range b.dof, |tau j - tau' j|) := by
  obtain ⟨L1, hL1⟩ := C152_forward h hd ht fext R
  obtain ⟨L2, hL2⟩ := C152_aba h hd ht fext R
  set n := b.dof with hn
  set V := ∑ j ∈ range n, v j with hV
  have v0 : ∀ j < n, 0 ≤ v j := fun j hj => (hc j hj).v0
  have V0 : 0 ≤ V := sum_nonneg fun j hj => v0 j (mem_range.1 hj)
  refine ⟨(|L1| + |L2|) * (1 + V * |R| + V),
    fun q dq b1 B q' dq' b1' B' h1 h2 h1' h2' hv hv' tau tau' o ho heps i hi => ?_⟩
  have red : ∀ q dq b1 B, b.setQ q = .ok b1 → b1.setDq dq = .ok B → ∀ tau : ℕ → ℝ,
      B.acceleration E tau fext o i =
        B.acceleration E (fun j => tau j - v j * dq.getD j 0) fext { o with friction := false } i := by
    intro q dq b1 B h1 h2 tau
    obtain ⟨hs, hn', -, -, hvel, d', r⟩ := h.after_set ⟨b1, h1, h2⟩
    rw [acceleration_damped r (hs.definite hd) (v := v) (fun j hj => by
      rw [show B.rb = b.rb by unfold Body.rb; rw [hs.rbs]]; exact hc j (hj.trans_eq hn')) tau fext ho heps
      (by rw [hn']; exact hi), hvel]
  rw [red q dq b1 B h1 h2, red q' dq' b1' B' h1' h2']
  set g := apart n q q' + apart n dq dq' with hg
  have g0 : 0 ≤ g := add_nonneg (apart_nonneg _ _ _) (apart_nonneg _ _ _)
  set S := ∑ j ∈ range n, |tau' j| with hS
  have S0 : 0 ≤ S := sum_nonneg fun _ _ => abs_nonneg _
  set T := ∑ j ∈ range n, |tau j - tau' j| with hT
  have T0 : 0 ≤ T := sum_nonneg fun _ _ => abs_nonneg _
  have s1 : ∑ j ∈ range n, |tau' j - v j * dq'.getD j 0| ≤ S + V * |R| := by
    rw [hS, hV, sum_mul, ← sum_add_distrib]
    refine sum_le_sum fun j hj => (abs_sub _ _).trans (add_le_add le_rfl ?_)
    rw [abs_mul, abs_of_nonneg (v0 j (mem_range.1 hj))]
    exact mul_le_mul_of_nonneg_left ((hv' j (mem_range.1 hj)).trans (le_abs_self _)) (v0 j (mem_range.1 hj))
  have s2 : ∑ j ∈ range n, |(tau j - v j * dq.getD j 0) - (tau' j - v j * dq'.getD j 0)| ≤ T + V * g := by
    rw [hT, hV, sum_mul, ← sum_add_distrib]
    refine sum_le_sum fun j hj => ?_
    rw [show (tau j - v j * dq.getD j 0) - (tau' j - v j * dq'.getD j 0) =
      (tau j - tau' j) - v j * (dq.getD j 0 - dq'.getD j 0) by ring]
    refine (abs_sub _ _).trans (add_le_add le_rfl ?_)
    rw [abs_mul, abs_of_nonneg (v0 j (mem_range.1 hj))]
    refine mul_le_mul_of_nonneg_left ?_ (v0 j (mem_range.1 hj))
    have : |dq.getD j 0 - dq'.getD j 0| ≤ apart n dq dq' :=
      single_le_sum (f := fun j => |dq.getD j 0 - dq'.getD j 0|) (fun _ _ => abs_nonneg _) hj
    linarith [apart_nonneg n q q']
  set S' := ∑ j ∈ range n, |tau' j - v j * dq'.getD j 0| with hS'
  set T' := ∑ j ∈ range n, |(tau j - v j * dq.getD j 0) - (tau' j - v j * dq'.getD j 0)| with hT'
  have S0' : 0 ≤ S' := sum_nonneg fun _ _ => abs_nonneg _
  have T0' : 0 ≤ T' := sum_nonneg fun _ _ => abs_nonneg _
  have key : ∀ L : ℝ, |L| ≤ |L1| + |L2| → L * ((1 + S') * g + T') ≤
      (|L1| + |L2|) * (1 + V * |R| + V) * ((1 + S) * g + T) := by
    intro L hL
    have W0 : 0 ≤ (1 + S') * g + T' := by positivity
    have a1 : L * ((1 + S') * g + T') ≤ (|L1| + |L2|) * ((1 + S') * g + T') :=
      mul_le_mul_of_nonneg_right ((le_abs_self L).trans hL) W0
    refine a1.trans ?_
    rw [mul_assoc (|L1| + |L2|)]
    refine mul_le_mul_of_nonneg_left ?_ (by positivity)
    have b1 : (1 + S') * g ≤ (1 + (S + V * |R|)) * g := mul_le_mul_of_nonneg_right (by linarith) g0
    have c1 : 0 ≤ V * |R| * (S * g) := by positivity
    have c2 : 0 ≤ V * (S * g) := by positivity
    have c3 : 0 ≤ (V * |R| + V) * T := by positivity
    nlinarith
  unfold acceleration
  split
  · exact (hL2 q dq b1 B q' dq' b1' B' h1 h2 h1' h2' hv hv' _ _ _ rfl i hi).trans
      (key L2 (by linarith [abs_nonneg L1]))
  · exact (hL1 q dq b1 B q' dq' b1' B' h1 h2 h1' h2' hv hv' _ _ _ rfl i hi).trans
      (key L1 (by linarith [abs_nonneg L2]))

/-- C152: with Coulomb friction, on the other hand, what `Friction` answers jumps: velocities as near as one
likes have torques of friction as far apart as the coefficient. -/
theorem C152_coulomb {i : ℕ} (hi : i < b.dof) {c v s : ℝ}
    (hc : Coef (b.rb i).joint c v s) (c0 : 0 < c) {eps : ℝ} (heps : 0 ≤ eps) {δ : ℝ} (hδ : 0 < δ) :
    ∃ dq dq' B B', b.setDq dq = .ok B ∧ b.setDq dq' = .ok B' ∧ apart b.dof dq dq' ≤ δ ∧
      c ≤ |B'.friction (fun _ => 0) false eps i - B.friction (fun _ => 0) false eps i| := by
  set w : ℝ → List ℝ := fun x => List.ofFn fun j : Fin b.dof => if (j : ℕ) = i then x else 0 with hw
  have hget : ∀ x, ∀ j < b.dof, (w x).getD j 0 = if j = i then x else 0 := by
    intro x j hj
    rw [hw]
    simp [List.getD, hj]
  obtain ⟨B, hB, -⟩ := setDq_total (b := b) (q := w eps) (by simp [hw])
  obtain ⟨B', hB', -⟩ := setDq_total (b := b) (q := w (eps + δ)) (by simp [hw])
  have rb : ∀ x C, b.setDq x = .ok C → C.rb = b.rb := by
    intro x C hC
    unfold setDq at hC
    split at hC
    · cases hC
    · split at hC <;> cases hC <;> rfl
  refine ⟨w eps, w (eps + δ), B, B', hB, hB', ?_, ?_⟩
  · unfold apart
    rw [sum_eq_single i]
    · rw [hget _ i hi, hget _ i hi, if_pos rfl, if_pos rfl, show eps - (eps + δ) = -δ by ring, abs_neg,
        abs_of_pos hδ]
    · intro j hj hji
      rw [hget _ j (mem_range.1 hj), hget _ j (mem_range.1 hj), if_neg hji, if_neg hji, sub_zero, abs_zero]
    · intro hni; exact absurd (mem_range.2 hi) hni
  · have e1 : B.vel i = eps := by
      unfold Body.vel; rw [setDq_dq hB, hget _ i hi, if_pos rfl]
    have e2 : B'.vel i = eps + δ := by
      unfold Body.vel; rw [setDq_dq hB', hget _ i hi, if_pos rfl]
    have f1 := C32_rest (b := B) (fun _ => 0) (eps := eps) (i := i) (by rw [rb _ _ hB]; exact hc)
      (by unfold Slow; rw [e1, abs_of_nonneg heps])
    have f2 := (C32_moving_partial (b := B') (fun _ => 0) false (eps := eps) (i := i)
      (by rw [rb _ _ hB']; exact hc) heps
      (by unfold Slow; rw [e2, abs_of_pos (by linarith)]; linarith) c0).1
    have hs := add_nonneg hc.c0 hc.s0
    simp only [abs_zero] at f1
    rw [if_pos hs, e1] at f1
    rw [e2, abs_of_pos (by linarith)] at f2
    have f3 : B'.friction (fun _ => 0) false eps i = v * (eps + δ) + c :=
      mul_left_cancel₀ (show eps + δ ≠ 0 by linarith) (by rw [f2]; ring)
    rw [f3, sub_eq_zero.1 f1]
    refine le_trans ?_ (le_abs_self _)
    nlinarith [mul_nonneg hc.v0 hδ.le]

/-- The hypotheses of the first hold for a body with one turning joint with viscous friction. -/
example (E : Ext) : ∃ d, Reach E creak d ∧ creak.Definite ∧ (∀ i < creak.dof,
      (creak.rb i).joint.type = .rx ∨ (creak.rb i).joint.type = .ry ∨ (creak.rb i).joint.type = .rz) ∧
    ∀ i < creak.dof, Coef (creak.rb i).joint 0 2 0 := by
  obtain ⟨d, h⟩ := creak_reach E
  have h0 : ∀ k < creak.dof, k = 0 := fun k hk => Nat.lt_one_iff.1 hk
  exact ⟨d, h, creak_definite, fun i hi => .inl (by rw [h0 i hi]; rfl), fun i hi => by
    rw [h0 i hi]; exact ⟨rfl, rfl, rfl, le_rfl, by norm_num, le_rfl⟩⟩

/-- Those of the second hold for a body with one joint with all three kinds of friction. -/
example : 0 < hinge.dof ∧ Coef (hinge.rb 0).joint 1 2 3 :=
  ⟨Nat.one_pos, rfl, rfl, rfl, by norm_num, by norm_num, by norm_num⟩

end SpatialDyn
