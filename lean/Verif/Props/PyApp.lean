import Verif.Model.PyApp
import Verif.Props.ControlDefaults
import Verif.Lemmas.Field
import Verif.Props.ClosedLoop

/-!
# C101: the example program stops when the goal is reached
-/

namespace SpatialDyn
open Body Finset

variable {E : Ext} {C : Ctl} {U : C.Quat → Prop} {b : Body} {d : Bool}

/-- A loop that ended by itself ran at least one cycle. -/
theorem exampleLoop_ne {k : PyCtl C} {n : ℕ} {s : (List ℕ × Bool) × Body}
    (hs : exampleLoop E C k n b = .ok s) (ht : s.1.2 = true) : s.1.1 ≠ [] := by
  cases n with
  | zero => cases hs; cases ht
  | succ n =>
    obtain ⟨r, -, hs⟩ := Out.bind_ok hs
    split at hs
    · cases hs
      simp
    · obtain ⟨t, -, hs⟩ := Out.bind_ok hs
      cases hs
      simp

/-- C101 (partial: this is what the condition of the loop amounts to, see `C101_violated`): a cycle of
the program is the last one if and only if one of the following holds: the tip is within 0.01 of the
goal, or moves slower than 0.01, or the orientation error is below 0.01, or the link turns slower than
0.01, or the Jacobian is singular. -/
theorem C101_last_cycle_partial (h : Reach E b d) (hL : C.Law U) (hd : 0 < b.dof) {home : List ℝ}
    {x : Vec3} {Q : C.Quat} {dt : ℝ} {r : ((ℕ → ℝ) × ℕ) × Body}
    (hr : b.pyOpspaceControl E C (exampleArgs C home x Q dt) = .ok r) (n : ℕ) :
    ∃ J y R, b.Reads (-1) ⟨0, 0, 0.107⟩ J y R ∧
      ((∃ s, exampleLoop E C (exampleArgs C home x Q dt) (n + 1) b = .ok (([s], true), r.2)) ↔
        Below 0.01 (y - x) ∨ Below 0.01 (jacVel b.dof J b.dqFun).lin ∨
        Below 0.01 (C.oriErr (C.ofRot R) Q) ∨ Below 0.01 (jacVel b.dof J b.dqFun).ang ∨
        b.Singular E (jac6 b.dof J) 0.01) := by
  have hr' : b.opspaceControl E C _ = .ok r := hr
  obtain ⟨J, y, R, hR, h0, h1, h2, h3, h4, h5, h6⟩ := C51_status h hL hd hr'
  refine ⟨J, y, R, hR, ?_⟩
  have hs : (∃ s, exampleLoop E C (exampleArgs C home x Q dt) (n + 1) b = .ok (([s], true), r.2)) ↔
      r.1.2 ≠ 0 := by
    unfold exampleLoop
    rw [hr]
    simp only [Out.bind]
    constructor
    · rintro ⟨s, hs⟩ h0
      rw [if_neg (not_not.2 h0)] at hs
      obtain ⟨t, ht1, ht⟩ := Out.bind_ok hs
      simp only [Out.ok.injEq, Prod.mk.injEq, List.cons.injEq] at ht
      exact exampleLoop_ne ht1 ht.1.2 ht.1.1.2
    · intro h0
      exact ⟨_, if_pos h0⟩
  rw [hs]
  have hz : r.1.2 ≠ 0 ↔ ∃ i, r.1.2.testBit i = true := by
    constructor
    · intro hne
      exact Nat.exists_testBit_of_ne_zero hne
    · rintro ⟨i, hi⟩ h0
      rw [h0] at hi
      simp at hi
  rw [hz]
  constructor
  · rintro ⟨i, hi⟩
    rcases i with _ | _ | _ | _ | _ | _ | i
    · exact .inl (h0.1 hi)
    · exact .inr (.inl (h1.1 hi))
    · exact .inr (.inr (.inl (h2.1 hi)))
    · exact .inr (.inr (.inr (.inl (h3.1 hi))))
    · exact .inr (.inr (.inr (.inr (h4.1 hi))))
    · exact .inr (.inr (.inr (.inr (h5.1 hi).1)))
    · rw [h6 _ (by omega)] at hi
      cases hi
  · rintro (hi | hi | hi | hi | hi)
    · exact ⟨0, h0.2 hi⟩
    · exact ⟨1, h1.2 hi⟩
    · exact ⟨2, h2.2 hi⟩
    · exact ⟨3, h3.2 hi⟩
    · exact ⟨4, h4.2 hi⟩

/-- Negation of C101, for every robot at rest: the program ends after its first cycle, while the tip
is still 0.2 away from the goal (bit 0 of the status word, position reached, is not set). -/
theorem C101_violated (h : Reach E b d) (hL : C.Law U) (hdef : b.Definite) (hd : 0 < b.dof)
    {home : List ℝ} (hh : home.length = b.dof) (hrest : ∀ i < b.dof, b.dq.getD i 0 = 0) (dt : ℝ)
    (n : ℕ) : ∃ s b', exampleMain E C home dt (n + 1) b = .ok (([s], true), b') ∧
      s.testBit 0 = false := by
  obtain ⟨b1, hb1⟩ : ∃ b1, b.setQ home = .ok b1 := by
    unfold setQ
    rw [if_neg (not_not.2 hh)]
    split <;> exact ⟨_, rfl⟩
  have h1 := Reach.step (b' := b1) (.setQ home) h trivial (by simp [Op.exec, Op.step, hb1])
  have so1 := setQ_stateOnly h.inv.tree.lq hb1
  have dq1 : b1.dq = b.dq := by
    unfold setQ at hb1
    rw [if_neg (not_not.2 hh)] at hb1
    split at hb1 <;> (cases hb1; rfl)
  have hn1 : b1.dof = b.dof := by unfold Body.dof; rw [so1.rbs]
  have hd1 : 0 < b1.dof := by rw [hn1]; exact hd
  obtain ⟨b2, hb2⟩ := position_of_index h1.inv (lastLink hd1).index eeOffset
  have s2 := (position_run h1.inv hb2).1
  have h2 := Reach.step (b' := b2) (.query (.position (-1) eeOffset)) h1 trivial
    (by simp only [Op.exec, Op.step, Query.run, hb2, Out.map, Out.bind])
  obtain ⟨b3, hb3⟩ := orientation_of_index h2.inv (l := -1) (k := b1.dof - 1)
    (by rw [s2.index]; exact (lastLink hd1).index)
  have s3 := s2.trans (orientation_run h2.inv hb3).1
  have h3 := Reach.step (b' := b3) (.query (.orientation (-1))) h2 trivial
    (by simp only [Op.exec, Op.step, Query.run, hb3, Out.map, Out.bind])
  have so3 := so1.trans s3.same.stateOnly
  have hn3 : b3.dof = b.dof := by unfold Body.dof; rw [so3.rbs]
  have hd3 : 0 < b3.dof := by rw [hn3]; exact hd
  have dq3 : b3.dq = b.dq := by
    obtain ⟨c, hc, -⟩ := s3
    have hc : b3 = _ := hc
    rw [hc, ← dq1]
  generalize hk : exampleArgs C home ((b1.freshTw (b1.dof - 1)).app eeOffset + ⟨0, 0.2, 0⟩)
    (C.ofRot (b2.freshTw (b1.dof - 1)).R) dt = k
  obtain ⟨r, hr⟩ := C66_answers (E := E) (k := k) h3 ((so3.definite hdef).massive h3.inv.tree) hd3
    (p := (0.01, 0.01)) (o := (0.01, 0.01)) (by rw [← hk]; rfl) (by rw [← hk]; rfl)
    (by rw [← hk, hn3]; exact hh)
  have hr' := hr
  rw [← hk] at hr'
  have hr' : b3.opspaceControl E C _ = .ok r := hr'
  have hne := C51_violated_truthy h3 hd3 (by rw [hn3, dq3]; exact hrest)
    (by norm_num [exampleArgs]) hr'
  refine ⟨r.1.2, r.2, ?_, ?_⟩
  · unfold exampleMain
    simp only [hb1, hb2, hb3, hk, Out.bind]
    unfold exampleLoop
    rw [hr]
    exact if_pos hne
  · obtain ⟨J, x, R, ⟨-, ⟨c, hx⟩, -⟩, h0, -⟩ := C51_status h3 hL hd3 hr'
    obtain ⟨-, -, j, hj, -, ex⟩ := position_run h3.inv hx
    rw [s3.index, (lastLink hd1).index] at hj
    cases hj
    rw [s3.freshTw] at ex
    rw [← Bool.not_eq_true]
    intro hb
    have hB := h0.1 hb
    dsimp only at ex hB
    rw [show (exampleArgs C home _ _ dt).taskPos.getD 0 = eeOffset from rfl] at ex
    rw [ex] at hB
    rcases hB with hn | hn
    · norm_num at hn
    · norm_num [Vec3.dot] at hn

/-- The hypotheses of C101 hold for one sliding joint at rest, for any time step. -/
example (E : Ext) (dt : ℝ) : ∃ s b', exampleMain E ctl0 [1] dt 1 (solo .px) = .ok (([s], true), b') ∧
    s.testBit 0 = false := by
  obtain ⟨d, h⟩ := solo_reach E .px
  have hS : JType.subspace .px ≠ 0 := fun e => by
    have := congrArg (fun m : Motion => m.lin.x) e
    simp [JType.subspace] at this
  exact C101_violated h ctl0_law (solo_definite hS) Nat.one_pos rfl (fun i _ => by cases i <;> rfl) dt 0

end SpatialDyn
