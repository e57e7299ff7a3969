import Verif.Lemmas.Document

/-! Setting the state of one body on another with the same model. -/

namespace SpatialDyn

/-- Calls that set the state: position, velocity, gravity, loads. -/
def Op.State : Op → Prop
  | .setQ _ | .setDq _ | .setG _ | .replaceLoad .. => True
  | _ => False

namespace Body
variable {E : Ext} {b0 b : Body}

/-- Reached from `b0` by calls that set the state. -/
def RestoreTo (E : Ext) (b0 b : Body) (d : Bool) : Prop :=
  (∃ h, (∀ op ∈ h, op.State) ∧ execAll E b0 h = some b) ∧ Reach E b d

theorem RestoreTo.step {b b' : Body} {d : Bool} (h : RestoreTo E b0 b d) (op : Op)
    (ho : op.State) (hs : op.Safe b d) (he : op.exec E b = some b') :
    RestoreTo E b0 b' (op.dirty b b' d) := by
  obtain ⟨⟨l, hl, hx⟩, hr⟩ := h
  refine ⟨⟨l ++ [op], ?_, ?_⟩, hr.step op hs he⟩
  · intro o h
    rcases List.mem_append.1 h with h | h
    · exact hl o h
    · rw [List.mem_singleton.1 h]; exact ho
  · rw [exec_append, hx]
    simp [execAll, he]

theorem restore_loads (f : ℤ → Option Inertia) (l : List ℤ) {b1 : Body} {d : Bool}
    (h : RestoreTo E b0 b1 d) : ∃ b' d', RestoreTo E b0 b' d' ∧ b'.rbs = b1.rbs ∧ b'.T0 = b1.T0 ∧
      b'.q = b1.q ∧ b'.dq = b1.dq ∧ b'.g = b1.g ∧
      ∀ k, b'.load k = if k ∈ l ∧ f k ≠ none then f k else b1.load k := by
  induction l with
  | nil => exact ⟨b1, d, h, rfl, rfl, rfl, rfl, rfl, by simp⟩
  | cons a l ih =>
    obtain ⟨b2, d2, h2, e1, e2, e3, e4, e5, e6⟩ := ih
    cases hf : f a with
    | none =>
      refine ⟨b2, d2, h2, e1, e2, e3, e4, e5, fun k => ?_⟩
      rw [e6 k]
      by_cases hk : k = a
      · subst hk; simp [hf]
      · simp [hk]
    | some I =>
      set i : ℤ := if a < 0 then a - b2.dof else a with hi
      have hres : b2.resolve i = a := by
        unfold resolve
        rw [hi]
        by_cases ha : a < 0
        · simp only [ha, if_true]; rw [if_pos (by omega)]; omega
        · simp [ha]
      refine ⟨b2.replaceLoad I i, _, h2.step (.replaceLoad I i) trivial trivial rfl, e1, e2, e3, e4,
        e5, fun k => ?_⟩
      simp only [replaceLoad, hres]
      by_cases hk : k = a
      · subst hk; simp [hf]
      · rw [Function.update_of_ne hk, e6 k]
        simp [hk]

/-- The state of `b` can be set on any body with the same links and base and without loads. -/
theorem Reach.restore {d d0 : Bool} (h : Reach E b d) (h0 : Reach E b0 d0) (e1 : b0.rbs = b.rbs)
    (e2 : b0.T0 = b.T0) (e3 : ∀ k, b0.load k = none) :
    ∃ b' d', RestoreTo E b0 b' d' ∧ b.ObsEq b' := by
  have hi := h.inv
  obtain ⟨l, hl⟩ := Reach.loadFin h
  have h1 : RestoreTo E b0 b0 d0 := ⟨⟨[], by simp, rfl⟩, h0⟩
  have hd1 : b0.dof = b.dof := by unfold dof; rw [e1]
  obtain ⟨b2, h2, q2⟩ : ∃ b2, b0.setQ b.q = .ok b2 ∧ b2.q = b.q ∧ b2.rbs = b0.rbs ∧ b2.T0 = b0.T0 ∧
      b2.load = b0.load := by
    unfold setQ
    rw [if_neg (by rw [hd1, hi.tree.lq]; simp)]
    split
    · next hq => exact ⟨_, rfl, hq, rfl, rfl, rfl⟩
    · exact ⟨_, rfl, rfl, rfl, rfl, rfl⟩
  have h2' := h1.step (b' := b2) (.setQ b.q) trivial trivial (by simp [Op.exec, Op.step, h2])
  have hd2 : b2.dof = b.dof := by unfold dof; rw [q2.2.1, e1]
  obtain ⟨b3, h3, q3⟩ : ∃ b3, b2.setDq b.dq = .ok b3 ∧ b3.dq = b.dq ∧ b3.q = b2.q ∧
      b3.rbs = b2.rbs ∧ b3.T0 = b2.T0 ∧ b3.load = b2.load := by
    unfold setDq
    rw [if_neg (by rw [hd2, hi.tree.ldq]; simp)]
    split
    · next hq => exact ⟨_, rfl, hq, rfl, rfl, rfl, rfl⟩
    · exact ⟨_, rfl, rfl, rfl, rfl, rfl, rfl⟩
  have h3' := h2'.step (b' := b3) (.setDq b.dq) trivial trivial (by simp [Op.exec, Op.step, h3])
  have h4 := h3'.step (b' := b3.setG b.g) (.setG b.g) trivial trivial rfl
  obtain ⟨b5, d5, h5, f1, f2, f3, f4, f5, f6⟩ := restore_loads b.load l h4
  have er : b.rbs = b5.rbs := by rw [f1]; exact (q3.2.2.1.trans (q2.2.1.trans e1)).symm
  obtain ⟨ha, hs⟩ := tree_lists hi.tree h5.2.inv.tree er
  refine ⟨b5, d5, h5, er, ?_, ?_, ?_, ?_, ?_, ha, hs⟩
  · rw [f3]; exact (q3.2.1.trans q2.1).symm
  · rw [f4]; exact q3.1.symm
  · rw [f5]; rfl
  · funext k
    rw [f6 k]
    have hb3 : (b3.setG b.g).load k = none := by
      show b3.load k = none
      rw [q3.2.2.2.2, q2.2.2.2, e3]
    rw [hb3]
    by_cases hk : k ∈ l
    · by_cases hn : b.load k = none <;> simp [hk, hn]
    · simp [hk, hl k hk]
  · rw [f2]; exact (q3.2.2.2.1.trans (q2.2.2.1.trans e2)).symm

end Body
end SpatialDyn
