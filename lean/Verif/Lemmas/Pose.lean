import Verif.Spec.Pose
import Verif.Lemmas.Steps

/-! The cached world transforms are the poses of the links. -/

namespace SpatialDyn
namespace Body
variable {b : Body} {E : Ext}

theorem LinkIdx.index {i : ℤ} {k : ℕ} (h : b.LinkIdx i k) : b.index i = .ok k := by
  obtain ⟨hk, h⟩ := h
  have hr : b.resolve i = k := by
    unfold resolve
    rcases h with h | ⟨h, hi⟩
    · rw [if_neg (by omega)]; omega
    · rw [if_pos hi]; omega
  unfold Body.index
  simp only [hr]
  rw [if_pos ⟨by omega, by omega⟩]
  simp

theorem index_linkIdx {i : ℤ} {k : ℕ} (h : b.index i = .ok k) : b.LinkIdx i k := by
  have hk := index_lt h
  refine ⟨hk, ?_⟩
  unfold Body.index resolve at h
  by_cases hi : i < 0
  · simp only [hi, if_true] at h
    by_cases hc : 0 ≤ i + (b.dof : ℤ) ∧ i + (b.dof : ℤ) < b.dof
    · rw [if_pos hc] at h
      have := Out.ok.inj h
      right; omega
    · rw [if_neg hc] at h; cases h
  · simp only [hi, if_false] at h
    by_cases hc : 0 ≤ i ∧ i < (b.dof : ℤ)
    · rw [if_pos hc] at h
      have := Out.ok.inj h
      left; omega
    · rw [if_neg hc] at h; cases h

theorem par_none {i : ℕ} : b.par i = none ↔ (b.rb i).idParent < 0 := by
  unfold par
  simp only
  split <;> simp_all

theorem LinkPose.unique {u : ℕ → ℝ} {i : ℕ} {X Y : Iso} (h : b.LinkPose u i X)
    (h' : b.LinkPose u i Y) : X = Y := by
  induction h generalizing Y with
  | root hr =>
    cases h' with
    | root => rfl
    | link h1 => omega
  | @link i p X hp h ih =>
    cases h' with
    | root hr => omega
    | @link _ p' X' hp' h2 =>
      have : p' = p := by omega
      subst this
      rw [ih h2]

/-- The fresh world transforms are base pose times link pose. -/
theorem LinkPose.worldLoop (ht : b.Tree) (u : ℕ → ℝ) (T0 : Iso) (Tw0 : ℕ → Iso) {i : ℕ} {X : Iso}
    (h : b.LinkPose u i X) (hi : i < b.dof) :
    worldLoop b.dof b.par T0 (fun j => b.TpAt j (u j)) Tw0 i = T0 * X := by
  induction h with
  | @root i hr =>
    rw [worldLoop_spec ht.parLt _ _ _ i hi, par_none.2 hr]
    rfl
  | @link i p X hp h ih =>
    have hpar := par_eq_some.2 hp
    have := ht.parLt i hi p hpar
    rw [worldLoop_spec ht.parLt _ _ _ i hi, hpar]
    simp only
    rw [ih (by omega), mul_assoc]
    rfl

theorem LinkPose.freshTw (ht : b.Tree) {i : ℕ} {X : Iso} (h : b.LinkPose b.pos i X)
    (hi : i < b.dof) : b.freshTw i = b.T0 * X :=
  h.worldLoop ht b.pos b.T0 _ hi

theorem linkPose_exists (ht : b.Tree) (u : ℕ → ℝ) : ∀ i < b.dof, ∃ X, b.LinkPose u i X := by
  intro i
  induction i using Nat.strong_induction_on with
  | _ i ih =>
    intro hi
    cases hpar : b.par i with
    | none => exact ⟨_, .root (par_none.1 hpar)⟩
    | some p =>
      have := ht.parLt i hi p hpar
      obtain ⟨X, hX⟩ := ih p this (by omega)
      exact ⟨_, .link (par_eq_some.1 hpar) hX⟩

end Body
end SpatialDyn
