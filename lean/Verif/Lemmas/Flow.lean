import Verif.Spec.Flow
import Verif.Lemmas.Field
import Verif.Lemmas.Converge
import Verif.Lemmas.OdeGlobal

/-!
# Motions are the solutions of the equation of the vector field
-/

namespace SpatialDyn
open Set Body OneStep
open scoped ContDiff

variable {E : Ext} {b : Body} {d : Bool}

/-- States as curves of lists. -/
def stateOf (b : Body) (q dq : ℝ → List ℝ) (t : ℝ) : State b.dof :=
  (fun i => (q t).getD i 0, fun i => (dq t).getD i 0)

theorem stateOf_ofFn {l : List ℝ} {n : ℕ} (hl : l.length = n) :
    List.ofFn (fun i : Fin n => l.getD i 0) = l := by
  apply List.ext_getElem
  · simp [hl]
  · intro i h1 h2; simp [h2]

/-- The acceleration of a body put in some state. -/
theorem field_of_set (h : Reach E b d) (hm : b.Massive) {c : Cache} (hc : c.Clear)
    (tau : ℕ → ℝ) (fext : FExt) (o : IntOpts) {q dq : List ℝ} {b1 B : Body} (h1 : b.setQ q = .ok b1)
    (h2 : b1.setDq dq = .ok B) (i : Fin b.dof) :
    B.acceleration E tau fext o i = (b.field E c tau fext o
      (fun i => q.getD i 0, fun i => dq.getD i 0)).2 i := by
  obtain ⟨hs, hd, -, -, -, d', r⟩ := h.after_set ⟨b1, h1, h2⟩
  have hl : q.length = b.dof := by
    have := r.inv.tree.lq; rw [setDq_q h2, setQ_q h1, hd] at this; exact this
  have hl' : dq.length = b.dof := by
    have := r.inv.tree.ldq; rw [setDq_dq h2, hd] at this; exact this
  have ha : AtState E b (fun i => q.getD i 0, fun i => dq.getD i 0) B := by
    refine ⟨hs, r.inv, ?_, ?_⟩
    · rw [setDq_q h2, setQ_q h1]; exact (stateOf_ofFn hl).symm
    · rw [setDq_dq h2]; exact (stateOf_ofFn hl').symm
  rw [← (ha.accel h.inv hm.symI (hm.posMass h.inv.tree) hc tau fext o).1 i]
  unfold Body.acceleration Body.accel
  split <;> rfl

theorem moves_iff (h : Reach E b d) (hm : b.Massive) {c : Cache} (hc : c.Clear) (tau : ℕ → ℝ)
    (fext : FExt) (o : IntOpts) {T : ℝ} {q dq : ℝ → List ℝ} :
    b.Moves E tau fext o T q dq ↔ (∀ t ∈ Icc 0 T, (q t).length = b.dof ∧ (dq t).length = b.dof) ∧
      Solves (b.field E c tau fext o) T (stateOf b q dq) := by
  constructor
  · intro hM
    constructor
    · intro t ht
      obtain ⟨b1, B, h1, h2, -⟩ := hM t ht
      refine ⟨setQ_length h1, ?_⟩
      obtain ⟨-, hd, -, -, -, d', r⟩ := h.after_set ⟨b1, h1, h2⟩
      have := r.inv.tree.ldq
      rw [setDq_dq h2, hd] at this; exact this
    · intro t ht
      obtain ⟨b1, B, h1, h2, h3⟩ := hM t ht
      refine (hasDerivWithinAt_pi.2 fun i : Fin b.dof => (h3 i i.2).1).prodMk
        (hasDerivWithinAt_pi.2 fun i : Fin b.dof => ?_)
      have h4 := (h3 i i.2).2
      rw [field_of_set h hm hc tau fext o h1 h2 i] at h4
      exact h4
  · rintro ⟨hl, hS⟩ t ht
    obtain ⟨b1, h1, e1⟩ := setQ_total (b := b) (hl t ht).1
    obtain ⟨B, h2, e2⟩ := setDq_total (b := b1) (q := dq t) (by rw [e1]; exact (hl t ht).2)
    refine ⟨b1, B, h1, h2, fun i hi => ?_⟩
    have hs := hS t ht
    constructor
    · have := hasDerivWithinAt_pi.1 ((hasFDerivAt_fst (𝕜 := ℝ)).comp_hasDerivWithinAt t hs) ⟨i, hi⟩
      exact this
    · have := hasDerivWithinAt_pi.1 ((hasFDerivAt_snd (𝕜 := ℝ)).comp_hasDerivWithinAt t hs) ⟨i, hi⟩
      rw [field_of_set h hm hc tau fext o h1 h2 ⟨i, hi⟩]
      exact this

/-- Repeated integration is the iterated scheme. -/
theorem steps_scheme (h : Reach E b d) (hm : b.Massive) {c : Cache} (hc : c.Clear) (tau : ℕ → ℝ)
    (dt : ℝ) (fext : FExt) (o : IntOpts) (ho : o.jointLimits = false) (n : ℕ) :
    ∃ b', steps E tau dt fext o n b = .ok b' ∧
      AtState E b ((scheme o.method (b.field E c tau fext o) id dt)^[n] b.state) b' := by
  have e : b.codeFilter o.jointLimits = id := by
    funext y
    unfold codeFilter
    simp [ho]
  induction n with
  | zero => exact ⟨b, rfl, atState_self h.inv⟩
  | succ n ih =>
    obtain ⟨b1, h1, h2⟩ := ih
    obtain ⟨b2, h3, h4⟩ := h2.integrate h.inv hm.symI (hm.posMass h.inv.tree) hc tau dt fext o
    refine ⟨b2, by simp [steps, h1, h3], ?_⟩
    rw [Function.iterate_succ_apply']
    rw [e] at h4
    exact h4

end SpatialDyn
