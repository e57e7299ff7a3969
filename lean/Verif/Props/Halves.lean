import Verif.Model.Halves
import Verif.Props.Kinematics
import Verif.Props.Energy

/-!
# C17: the halves of the Jacobian
-/

namespace SpatialDyn
open Body

variable {E : Ext} {b : Body} {d : Bool}

/-- C17: `LinearJacobian` and `AngularJacobian`, with positions given or set, are the halves of the
`Jacobian` of the point; the angular one of any point of the link. -/
theorem C17_halves (h : Reach E b d) {q : List ℝ} {b' : Body} (hq : b.setQ q = .ok b') {i : ℤ} {k : ℕ}
    (hk : b.LinkIdx i k) (x : Vec3) : ∃ J, (b'.jacobian i x).map Prod.fst = .ok J ∧
      b.linearJacobianQ (fun j => q.getD j 0) i x = .ok (fun j => (J j).lin) ∧
      b.angularJacobianQ (fun j => q.getD j 0) i = .ok (fun j => (J j).ang) ∧
      (b'.linearJacobian i x).map Prod.fst = .ok (fun j => (J j).lin) ∧
      (b'.angularJacobian i).map Prod.fst = .ok (fun j => (J j).ang) := by
  have h' : Reach E b' _ := h.step (b' := b') (.setQ q) trivial (by simp [Op.exec, Op.step, hq])
  have hs := setQ_stateOnly h.inv.tree.lq hq
  have hn : b'.dof = b.dof := by unfold dof; rw [hs.rbs]
  have hk' : b'.LinkIdx i k := by unfold LinkIdx at *; rw [hn]; exact hk
  obtain ⟨⟨J, b1⟩, e1⟩ := jacobian_total b' hk' x
  obtain ⟨⟨J0, b2⟩, e2⟩ := jacobian_total b' hk' 0
  obtain ⟨⟨Jc, b3⟩, e3⟩ := jacobian_total b' hk' b'.c.jacOffset
  have pos : ∀ y, ∃ p b4, b'.position i y = .ok (p, b4) := fun y => by
    unfold position; rw [hk'.index]; exact ⟨_, _, rfl⟩
  obtain ⟨p, b4, f1⟩ := pos x
  obtain ⟨p0, b5, f2⟩ := pos 0
  obtain ⟨pc, b6, f3⟩ := pos b'.c.jacOffset
  have a0 : (fun j => (J0 j).ang) = fun j => (J j).ang :=
    funext fun j => (C19_offset h' hk' e1 e2 f1 f2 j).1
  have ac : (fun j => (Jc j).ang) = fun j => (J j).ang :=
    funext fun j => (C19_offset h' hk' e1 e3 f1 f3 j).1
  refine ⟨J, by rw [e1]; rfl, ?_, ?_, ?_, ?_⟩
  · unfold linearJacobianQ
    rw [(C17_variants_agree_partial h hq hk x).2.2, e1]
    rfl
  · unfold angularJacobianQ
    rw [(C17_variants_agree_partial h hq hk 0).2.2, e2, ← a0]
    rfl
  · unfold linearJacobian
    rw [e1]
    rfl
  · unfold angularJacobian
    rw [e3, ← ac]
    rfl

/-- The hypotheses of `C17_halves` are met by the demo robot. -/
example : ∃ d b', Reach ext0 demo d ∧ demo.setQ [1, 2, 3] = .ok b' ∧ demo.LinkIdx (-1) 2 := by
  obtain ⟨d, h⟩ := demo_reach ext0
  obtain ⟨b', h1, -⟩ := setQ_total (b := demo) (q := [1, 2, 3]) rfl
  exact ⟨d, b', h, h1, by unfold LinkIdx; decide⟩

end SpatialDyn
