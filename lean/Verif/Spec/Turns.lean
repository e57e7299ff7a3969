import Verif.Spec.Fresh
import Mathlib.Analysis.SpecialFunctions.Trigonometric.Basic

/-!
# Full turns, and how far a robot reaches
-/

namespace SpatialDyn

/-- Length of a vector. -/
noncomputable def Vec3.len (v : Vec3) : ℝ := Real.sqrt (v.dot v)

namespace Body

/-- `q'` is `q` with some joints that turn turned around completely, any number of times in either
direction. -/
def FullTurns (b : Body) (q q' : List ℝ) : Prop :=
  ∀ i < b.dof, q'.getD i 0 = q.getD i 0 ∨
    ((b.rb i).joint.type = .rx ∨ (b.rb i).joint.type = .ry ∨ (b.rb i).joint.type = .rz) ∧
      ∃ m : ℤ, q'.getD i 0 = q.getD i 0 + 2 * Real.pi * m

/-- How far link `i` is from its parent: the length of its offset, and the way a slider is out. -/
noncomputable def stride (b : Body) (i : ℕ) : ℝ :=
  (b.rb i).T.t.len +
    if (b.rb i).joint.type = .px ∨ (b.rb i).joint.type = .py ∨ (b.rb i).joint.type = .pz then
      |b.q.getD i 0| else 0

end Body
end SpatialDyn
