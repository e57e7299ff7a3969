import Verif.Model.Body

/-!
# Poses of links, as a relation

The pose of a link in the base frame is the product, from the root to the link, of the rest pose of
each body in its parent times the displacement of its joint.
-/

namespace SpatialDyn
namespace Body

/-- `LinkPose b u i X`: at joint positions `u`, link `i` has pose `X` in the base frame. -/
inductive LinkPose (b : Body) (u : ℕ → ℝ) : ℕ → Iso → Prop
  | root {i : ℕ} : (b.rb i).idParent < 0 →
      LinkPose b u i ((b.rb i).T * (b.rb i).joint.type.Tjoint (u i))
  | link {i p : ℕ} {X : Iso} : (b.rb i).idParent = p → LinkPose b u p X →
      LinkPose b u i (X * ((b.rb i).T * (b.rb i).joint.type.Tjoint (u i)))

/-- Joint positions of the body as a function of the joint index. -/
def pos (b : Body) (i : ℕ) : ℝ := b.q.getD i 0

/-- `LinkIdx b i k`: `k` is the link that the (possibly negative, Python-style) index `i` names. -/
def LinkIdx (b : Body) (i : ℤ) (k : ℕ) : Prop :=
  k < b.dof ∧ ((k : ℤ) = i ∨ (k : ℤ) = i + b.dof ∧ i < 0)

end Body
end SpatialDyn
