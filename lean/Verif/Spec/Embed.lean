import Verif.Spec.Alike

/-!
# One robot inside another

`Embeds f b b'`: link `i` of `b` is link `f i` of `b'`, with the same parent, pose, joint, inertia,
load and state, and no other link of `b'` hangs on one of them.  Two cases are of interest: `f` a
permutation (the links of one robot added in another order), and `f` an inclusion (several robots
on one base).
-/

namespace SpatialDyn
namespace Body

/-- Link `i` of `b` is link `f i` of `b'`. -/
structure Embeds (f : ℕ → ℕ) (b b' : Body) : Prop where
  lt : ∀ i < b.dof, f i < b'.dof
  inj : ∀ i < b.dof, ∀ j < b.dof, f i = f j → i = j
  /-- links on the base stay on the base -/
  root : ∀ i < b.dof, (b.rb i).idParent < 0 → (b'.rb (f i)).idParent < 0
  /-- the others keep their parents -/
  parent : ∀ i < b.dof, ∀ p : ℕ, (b.rb i).idParent = p → (b'.rb (f i)).idParent = f p
  /-- nothing else hangs on them -/
  closed : ∀ k < b'.dof, ∀ i < b.dof, (b'.rb k).idParent = f i → ∃ j < b.dof, k = f j
  pose : ∀ i < b.dof, (b'.rb (f i)).T = (b.rb i).T
  joint : ∀ i < b.dof, (b'.rb (f i)).joint = (b.rb i).joint
  total : ∀ i < b.dof, b'.totalInertia (f i) = b.totalInertia i
  q : ∀ i < b.dof, b'.q.getD (f i) 0 = b.q.getD i 0
  dq : ∀ i < b.dof, b'.dq.getD (f i) 0 = b.dq.getD i 0
  g : b'.g = b.g
  T0 : b'.T0 = b.T0

end Body
end SpatialDyn
