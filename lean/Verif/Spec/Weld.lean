import Verif.Spec.Mechanics

/-!
# A robot with links welded together

`Welds f c Z w b`: `b` is `w` with every link below a joint that does not move merged into the link it
is welded to.  Link `i` of `b` is link `f i` of `w`; link `k` of `w` is part of link `c k` of `b` (of
the base if `c k = none`), with pose `Z k` there.
-/

namespace SpatialDyn
namespace Body

open Finset

/-- Pose of the parent of link `k` in the link of the merged robot that it is part of. -/
def seat (Z : ℕ → Iso) (w : Body) (k : ℕ) : Iso :=
  match w.par k with
  | none => 1
  | some p => Z p

/-- `b` is `w` with the links below fixed joints merged into their parents. -/
structure Welds (f : ℕ → ℕ) (c : ℕ → Option ℕ) (Z : ℕ → Iso) (w b : Body) : Prop where
  lt : ∀ i < b.dof, f i < w.dof
  own : ∀ i < b.dof, c (f i) = some i ∧ Z (f i) = 1
  joint : ∀ i < b.dof, (b.rb i).joint = (w.rb (f i)).joint
  parent : ∀ i < b.dof, b.par i = (w.par (f i)).bind c
  pose : ∀ i < b.dof, (b.rb i).T = seat Z w (f i) * (w.rb (f i)).T
  /-- all other links of `w` are below fixed joints -/
  fixed : ∀ k < w.dof, (∀ i < b.dof, k ≠ f i) →
    (w.rb k).joint.type = .undefined ∧ (w.rb k).joint.subspace = 0
  carrier : ∀ k < w.dof, (∀ i < b.dof, k ≠ f i) → c k = (w.par k).bind c
  weld : ∀ k < w.dof, (∀ i < b.dof, k ≠ f i) → Z k = seat Z w k * (w.rb k).T
  /-- a link of `b` has the mass of all its parts, loads included -/
  momentum : ∀ i < b.dof, ∀ v, b.linkMomentum i v =
    ∑ k ∈ range w.dof with c k = some i, (Z k).actF (w.linkMomentum k ((Z k).inv.actM v))
  q : ∀ i < b.dof, b.q.getD i 0 = w.q.getD (f i) 0
  dq : ∀ i < b.dof, b.dq.getD i 0 = w.dq.getD (f i) 0
  g : b.g = w.g
  T0 : b.T0 = w.T0

end Body
end SpatialDyn
