import Verif.Spec.Pose
import Verif.Spec.Traj

/-!
# Elementary mechanics of a tree of rigid bodies

Velocities and accelerations of the links, the inertias they carry, and their energies, stated from
the observable state of a body alone.
-/

namespace SpatialDyn
namespace Body

open Finset

/-- Spatial velocity of a link in its own frame under joint rates `w`, propagated from the base:
each link moves with its parent plus its own joint. -/
inductive LinkVel (b : Body) (w : ℕ → ℝ) : ℕ → Motion → Prop
  | root {i : ℕ} : (b.rb i).idParent < 0 → LinkVel b w i (w i • (b.rb i).joint.subspace)
  | link {i p : ℕ} {v : Motion} : (b.rb i).idParent = p → LinkVel b w p v →
      LinkVel b w i (((b.rb i).T * (b.rb i).joint.type.Tjoint (b.pos i)).inv.actM v +
        w i • (b.rb i).joint.subspace)

/-- Spatial acceleration of a link in its own frame under joint accelerations `a` at the current
positions and velocities; with `cc` the velocity products are included; `A0` is the acceleration of
the base, in world coordinates (minus gravity makes every link feel its weight). -/
inductive LinkAcc (b : Body) (cc : Bool) (A0 : Motion) (a : ℕ → ℝ) : ℕ → Motion → Prop
  | root {i : ℕ} {X : Iso} : (b.rb i).idParent < 0 → b.LinkPose b.pos i X →
      LinkAcc b cc A0 a i ((b.T0 * X).inv.actM A0 + a i • (b.rb i).joint.subspace)
  | link {i p : ℕ} {c v : Motion} : (b.rb i).idParent = p → LinkAcc b cc A0 a p c →
      LinkVel b b.vel i v →
      LinkAcc b cc A0 a i (((b.rb i).T * (b.rb i).joint.type.Tjoint (b.pos i)).inv.actM c +
        a i • (b.rb i).joint.subspace +
        (if cc then v.crossM (b.vel i • (b.rb i).joint.subspace) else 0))

/-- The inertias a link carries: its own and that of its load, if any. -/
def parts (b : Body) (k : ℕ) : List Inertia := (b.rb k).inertia :: (b.load k).toList

/-- Momentum of link `k` and its load at velocity `m`. -/
noncomputable def linkMomentum (b : Body) (k : ℕ) (m : Motion) : Force :=
  ((b.parts k).map fun I => I.app m).sum

/-- Total mass of a link and its load. -/
noncomputable def linkMass (b : Body) (k : ℕ) : ℝ := ((b.parts k).map Inertia.mass).sum

/-- What the algorithms need of the inertias: symmetric, no negative mass, and no sum of inertias
without mass (the centre of mass of a sum is a quotient by its mass). -/
structure Massive (b : Body) : Prop where
  symm : ∀ k < b.dof, ∀ I ∈ b.parts k, I.Icom.IsSymm
  nonneg : ∀ k < b.dof, ∀ I ∈ b.parts k, 0 ≤ I.mass
  merge : ∀ k < b.dof, (b.load k).isSome → 0 < b.linkMass k
  tree : ∀ k < b.dof, 0 ≤ (b.rb k).idParent →
    0 < ((b.sub.getD k []).map b.linkMass).sum

/-- Twice the kinetic energy of the inertia `I` of a link with pose `T`, when the joints move with
rates `w`: `lin` is the velocity of its centre of mass, `ang` the angular velocity of the link. -/
noncomputable def twiceKinetic (I : Inertia) (R : Mat3) (lin ang : Vec3) : ℝ :=
  I.mass * lin.dot lin + (R.T.mulVec ang).dot (I.Icom.mulVec (R.T.mulVec ang))

end Body
end SpatialDyn
