import Verif.Spec.Fresh
import Verif.Spec.Pose
import Verif.Spec.World

/-!
# The body at arbitrary joint positions and rates

`sysAt b u w` is the world-frame description of the body `b` when its joints are at `u` and move
with rates `w`; the current state is `u = b.pos`, `w = b.vel`.
-/

namespace SpatialDyn
namespace Body

/-- Joint rates of the body as a function of the joint index. -/
def vel (b : Body) (i : ℕ) : ℝ := b.dq.getD i 0

/-- World poses of the links at joint positions `u`. -/
noncomputable def twAt (b : Body) (u : ℕ → ℝ) : ℕ → Iso :=
  worldLoop b.dof b.par b.T0 (fun i => b.TpAt i (u i)) (fun _ => 1)

/-- The system at joint positions `u` and rates `w`. -/
noncomputable def sysAt (b : Body) (u w : ℕ → ℝ) : Sys :=
  { b.sysWith (fun i => b.TpAt i (u i)) (b.twAt u) with dq := w }

/-- Every joint moves along the axis of its type.  Joints made with the constructors and setters of
`Joint` do (`C07_subspace_matches_type`). -/
def AxesOK (b : Body) : Prop :=
  ∀ i < b.dof, (b.rb i).joint.subspace = (b.rb i).joint.type.subspace

end Body
end SpatialDyn
