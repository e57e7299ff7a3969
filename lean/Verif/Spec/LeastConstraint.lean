import Verif.Spec.Mechanics

/-! Gauss's principle of least constraint, in the form of Gibbs and Appell. -/

namespace SpatialDyn
namespace Body

/-- The function of Gibbs and Appell at joint accelerations `w`: `a` are the spatial accelerations of the
links (with minus gravity for the base, so that weight is inertia), `v` their velocities, both in the frames
of the links, `T` their poses, `tau` the joint torques and `fext` the external forces in world coordinates.
Up to a term that does not depend on `w` it is the constraint of Gauss, the sum over the particles of mass
times the square of the deviation from the acceleration the particle would have if it were free. -/
noncomputable def gibbs (b : Body) (cc : Bool) (tau : ℕ → ℝ) (fext : ℕ → Option Force) (v : ℕ → Motion)
    (T : ℕ → Iso) (w : ℕ → ℝ) (a : ℕ → Motion) : ℝ :=
  ∑ k ∈ Finset.range b.dof, (1 / 2 * (a k).dot (b.linkMomentum k (a k)) +
    (if cc then (a k).dot ((v k).crossF (b.linkMomentum k (v k))) else 0) -
    ((T k).actM (a k)).dot ((fext k).getD 0)) - ∑ i ∈ Finset.range b.dof, tau i * w i

/-- How far apart two joint velocities or accelerations are, in the metric of `Inertia`. -/
noncomputable def gap (b : Body) (x y : ℕ → ℝ) : ℝ :=
  ∑ i ∈ Finset.range b.dof, ∑ j ∈ Finset.range b.dof, (x i - y i) * b.inertia.1 i j * (x j - y j)

end Body

/-- Two joint vectors look the same to a task with Jacobian `J`. -/
def DMat.SameTask (J : DMat) (x y : ℕ → ℝ) : Prop :=
  ∀ i < J.rows, ∑ j ∈ Finset.range J.cols, J.e i j * x j = ∑ j ∈ Finset.range J.cols, J.e i j * y j

end SpatialDyn
