import Verif.Spec.Discrete

/-!
# The logarithm of rigid motions near the identity

`ctrl_utils::Log` and `ctrl_utils::LogMapDerivative` are not part of the repository.  `Ext.NearLog`
is what is needed of them close to the identity: to first order the logarithm of a small displacement
is the displacement, and the derivative map is the identity there and depends on the displacement
without jumps.
-/

namespace SpatialDyn

/-- Sum of the magnitudes of the components. -/
def Vec3.size (v : Vec3) : ℝ := |v.x| + |v.y| + |v.z|

/-- Sum of the magnitudes of the components. -/
def Motion.size (m : Motion) : ℝ := m.lin.size + m.ang.size

/-- Sum of the magnitudes of the components. -/
def Force.size (f : Force) : ℝ := f.lin.size + f.ang.size

/-- Sum of the magnitudes of the entries. -/
def Mat3.size (A : Mat3) : ℝ :=
  |A.m00| + |A.m01| + |A.m02| + |A.m10| + |A.m11| + |A.m12| + |A.m20| + |A.m21| + |A.m22|

/-- How far apart two rigid motions are, entry by entry. -/
def Iso.gap (T U : Iso) : ℝ := (T.R - U.R).size + (T.t - U.t).size

/-- A small displacement as a motion: its translation, and the antisymmetric part of its rotation
matrix as a vector. -/
noncomputable def Iso.twist (T : Iso) : Motion :=
  ⟨T.t, ⟨(T.R.m21 - T.R.m12) / 2, (T.R.m02 - T.R.m20) / 2, (T.R.m10 - T.R.m01) / 2⟩⟩

/-- The logarithm and its derivative near the identity (true of the logarithm of the group of rigid
motions):

* the derivative map is linear in the force, the identity at the identity, and Lipschitz near it;
* the logarithm of the identity is zero, and near the identity differences of logarithms are
  differences of displacements up to a fraction as small as wanted. -/
structure Ext.NearLog (E : Ext) : Prop where
  dlogT_add : ∀ T f g, E.dlogT T (f + g) = E.dlogT T f + E.dlogT T g
  dlogT_smul : ∀ T (c : ℝ) f, E.dlogT T (c • f) = c • E.dlogT T f
  dlogT_one : ∀ f, E.dlogT 1 f = f
  dlogT_lip : ∃ δ > 0, ∃ C, ∀ T U : Iso, T.Valid → U.Valid → T.gap 1 < δ → U.gap 1 < δ → ∀ f,
    (E.dlogT T f - E.dlogT U f).size ≤ C * T.gap U * f.size
  log_one : E.log 1 = 0
  log_near : ∀ ε > 0, ∃ δ > 0, ∀ T U : Iso, T.Valid → U.Valid → T.gap 1 < δ → U.gap 1 < δ →
    (E.log T - E.log U - (T.twist - U.twist)).size ≤ ε * T.gap U

/-- In addition, near the identity differences of logarithms are differences of displacements up to
terms of second order (true of the logarithm of the group of rigid motions, which is smooth there). -/
structure Ext.NearLog2 (E : Ext) : Prop extends E.NearLog where
  log_second : ∃ δ > 0, ∃ C, ∀ T U : Iso, T.Valid → U.Valid → T.gap 1 < δ → U.gap 1 < δ →
    (E.log T - E.log U - (T.twist - U.twist)).size ≤ C * (T.gap 1 + U.gap 1) * T.gap U

end SpatialDyn
