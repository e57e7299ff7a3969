import Verif.Model.Options
import Verif.Model.Control

/-!
# `opspace.inverse_dynamics` of the Python module (`src/python/spatial_dyn.cc:552-593`)

The nullspace matrix `N` is passed as a numpy array and updated through its memory.
-/

namespace SpatialDyn

/-- The object passed for `N`, as the parameter of type `py::array_t<double>` sees it. -/
inductive PyNull where
  /-- `None` or a number: an array without dimensions -/
  | scalar
  /-- A matrix.  `own` tells a numpy array of doubles, whose memory is used; anything else (a list, an
  array of integers or of single precision) is converted to a new array of doubles -/
  | mat (own : Bool) (N : DMat)
  /-- an array of one dimension or of more than two -/
  | other

namespace Body

/-- `opspace.inverse_dynamics(ab, J, ddx, N, …)` (`spatial_dyn.cc:552-593`): the torques, what the
object passed for `N` holds afterwards, and the body.  The options are built from the keywords, so
`f_acc_max` keeps its initialiser.  `N_map = N_temp` (588) writes to a map, which cannot be resized:
other dimensions are undefined behaviour (an Eigen assertion when assertions are compiled in).
Strides are taken to be multiples of the size of a double. -/
noncomputable def pyOpsInverseDynamics (E : Ext) (b : Body) (J : DMat) (ddx : ℕ → ℝ)
    (N : PyNull := .scalar) (fext : FExt := noExt) (someExt : Bool := false) (gravity : Bool := false)
    (cc : Bool := false) (friction : Bool := false) (svdEps : ℝ := 0) (stictionEps : ℝ := 0.01) :
    Out ((ℕ → ℝ) × PyNull × Body) :=
  let o := OpsOpts.make gravity cc friction svdEps stictionEps
  match N with
  | .scalar => (b.opsInverseDynamics E J ddx none fext someExt o).bind fun r =>
      .ok (r.1, .scalar, r.2.2)
  | .other => .throws
  | .mat own M => (b.opsInverseDynamics E J ddx (some M) fext someExt o).bind fun r =>
      match r.2.1 with
      | none => .ub
      | some M' => (Out.need (M'.rows = M.rows ∧ M'.cols = M.cols)).bind fun _ =>
          .ok (r.1, .mat own (if own then M' else M), r.2.2)

end Body
end SpatialDyn
