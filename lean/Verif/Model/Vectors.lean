import Verif.Model.Kinematics
import Verif.Model.Discrete
import Verif.Model.Opspace

/-!
# Vector arguments with their sizes (`src/algorithms/*.cc`, `src/python/spatial_dyn.cc`)

Elsewhere in the model a joint vector given as an argument is an array without a size.  Here it is the
vector the caller passes, of any size, and every element read of it is checked.  The project builds in
Release mode (`CMakeLists.txt:47-51`), where Eigen checks nothing: an element read outside the vector,
or an operation on two vectors of different sizes, is undefined behaviour.

The values computed are those of the functions elsewhere in the model; only the reads are added.
Since undefined behaviour is an outcome of the whole call, the reads of a loop are put before it.
-/

namespace SpatialDyn

/-- The element read `v(i)`. -/
def readAt (v : List ℝ) (i : ℕ) : Out ℝ := if i < v.length then .ok (v.getD i 0) else .ub

/-- The element reads of a loop over the indices `l`. -/
def readAll (v : List ℝ) : List ℕ → Out Unit
  | [] => .ok ()
  | i :: l => (readAt v i).bind fun _ => readAll v l

/-- The arithmetic of two vectors (`a - b`, `A * b`): the sizes must be equal. -/
def sameSize (v : List ℝ) (n : ℕ) : Out Unit := if v.length = n then .ok () else .ub

/-- A vector as an array. -/
def arrOf (v : List ℝ) : ℕ → ℝ := fun i => v.getD i 0

namespace Body

/-- The loop of the `q` overloads (`forward_kinematics.cc:26-28,41-43`, `articulated_body.cc:216-220`)
with its reads; see `climb`. -/
noncomputable def climbV {α : Type*} (b : Body) (q : List ℝ) (f : Iso → α → α) :
    ℕ → Option ℕ → α → Out α
  | 0, _, x => .ok x
  | _ + 1, none, x => .ok x
  | k + 1, some i, x => (readAt q i).bind fun y => climbV b q f k (b.par i) (f (b.TpAt i y) x)

/-- `Position(ab, q, link, offset)` (`forward_kinematics.cc:22-30`). -/
noncomputable def positionV (b : Body) (q : List ℝ) (link : ℤ) (offset : Vec3) : Out Vec3 :=
  (b.climbStart link).bind fun k =>
    (b.climbV q (fun T p => T.app p) b.dof k offset).bind fun p => .ok (b.T0.app p)

/-- `Orientation(ab, q, link)` (`forward_kinematics.cc:37-45`). -/
noncomputable def orientationV (b : Body) (q : List ℝ) (link : ℤ) : Out Mat3 :=
  (b.climbStart link).bind fun k =>
    (b.climbV q (fun T R => T.R * R) b.dof k 1).bind fun R => .ok (b.T0.R * R)

/-- `T_to_world(i, q)` (`articulated_body.cc:213-222`). -/
noncomputable def tToWorldV (b : Body) (junk : Iso) (q : List ℝ) (i : ℤ) : Out Iso :=
  (b.index i).bind fun k =>
    (b.climbV q (fun T X => T * X) b.dof (some k) junk).bind fun X => .ok (b.T0 * X)

/-- `CartesianPose(ab, q, link, offset)` (`forward_kinematics.cc:52-55`). -/
noncomputable def cartesianPoseV (b : Body) (junk : Iso) (q : List ℝ) (link : ℤ) (offset : Vec3) :
    Out Iso :=
  (b.tToWorldV junk q link).bind fun T => .ok (T * ⟨1, offset⟩)

/-- `Jacobian(ab, q, link, offset)` (`forward_kinematics.cc:85-111`): `q` is read in the first loop,
at the ancestors of the link. -/
noncomputable def jacobianV (b : Body) (q : List ℝ) (link : ℤ) (offset : Vec3) : Out (ℕ → Motion) :=
  (b.index link).bind fun k =>
    (readAll q (b.anc.getD k [])).bind fun _ => b.jacobianQ (arrOf q) link offset

/-- `InverseDynamics` (`inverse_dynamics.cc:21-97`): the fast path multiplies a matrix by `ddq`
(line 34), the recursion reads `ddq(i)` for every joint (line 57). -/
noncomputable def inverseDynamicsV (b : Body) (ddq : List ℝ) (fext : FExt) (o : IDOpts) :
    Out ((ℕ → ℝ) × Body) :=
  (if b.c.crbaDone && (!o.cc || b.c.ccDone) && (!o.gravity || b.c.gravDone) then
    sameSize ddq b.dof else readAll ddq (List.range b.dof)).bind fun _ =>
  .ok (b.inverseDynamics (arrOf ddq) fext o)

open Classical in
/-- `Friction` (`inverse_dynamics.cc:199-221`) reads `tau(i)` for the joints without kinetic friction
(lines 209-215). -/
noncomputable def frictionV (b : Body) (tau : List ℝ) (compensate : Bool) (eps : ℝ) :
    Out (ℕ → ℝ) :=
  (readAll tau ((List.range b.dof).filter fun i =>
    (b.view.fr i).coulomb * Sys.signum (b.view.dq i) eps = 0)).bind fun _ =>
  .ok (b.friction (arrOf tau) compensate eps)

variable (E : Ext)

/-- `ForwardDynamics` (`forward_dynamics.cc:21-30`): `tau - InverseDynamics(...)`. -/
noncomputable def forwardDynamicsV (b : Body) (tau : List ℝ) (fext : FExt) (o : FDOpts) :
    Out ((ℕ → ℝ) × Body) :=
  (sameSize tau b.dof).bind fun _ => .ok (b.fd E (arrOf tau) fext o)

/-- `ForwardDynamicsAba` (`forward_dynamics.cc:32-135`): `tau(i)` for every joint (line 87). -/
noncomputable def forwardDynamicsAbaV (b : Body) (tau : List ℝ) (fext : FExt) (o : FDOpts) :
    Out ((ℕ → ℝ) × Body) :=
  (readAll tau (List.range b.dof)).bind fun _ => .ok (b.forwardDynamicsAba (arrOf tau) fext o)

/-- `Integrate` (`simulation.cc:116-194`): every stage calls one of the two functions above with
`tau`; the number of joints does not change between them, so the first call decides. -/
noncomputable def integrateV (b : Body) (tau : List ℝ) (dt : ℝ) (fext : FExt) (o : IntOpts) :
    Out Body :=
  (if o.aba then readAll tau (List.range b.dof) else sameSize tau b.dof).bind fun _ =>
  b.integrate E (arrOf tau) dt fext o

/-- `discrete::InverseDynamics` (`discrete_dynamics.cc:25-104`): `q_next(i)` for every joint
(lines 68-72). -/
noncomputable def discreteInverseDynamicsV (b : Body) (qNext : List ℝ) (dt : ℝ) (fext : FExt)
    (gravity : Bool) : Out ((ℕ → ℝ) × Body) :=
  (readAll qNext (List.range b.dof)).bind fun _ => .ok (b.discreteID E (arrOf qNext) dt fext gravity)

/-- `discrete::Integrate` (`discrete_dynamics.cc:180-207`) starts with `ForwardDynamics(ab, tau)`. -/
noncomputable def discreteIntegrateV (b : Body) (tau : List ℝ) (dt : ℝ) (fext : FExt)
    (o : DIntOpts) : Out Body :=
  (sameSize tau b.dof).bind fun _ => b.discreteIntegrate E (arrOf tau) dt fext o

end Body

/-! ## The arguments of the Python functions -/

/-- The value of the argument `q` of the Python functions (`spatial_dyn.cc:184-220,356-425`): `None`,
a number, a list of numbers, or a one-dimensional numpy array. -/
inductive PyQ where
  | none
  | num (x : ℝ)
  | vec (q : List ℝ)
  | arr (q : List ℝ)

namespace Body

/-- The dispatch on `q` shared by the functions whose `q` is a vector: `q.is_none()`, or a conversion
to a vector, which a number does not survive. -/
def pyVec {α : Type*} (now : Out (α × Body)) (b : Body) (given : List ℝ → Out α) :
    PyQ → Out (α × Body)
  | .none => now
  | .num _ => .throws
  | .vec q => (given q).bind fun r => .ok (r, b)
  | .arr q => (given q).bind fun r => .ok (r, b)

/-- Python `position` (`spatial_dyn.cc:356-366`). -/
noncomputable def pyPosition (b : Body) (link : ℤ := -1) (offset : Vec3 := 0) (q : PyQ := .none) :
    Out (Vec3 × Body) :=
  pyVec (b.position link offset) b (fun q => b.positionV q link offset) q

/-- Python `orientation` (`spatial_dyn.cc:367-377`), as a rotation matrix. -/
noncomputable def pyOrientation (b : Body) (link : ℤ := -1) (q : PyQ := .none) :
    Out (Mat3 × Body) :=
  pyVec (b.orientation link) b (fun q => b.orientationV q link) q

/-- Python `cartesian_pose` (`spatial_dyn.cc:378-389`). -/
noncomputable def pyCartesianPose (b : Body) (junk : Iso) (link : ℤ := -1) (offset : Vec3 := 0)
    (q : PyQ := .none) : Out (Iso × Body) :=
  pyVec (b.cartesianPose link offset) b (fun q => b.cartesianPoseV junk q link offset) q

/-- Python `jacobian` (`spatial_dyn.cc:390-401`). -/
noncomputable def pyJacobian (b : Body) (link : ℤ := -1) (offset : Vec3 := 0) (q : PyQ := .none) :
    Out ((ℕ → Motion) × Body) :=
  pyVec (b.jacobian link offset) b (fun q => b.jacobianV q link offset) q

/-- Python `linear_jacobian` (`spatial_dyn.cc:402-413`). -/
noncomputable def pyLinearJacobian (b : Body) (link : ℤ := -1) (offset : Vec3 := 0)
    (q : PyQ := .none) : Out ((ℕ → Vec3) × Body) :=
  pyVec (b.linearJacobian link offset) b
    (fun q => (b.jacobianV q link offset).bind fun J => .ok fun i => (J i).lin) q

/-- Python `angular_jacobian` (`spatial_dyn.cc:414-425`): `offset` is accepted and not used. -/
noncomputable def pyAngularJacobian (b : Body) (link : ℤ := -1) (_offset : Vec3 := 0)
    (q : PyQ := .none) : Out ((ℕ → Vec3) × Body) :=
  pyVec (b.angularJacobian link) b
    (fun q => (b.jacobianV q link 0).bind fun J => .ok fun i => (J i).ang) q

/-- Python `T_to_parent(i, q)` (`spatial_dyn.cc:184-191`): here `q` is one number,
converted with `q.cast<double>()`, that is Python's `float(q)`: arrays of one number are numbers. -/
noncomputable def pyTToParent (b : Body) (i : ℤ) (q : PyQ := .none) : Out (Iso × Body) :=
  match q with
  | .none => b.tToParent i
  | .num x => (b.tToParentQ i x).bind fun T => .ok (T, b)
  | .vec _ => .throws
  | .arr [x] => (b.tToParentQ i x).bind fun T => .ok (T, b)
  | .arr _ => .throws

/-- Python `T_to_world(i, q)` (`spatial_dyn.cc:200-209`). -/
noncomputable def pyTToWorld (b : Body) (junk : Iso) (i : ℤ) (q : PyQ := .none) :
    Out (Iso × Body) :=
  pyVec (b.tToWorld i) b (fun q => b.tToWorldV junk q i) q

end Body

/-! ## The array returned by Python `hessian` -/

/-- The memory of an `Eigen::Tensor3d` of dimensions `n`, `n`, 6: the first index varies fastest
(column-major, Eigen's default). -/
def tensorMem (n : ℕ) (H : ℕ → ℕ → Motion) (p : ℕ) : ℝ :=
  (H (p % n) (p / n % n)).entry (p / (n * n))

/-- A numpy array: shape, strides in bytes, and the memory it reads. -/
structure NdArray where
  shape : List ℕ
  strides : List ℕ
  mem : ℕ → ℝ

/-- `a[i, j, k]`: outside the shape an `IndexError`; inside, the number at
`i·strides[0] + j·strides[1] + k·strides[2]` bytes (8 bytes per number). -/
def NdArray.at3 (a : NdArray) (i j k : ℕ) : Out ℝ :=
  if i < a.shape.getD 0 0 ∧ j < a.shape.getD 1 0 ∧ k < a.shape.getD 2 0 then
    .ok (a.mem ((i * a.strides.getD 0 0 + j * a.strides.getD 1 0 + k * a.strides.getD 2 0) / 8))
  else .throws

/-- Python `hessian` (`spatial_dyn.cc:426-440`).  Without a base object the constructor of `py::array`
copies the memory, so the array outlives the tensor. -/
noncomputable def Body.pyHessian (b : Body) (link : ℤ := -1) (offset : Vec3 := 0) :
    Out (NdArray × Body) :=
  (b.hessian link offset).bind fun r =>
    .ok (⟨[b.dof, b.dof, 6], [8, 8 * b.dof, 8 * b.dof * b.dof], tensorMem b.dof r.1⟩, r.2)

end SpatialDyn
