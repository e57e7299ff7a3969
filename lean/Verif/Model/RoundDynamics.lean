import Verif.Model.Rounding
import Verif.Model.ForwardDynamics
import Verif.Model.Simulation

/-!
# Dynamics computed with rounded arithmetic

The algorithms of `inverse_dynamics.cc`, `forward_dynamics.cc`, `forward_kinematics.cc` and
`simulation.cc` with an arithmetic whose every operation may be wrong by a little, in the order in which
the code writes the operations.  Everything is computed anew (no cache flag is set) and the friction
option is off.  Changes of sign, assignments of zero and products with two are exact in every binary
arithmetic and are left exact.
-/

namespace SpatialDyn

/-- Operations of a computer, see `Arith`.  `dot6` is a sum of six products, added in an order that is up
to Eigen and the compiler.  `less x k a b` is `x` minus a sum of `k` products, likewise.  `pivot n A` is the
order in which Eigen's `LDLT` takes the rows of the `n x n` matrix `A`, and `least` the smallest positive
normal number (`std::numeric_limits<double>::min()`). -/
structure Fl extends Arith where
  mul : ℝ → ℝ → ℝ
  div : ℝ → ℝ → ℝ
  dot6 : Motion → Force → ℝ
  less : ℝ → ℕ → (ℕ → ℝ) → (ℕ → ℝ) → ℝ
  pivot : (n : ℕ) → (ℕ → ℕ → ℝ) → Equiv.Perm (Fin n)
  least : ℝ

namespace Fl
variable (F : Fl)

/-! ## Vectors and matrices -/

/-- Difference of vectors. -/
def subVec (v w : Vec3) : Vec3 := ⟨F.sub v.x w.x, F.sub v.y w.y, F.sub v.z w.z⟩

/-- Product of a number and a vector. -/
def smulVec (c : ℝ) (v : Vec3) : Vec3 := ⟨F.mul c v.x, F.mul c v.y, F.mul c v.z⟩

/-- Quotient of a vector and a number. -/
def divVec (v : Vec3) (c : ℝ) : Vec3 := ⟨F.div v.x c, F.div v.y c, F.div v.z c⟩

/-- Eigen's 3D cross product. -/
def cross (a b : Vec3) : Vec3 :=
  ⟨F.sub (F.mul a.y b.z) (F.mul a.z b.y), F.sub (F.mul a.z b.x) (F.mul a.x b.z),
   F.sub (F.mul a.x b.y) (F.mul a.y b.x)⟩

/-- Sum of matrices. -/
def addMat (a b : Mat3) : Mat3 where
  m00 := F.add a.m00 b.m00
  m01 := F.add a.m01 b.m01
  m02 := F.add a.m02 b.m02
  m10 := F.add a.m10 b.m10
  m11 := F.add a.m11 b.m11
  m12 := F.add a.m12 b.m12
  m20 := F.add a.m20 b.m20
  m21 := F.add a.m21 b.m21
  m22 := F.add a.m22 b.m22

/-- Difference of matrices. -/
def subMat (a b : Mat3) : Mat3 where
  m00 := F.sub a.m00 b.m00
  m01 := F.sub a.m01 b.m01
  m02 := F.sub a.m02 b.m02
  m10 := F.sub a.m10 b.m10
  m11 := F.sub a.m11 b.m11
  m12 := F.sub a.m12 b.m12
  m20 := F.sub a.m20 b.m20
  m21 := F.sub a.m21 b.m21
  m22 := F.sub a.m22 b.m22

/-- Product of a number and a matrix. -/
def smulMat (c : ℝ) (a : Mat3) : Mat3 where
  m00 := F.mul c a.m00
  m01 := F.mul c a.m01
  m02 := F.mul c a.m02
  m10 := F.mul c a.m10
  m11 := F.mul c a.m11
  m12 := F.mul c a.m12
  m20 := F.mul c a.m20
  m21 := F.mul c a.m21
  m22 := F.mul c a.m22

/-- `M.rowwise().cross(t)`. -/
def rowCross (a : Mat3) (t : Vec3) : Mat3 :=
  Mat3.ofRows (F.cross a.row0 t) (F.cross a.row1 t) (F.cross a.row2 t)

/-- `M.colwise().cross(t)`. -/
def colCross (a : Mat3) (t : Vec3) : Mat3 :=
  Mat3.ofCols (F.cross a.col0 t) (F.cross a.col1 t) (F.cross a.col2 t)

/-- `ctrl_utils::DoubleCrossMatrix` (external), see `SpatialDyn.doubleCross`. -/
def doubleCross (a : Vec3) : Mat3 where
  m00 := F.sub (-(F.mul a.y a.y)) (F.mul a.z a.z)
  m01 := F.mul a.x a.y
  m02 := F.mul a.x a.z
  m10 := F.mul a.x a.y
  m11 := F.sub (-(F.mul a.x a.x)) (F.mul a.z a.z)
  m12 := F.mul a.y a.z
  m20 := F.mul a.x a.z
  m21 := F.mul a.y a.z
  m22 := F.sub (-(F.mul a.x a.x)) (F.mul a.y a.y)

/-! ## Spatial vectors -/

/-- Sum of motions. -/
def addM (a b : Motion) : Motion := ⟨F.addVec a.lin b.lin, F.addVec a.ang b.ang⟩
/-- Difference of motions. -/
def subM (a b : Motion) : Motion := ⟨F.subVec a.lin b.lin, F.subVec a.ang b.ang⟩
/-- Product of a number and a motion. -/
def smulM (c : ℝ) (a : Motion) : Motion := ⟨F.smulVec c a.lin, F.smulVec c a.ang⟩
/-- Sum of forces. -/
def addF (a b : Force) : Force := ⟨F.addVec a.lin b.lin, F.addVec a.ang b.ang⟩
/-- Difference of forces. -/
def subF (a b : Force) : Force := ⟨F.subVec a.lin b.lin, F.subVec a.ang b.ang⟩
/-- Product of a number and a force. -/
def smulF (c : ℝ) (a : Force) : Force := ⟨F.smulVec c a.lin, F.smulVec c a.ang⟩

/-- `Eigen::Isometry3d::inverse()`. -/
def inv (T : Iso) : Iso := ⟨T.R.T, -(F.mulVec T.R.T T.t)⟩

/-- `Transform * SpatialMotion` (spatial_motion_base.h 302-313). -/
def actM (T : Iso) (m : Motion) : Motion :=
  let ang := F.mulVec T.R m.ang
  ⟨F.subVec (F.mulVec T.R m.lin) (F.cross ang T.t), ang⟩

/-- `Transform * SpatialForce` (spatial_force_base.h 292-303). -/
def actF (T : Iso) (f : Force) : Force :=
  let lin := F.mulVec T.R f.lin
  ⟨lin, F.subVec (F.mulVec T.R f.ang) (F.cross lin T.t)⟩

/-- One of the sums `a b - c d + e f - g h` of the spatial cross products. -/
def four (a b c d e f g h : ℝ) : ℝ :=
  F.sub (F.add (F.sub (F.mul a b) (F.mul c d)) (F.mul e f)) (F.mul g h)

/-- `SpatialMotion::cross(SpatialMotion)` (spatial_motion_base.h 692-709). -/
def crossM (l r : Motion) : Motion where
  lin := ⟨F.four l.lin.y r.ang.z l.lin.z r.ang.y l.ang.y r.lin.z l.ang.z r.lin.y,
          F.four l.lin.z r.ang.x l.lin.x r.ang.z l.ang.z r.lin.x l.ang.x r.lin.z,
          F.four l.lin.x r.ang.y l.lin.y r.ang.x l.ang.x r.lin.y l.ang.y r.lin.x⟩
  ang := F.cross l.ang r.ang

/-- `SpatialMotion::cross(SpatialForce)` (spatial_motion_base.h 710-727). -/
def crossF (l : Motion) (r : Force) : Force where
  lin := F.cross l.ang r.lin
  ang := ⟨F.four l.lin.y r.lin.z l.lin.z r.lin.y l.ang.y r.ang.z l.ang.z r.ang.y,
          F.four l.lin.z r.lin.x l.lin.x r.lin.z l.ang.z r.ang.x l.ang.x r.ang.z,
          F.four l.lin.x r.lin.y l.lin.y r.lin.x l.ang.x r.ang.y l.ang.y r.ang.x⟩

/-- `SpatialInertia * SpatialMotion` (spatial_inertia.h 194-206). -/
def appI (I : Inertia) (m : Motion) : Force :=
  let mc := F.smulVec I.mass I.com
  ⟨F.addVec (F.smulVec I.mass m.lin) (F.cross m.ang mc),
   F.subVec (F.subVec (F.mulVec I.Icom m.ang) (F.cross m.lin mc)) (F.cross (F.cross m.ang I.com) mc)⟩

/-- `SpatialInertia::operator+` (spatial_inertia.h 220-230); `operator+=` (208-218) adds the rotational
part in another order, see `addToI`. -/
def addI (a b : Inertia) : Inertia :=
  let com := F.divVec (F.addVec (F.smulVec a.mass a.com) (F.smulVec b.mass b.com))
    (F.add a.mass b.mass)
  { com := com
    Icom := F.subMat (F.subMat (F.addMat a.Icom b.Icom)
      (F.smulMat a.mass (F.doubleCross (F.subVec com a.com))))
      (F.smulMat b.mass (F.doubleCross (F.subVec com b.com)))
    mass := F.add a.mass b.mass }

/-- `SpatialInertia::operator+=` (spatial_inertia.h 208-218). -/
def addToI (a b : Inertia) : Inertia :=
  let com := F.divVec (F.addVec (F.smulVec a.mass a.com) (F.smulVec b.mass b.com))
    (F.add a.mass b.mass)
  { com := com
    Icom := F.addMat a.Icom (F.subMat (F.subMat b.Icom
      (F.smulMat a.mass (F.doubleCross (F.subVec com a.com))))
      (F.smulMat b.mass (F.doubleCross (F.subVec com b.com))))
    mass := F.add a.mass b.mass }

/-- `Transform * SpatialInertia` (spatial_inertia.h 118-130). -/
def actI (T : Iso) (I : Inertia) : Inertia :=
  ⟨I.mass, F.app T I.com, F.mulMat (F.mulMat T.R I.Icom) T.R.T⟩

/-! ## 6x6 matrices -/

/-- `SpatialInertia::matrix()` (spatial_inertia.h 242-261, 270-290). -/
def matrixI (I : Inertia) : Mat6 :=
  let mcx := F.mul I.mass I.com.x
  let mcy := F.mul I.mass I.com.y
  let mcz := F.mul I.mass I.com.z
  let Imcxx := F.add I.Icom.m00 (F.mul I.mass (F.add (F.mul I.com.y I.com.y) (F.mul I.com.z I.com.z)))
  let Imcyy := F.add I.Icom.m11 (F.mul I.mass (F.add (F.mul I.com.x I.com.x) (F.mul I.com.z I.com.z)))
  let Imczz := F.add I.Icom.m22 (F.mul I.mass (F.add (F.mul I.com.x I.com.x) (F.mul I.com.y I.com.y)))
  let Imcxy := F.sub I.Icom.m01 (F.mul (F.mul I.mass I.com.x) I.com.y)
  let Imcxz := F.sub I.Icom.m02 (F.mul (F.mul I.mass I.com.x) I.com.z)
  let Imcyz := F.sub I.Icom.m12 (F.mul (F.mul I.mass I.com.y) I.com.z)
  { ll := ⟨I.mass, 0, 0, 0, I.mass, 0, 0, 0, I.mass⟩
    la := ⟨0, mcz, -mcy, -mcz, 0, mcx, mcy, -mcx, 0⟩
    al := ⟨0, -mcz, mcy, mcz, 0, -mcx, -mcy, mcx, 0⟩
    aa := ⟨Imcxx, Imcxy, Imcxz, Imcxy, Imcyy, Imcyz, Imcxz, Imcyz, Imczz⟩ }

/-- `SpatialInertiaMatrix * SpatialMotion` (spatial_inertia.h 292-297): six sums of six products. -/
def app6 (A : Mat6) (m : Motion) : Force :=
  ⟨⟨F.dot6 m ⟨A.ll.row0, A.la.row0⟩, F.dot6 m ⟨A.ll.row1, A.la.row1⟩, F.dot6 m ⟨A.ll.row2, A.la.row2⟩⟩,
   ⟨F.dot6 m ⟨A.al.row0, A.aa.row0⟩, F.dot6 m ⟨A.al.row1, A.aa.row1⟩, F.dot6 m ⟨A.al.row2, A.aa.row2⟩⟩⟩

/-- `+=` of 6x6 matrices (spatial_inertia.h 306-312). -/
def add6 (A B : Mat6) : Mat6 :=
  ⟨F.addMat A.ll B.ll, F.addMat A.la B.la, F.addMat A.al B.al, F.addMat A.aa B.aa⟩

/-- `-=` of 6x6 matrices. -/
def sub6 (A B : Mat6) : Mat6 :=
  ⟨F.subMat A.ll B.ll, F.subMat A.la B.la, F.subMat A.al B.al, F.subMat A.aa B.aa⟩

/-- Products of the entries of two vectors. -/
def outer (a b : Vec3) : Mat3 where
  m00 := F.mul a.x b.x
  m01 := F.mul a.x b.y
  m02 := F.mul a.x b.z
  m10 := F.mul a.y b.x
  m11 := F.mul a.y b.y
  m12 := F.mul a.y b.z
  m20 := F.mul a.z b.x
  m21 := F.mul a.z b.y
  m22 := F.mul a.z b.z

/-- `h.matrix() / d * h.transpose()` (forward_dynamics.cc 82). -/
def outerDiv (h : Force) (d : ℝ) : Mat6 :=
  let l := F.divVec h.lin d
  let a := F.divVec h.ang d
  ⟨F.outer l h.lin, F.outer l h.ang, F.outer a h.lin, F.outer a h.ang⟩

/-- `Transform * SpatialInertiaMatrix` (spatial_inertia.h 143-159). -/
def actMat (T : Iso) (A : Mat6) : Mat6 :=
  let ll := F.mulMat A.ll T.R.T
  let al := F.mulMat A.al T.R.T
  let la := F.subMat (F.mulMat A.la T.R.T) (F.rowCross ll T.t)
  let aa := F.subMat (F.mulMat A.aa T.R.T) (F.rowCross al T.t)
  let ll' := F.mulMat T.R ll
  let la' := F.mulMat T.R la
  let al' := F.subMat (F.mulMat T.R al) (F.colCross ll' T.t)
  let aa' := F.subMat (F.mulMat T.R aa) (F.colCross la' T.t)
  ⟨ll', la', al', aa'⟩

/-! ## Inverse dynamics

`σ` holds the transforms as they were computed and stored. -/

/-- `has_load ? inertia + load : inertia` (`inverse_dynamics.cc:45-47`). -/
def Itot (σ : Sys) (i : ℕ) : Inertia :=
  match σ.load i with
  | none => σ.I i
  | some L => F.addI (σ.I i) L

/-- Subtraction of the external force on body `i` (`inverse_dynamics.cc:77-79`). -/
def subExt (σ : Sys) (fext : FExt) (i : ℕ) (f : Force) : Force :=
  match fext i with
  | none => f
  | some fe => F.subF f (F.actF (F.inv (σ.Tw i)) fe)

/-- Velocity of body `i` from its parent's (`inverse_dynamics.cc:51-54`). -/
def velStep (σ : Sys) (dqi : ℝ) (arr : ℕ → VAF) (i : ℕ) : Motion :=
  match σ.par i with
  | none => F.smulM dqi (σ.S i)
  | some p => F.addM (F.smulM dqi (σ.S i)) (F.actM (F.inv (σ.Tp i)) (arr p).v)

/-- Body of the forward pass of `InverseDynamics` (`inverse_dynamics.cc:43-80`). -/
def rneaStep (σ : Sys) (ddq : ℕ → ℝ) (fext : FExt) (o : IDOpts) (arr : ℕ → VAF) (i : ℕ) (old : VAF) :
    VAF :=
  let s := σ.S i
  let I := F.Itot σ i
  let v := if o.cc then F.velStep σ (σ.dq i) arr i else old.v
  let a := match σ.par i with
    | none =>
      let a := F.smulM (ddq i) s
      let a := if o.gravity then F.subM a (F.actM (F.inv (σ.Tw i)) σ.g) else a
      if o.cc then F.addM a (F.crossM v (F.smulM (σ.dq i) s)) else a
    | some p =>
      if o.cc then F.addM (F.smulM (ddq i) s)
        (F.addM (F.actM (F.inv (σ.Tp i)) (arr p).a) (F.crossM v (F.smulM (σ.dq i) s)))
      else F.addM (F.smulM (ddq i) s) (F.actM (F.inv (σ.Tp i)) (arr p).a)
  let f := if o.cc then F.addF (F.appI I a) (F.crossF v (F.appI I v)) else F.appI I a
  { v := v, a := a, f := F.subExt σ fext i f }

/-- Backward pass of `InverseDynamics`, `CentrifugalCoriolis`, `Gravity` and `ExternalTorques`
(`inverse_dynamics.cc:84-91,131-139,158-166,187-195`). -/
def backward (σ : Sys) (f : ℕ → Force) : ℕ → ℝ :=
  (bwdLoop F.addF σ.n σ.par (fun i f => F.dot6 (σ.S i) f) (fun _ f => f)
    (fun i f => F.actF (σ.Tp i) f) f (fun _ => 0)).2

/-- `InverseDynamics` (`inverse_dynamics.cc:41-97`). -/
def rnea (σ : Sys) (ddq : ℕ → ℝ) (fext : FExt) (o : IDOpts) : ℕ → ℝ :=
  F.backward σ fun i => (fwdLoop σ.n (F.rneaStep σ ddq fext o) (fun _ => ⟨0, 0, 0⟩) i).f

/-- Body of the forward pass of `CentrifugalCoriolis` (`inverse_dynamics.cc:106-127`). -/
def ccStep (σ : Sys) (arr : ℕ → VAF) (i : ℕ) (_ : VAF) : VAF :=
  let s := σ.S i
  let I := F.Itot σ i
  let v := F.velStep σ (σ.dq i) arr i
  let c := match σ.par i with
    | none => 0
    | some p => F.addM (F.actM (F.inv (σ.Tp i)) (arr p).a) (F.crossM v (F.smulM (σ.dq i) s))
  { v := v, a := c, f := F.addF (F.appI I c) (F.crossF v (F.appI I v)) }

/-- `CentrifugalCoriolis` (`inverse_dynamics.cc:99-142`). -/
def coriolis (σ : Sys) : ℕ → ℝ :=
  F.backward σ fun i => (fwdLoop σ.n (F.ccStep σ) (fun _ => ⟨0, 0, 0⟩) i).f

/-- `Gravity` (`inverse_dynamics.cc:144-169`). -/
def gravity (σ : Sys) : ℕ → ℝ :=
  F.backward σ fun i => F.appI (F.Itot σ i) (F.actM (F.inv (σ.Tw i)) (-σ.g))

/-- `ExternalTorques` (`inverse_dynamics.cc:171-197`). -/
def extTorques (σ : Sys) (fext : FExt) : ℕ → ℝ :=
  F.backward σ fun i => match fext i with
    | some fe => F.actF (F.inv (σ.Tw i)) (-fe)
    | none => 0

/-- The walk up the tree in `Inertia` (`inverse_dynamics.cc:247-253`). -/
def crbaWalk (σ : Sys) (i : ℕ) : ℕ → Option ℕ → ℕ → Force → (ℕ → ℕ → ℝ) → (ℕ → ℕ → ℝ)
  | 0, _, _, _, A => A
  | _ + 1, none, _, _, A => A
  | k + 1, some j, child, f, A =>
    let f := F.actF (σ.Tp child) f
    let A := Sys.setMat A i j (F.dot6 (σ.S j) f)
    let A := Sys.setMat A j i (A i j)
    crbaWalk σ i k (σ.par j) j f A

/-- Body of the backward pass of `Inertia` (`inverse_dynamics.cc:236-254`). -/
def crbaStep (σ : Sys) (s : (ℕ → Inertia) × (ℕ → ℕ → ℝ)) (i : ℕ) : (ℕ → Inertia) × (ℕ → ℕ → ℝ) :=
  let Ic := match σ.par i with
    | none => s.1
    | some p => accum F.addToI s.1 p (F.actI (σ.Tp i) (s.1 i))
  let f := F.appI (Ic i) (σ.S i)
  let A := Sys.setMat s.2 i i (F.dot6 (σ.S i) f)
  (Ic, F.crbaWalk σ i σ.n (σ.par i) i f A)

/-- `Inertia` (`inverse_dynamics.cc:223-257`). -/
def crba (σ : Sys) : ℕ → ℕ → ℝ :=
  ((List.range σ.n).reverse.foldl (F.crbaStep σ) (fun i => F.Itot σ i, fun _ _ => 0)).2

/-! ## Eigen's `LDLT`

`crba.A_inv = Inertia(ab).ldlt()` (`forward_dynamics.cc:137-144`) and `InertiaInverse(ab).solve(dtau)`
(`forward_dynamics.cc:28`), after Eigen's `LDLT.h` (not in `/repo`): the factorisation column by column, in
place, then the two triangular systems.  The order in which rows are taken and the order in which products
are added are left open. -/

/-- The row that comes at place `i`. -/
def place {n : ℕ} (π : Equiv.Perm (Fin n)) (i : ℕ) : ℕ := if h : i < n then π ⟨i, h⟩ else i

/-- Columns of the factorisation: the entry `D_k` and the entries `L_ik` below it (`ldlt_inplace::unblocked`).
Pivots that are zero are not divided by. -/
noncomputable def ldltCols (n : ℕ) (A : ℕ → ℕ → ℝ) : ℕ → ℝ × (ℕ → ℝ) :=
  fwdLoop n (fun C k _ =>
    let temp := fun j => F.mul (C j).1 ((C j).2 k)
    let d := F.less (A k k) k (fun j => (C j).2 k) temp
    let a := fun i => F.less (A i k) k (fun j => (C j).2 i) temp
    (d, fun i => if d = 0 then a i else F.div (a i) d)) fun _ => (0, fun _ => 0)

/-- `matrixL().solveInPlace`. -/
def lowerSolve (n : ℕ) (L : ℕ → ℕ → ℝ) (b : ℕ → ℝ) : ℕ → ℝ :=
  fwdLoop n (fun y i _ => F.less (b i) i (L i) y) fun _ => 0

/-- `matrixU().solveInPlace`, from the last row to the first. -/
def upperSolve (n : ℕ) (L : ℕ → ℕ → ℝ) (z : ℕ → ℝ) (i : ℕ) : ℝ :=
  fwdLoop n (fun w r _ => F.less (z (n - 1 - r)) r (fun s => L (n - 1 - s) (n - 1 - r)) w) (fun _ => 0)
    (n - 1 - i)

/-- Division by the diagonal; entries that are not normal numbers count as zero. -/
noncomputable def diagSolve (D y : ℕ → ℝ) (i : ℕ) : ℝ :=
  if F.least < |D i| then F.div (y i) (D i) else 0

/-- The solution of a system whose rows are in the order in which the factorisation takes them. -/
noncomputable def solveOrdered (n : ℕ) (A : ℕ → ℕ → ℝ) (b : ℕ → ℝ) : ℕ → ℝ :=
  let C := F.ldltCols n A
  let L := fun i j => (C j).2 i
  F.upperSolve n L (F.diagSolve (fun i => (C i).1) (F.lowerSolve n L b))

/-- `LDLT::solve` when the rows are taken in the order `π`. -/
noncomputable def solveBy {n : ℕ} (π : Equiv.Perm (Fin n)) (A : ℕ → ℕ → ℝ) (b : ℕ → ℝ) (i : ℕ) : ℝ :=
  F.solveOrdered n (fun i j => A (place π i) (place π j)) (fun i => b (place π i)) (place π.symm i)

/-- `A.ldlt().solve(b)`. -/
noncomputable def solve (n : ℕ) (A : ℕ → ℕ → ℝ) (b : ℕ → ℝ) : ℕ → ℝ := F.solveBy (F.pivot n A) A b

/-- `ForwardDynamics` (`forward_dynamics.cc:21-30`). -/
noncomputable def fd (σ : Sys) (tau : ℕ → ℝ) (fext : FExt) (o : FDOpts) : ℕ → ℝ :=
  F.solve σ.n (F.crba σ) fun i =>
    F.sub (tau i) (F.rnea σ (fun _ => 0) fext ⟨o.gravity, o.cc, false, 0.01⟩ i)

/-! ## Jacobian -/

/-- `Jacobian` of the point `offset` of body `k` with ancestors `ancs`
(`forward_kinematics.cc:57-83`). -/
def jacobian (σ : Sys) (ancs : List ℕ) (k : ℕ) (offset : Vec3) : ℕ → Motion :=
  let p := F.app (σ.Tw k) offset
  ancs.foldl (fun J i => Function.update J i
    (F.actM ⟨(σ.Tw i).R, F.subVec (σ.Tw i).t p⟩ (σ.S i))) (fun _ => 0)

/-! ## Articulated body algorithm -/

/-- Body of the first pass of `ForwardDynamicsAba` (`forward_dynamics.cc:42-70`). -/
def abaStep (σ : Sys) (fext : FExt) (o : FDOpts) (arr : ℕ → VAF) (i : ℕ) (_ : VAF) : VAF :=
  let s := σ.S i
  let I := F.Itot σ i
  let dqi := if o.cc then σ.dq i else 0
  let v := F.velStep σ dqi arr i
  let a := match σ.par i with
    | none => 0
    | some _ => F.crossM v (F.smulM dqi s)
  { v := v, a := a, f := F.subExt σ fext i (F.crossF v (F.appI I v)) }

/-- `aba.d[i]` (`forward_dynamics.cc:79-80`). -/
def abaD (σ : Sys) (i : ℕ) (Ia : Mat6) : ℝ := F.dot6 (σ.S i) (F.app6 Ia (σ.S i))

/-- `aba.I_a[i]` after the rank-one update (`forward_dynamics.cc:81-82`). -/
def abaRed (σ : Sys) (i : ℕ) (Ia : Mat6) : Mat6 :=
  match σ.par i with
  | none => Ia
  | some _ => F.sub6 Ia (F.outerDiv (F.app6 Ia (σ.S i)) (F.abaD σ i Ia))

/-- `ddq(i)` in the backward pass (`forward_dynamics.cc:87-88`). -/
def abaDdq (σ : Sys) (tau : ℕ → ℝ) (i : ℕ) (d : ℝ) (f : Force) : ℝ :=
  F.div (F.sub (tau i) (F.dot6 (σ.S i) f)) d

/-- Backward pass of `ForwardDynamicsAba` (`forward_dynamics.cc:75-116`). -/
def abaBackward (σ : Sys) (tau : ℕ → ℝ) (a : ℕ → Motion) (B0 : ℕ → Mat6 × Force) : ℕ → AbaOut :=
  (bwdLoop (fun x y => (F.add6 x.1 y.1, F.addF x.2 y.2)) σ.n σ.par
    (fun i b => ⟨F.app6 b.1 (σ.S i), F.abaD σ i b.1, F.abaDdq σ tau i (F.abaD σ i b.1) b.2⟩)
    (fun i b => (F.abaRed σ i b.1, b.2))
    (fun i b => (F.actMat (σ.Tp i) (F.abaRed σ i b.1),
      F.actF (σ.Tp i) (F.addF (F.addF b.2 (F.app6 (F.abaRed σ i b.1) (a i)))
        (F.smulF (F.abaDdq σ tau i (F.abaD σ i b.1) b.2) (F.app6 b.1 (σ.S i))))))
    B0 (fun _ => ⟨0, 0, 0⟩)).2

/-- Body of the last pass of `ForwardDynamicsAba` (`forward_dynamics.cc:119-133`). -/
def abaLastStep (σ : Sys) (grav : Bool) (out : ℕ → AbaOut) (arr : ℕ → Motion × ℝ) (i : ℕ)
    (old : Motion × ℝ) : Motion × ℝ :=
  let a := match σ.par i with
    | none => if grav then F.actM (F.inv (σ.Tp i)) (-σ.g) else 0
    | some p => F.addM old.1 (F.actM (F.inv (σ.Tp i)) (arr p).1)
  let ddq := F.sub old.2 (F.div (F.dot6 a (out i).h) (out i).d)
  (F.addM a (F.smulM ddq (σ.S i)), ddq)

/-- `ForwardDynamicsAba` (`forward_dynamics.cc:32-135`). -/
def aba (σ : Sys) (tau : ℕ → ℝ) (fext : FExt) (o : FDOpts) : ℕ → ℝ :=
  let arr := fwdLoop σ.n (F.abaStep σ fext o) (fun _ => ⟨0, 0, 0⟩)
  let out := F.abaBackward σ tau (fun i => (arr i).a) (fun i => (F.matrixI (F.Itot σ i), (arr i).f))
  fun i => (fwdLoop σ.n (F.abaLastStep σ o.gravity out) (fun i => ((arr i).a, (out i).ddq)) i).2

/-! ## Robots -/

/-- What the algorithms read from the robot `b` when it stands at positions `q` with rates `dq`: the
transforms of `T_to_parent` and `T_to_world` (`articulated_body.cc:178-212`) computed anew. -/
noncomputable def sysAt (b : Body) (q dq : ℕ → ℝ) : Sys :=
  { b.sysWith (fun i => b.roundTpAt F.toArith i (q i)) (fwdLoop b.dof (fun Tw j _ => match b.par j with
      | none => F.mulIso b.T0 (b.roundTpAt F.toArith j (q j))
      | some p => F.mulIso (Tw p) (b.roundTpAt F.toArith j (q j))) (fun _ => 1)) with dq := dq }

/-- The methods of `Integrate` without joint limits (`simulation.cc:127-193`), from positions `y.1` and
rates `y.2`; `f` answers the accelerations. -/
noncomputable def integrateWith (f : (ℕ → ℝ) → (ℕ → ℝ) → ℕ → ℝ) (dt : ℝ) (m : Method)
    (y : (ℕ → ℝ) × (ℕ → ℝ)) : (ℕ → ℝ) × (ℕ → ℝ) :=
  let q0 := y.1
  let d0 := y.2
  let a0 := f q0 d0
  match m with
  | .euler =>
    (fun i => F.add (F.add (q0 i) (F.mul dt (d0 i))) (F.mul (F.mul (F.mul 0.5 dt) dt) (a0 i)),
     fun i => F.add (d0 i) (F.mul dt (a0 i)))
  | .heuns =>
    let d1 := fun i => F.add (d0 i) (F.mul dt (a0 i))
    let a1 := f (fun i => F.add (q0 i) (F.mul dt (d0 i))) d1
    (fun i => F.add (q0 i) (F.mul (F.mul 0.5 dt) (F.add (d0 i) (d1 i))),
     fun i => F.add (d0 i) (F.mul (F.mul 0.5 dt) (F.add (a0 i) (a1 i))))
  | .rk4 =>
    let d1 := fun i => F.add (d0 i) (F.mul (F.mul 0.5 dt) (a0 i))
    let a1 := f (fun i => F.add (q0 i) (F.mul (F.mul 0.5 dt) (d0 i))) d1
    let d2 := fun i => F.add (d0 i) (F.mul (F.mul 0.5 dt) (a1 i))
    let a2 := f (fun i => F.add (q0 i) (F.mul (F.mul 0.5 dt) (d1 i))) d2
    let d3 := fun i => F.add (d0 i) (F.mul dt (a2 i))
    let a3 := f (fun i => F.add (q0 i) (F.mul dt (d2 i))) d3
    (fun i => F.add (q0 i) (F.mul (F.div dt 6)
      (F.add (F.add (F.add (d0 i) (F.mul 2 (d1 i))) (F.mul 2 (d2 i))) (d3 i))),
     fun i => F.add (d0 i) (F.mul (F.div dt 6)
      (F.add (F.add (F.add (a0 i) (F.mul 2 (a1 i))) (F.mul 2 (a2 i))) (a3 i))))

/-- One call of `Integrate` (`simulation.cc:116-194`) that does not apply joint limits. -/
noncomputable def integrate (b : Body) (tau : ℕ → ℝ) (dt : ℝ) (fext : FExt) (o : IntOpts)
    (y : (ℕ → ℝ) × (ℕ → ℝ)) : (ℕ → ℝ) × (ℕ → ℝ) :=
  F.integrateWith (fun q dq => if o.aba then F.aba (F.sysAt b q dq) tau fext o.fd
    else F.fd (F.sysAt b q dq) tau fext o.fd) dt o.method y

end Fl
end SpatialDyn
