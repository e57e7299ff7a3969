import Verif.Model.Kinematics

/-!
# Poses computed with rounded arithmetic

The rest of the model computes with real numbers.  Here the transforms and positions of
`articulated_body.cc` and `forward_kinematics.cc` are computed with an arithmetic whose every operation
may be wrong by a little.  Products with the entries 0 and 1 of coordinate axes, changes of sign and
sums with zero are exact in every binary arithmetic and are left out, as in `Eigen::AngleAxisd` of a
coordinate axis.
-/

namespace SpatialDyn

/-- Operations of a computer on the numbers it can hold.  `dot` is a sum of three products: in which order
they are added, and whether additions are fused with products, is up to Eigen and the compiler. -/
structure Arith where
  add : ℝ → ℝ → ℝ
  sub : ℝ → ℝ → ℝ
  sin : ℝ → ℝ
  cos : ℝ → ℝ
  dot : Vec3 → Vec3 → ℝ

namespace Arith

/-- Rows of a matrix. -/
def row (m : Mat3) : Fin 3 → Vec3
  | 0 => ⟨m.m00, m.m01, m.m02⟩
  | 1 => ⟨m.m10, m.m11, m.m12⟩
  | 2 => ⟨m.m20, m.m21, m.m22⟩

/-- Product of a matrix and a vector. -/
def mulVec (A : Arith) (m : Mat3) (v : Vec3) : Vec3 :=
  ⟨A.dot (row m 0) v, A.dot (row m 1) v, A.dot (row m 2) v⟩

/-- Product of matrices. -/
def mulMat (A : Arith) (m n : Mat3) : Mat3 where
  m00 := A.dot (row m 0) (row n.T 0)
  m01 := A.dot (row m 0) (row n.T 1)
  m02 := A.dot (row m 0) (row n.T 2)
  m10 := A.dot (row m 1) (row n.T 0)
  m11 := A.dot (row m 1) (row n.T 1)
  m12 := A.dot (row m 1) (row n.T 2)
  m20 := A.dot (row m 2) (row n.T 0)
  m21 := A.dot (row m 2) (row n.T 1)
  m22 := A.dot (row m 2) (row n.T 2)

/-- Sum of vectors. -/
def addVec (A : Arith) (v w : Vec3) : Vec3 := ⟨A.add v.x w.x, A.add v.y w.y, A.add v.z w.z⟩

/-- `T * point` (`Eigen::Transform`). -/
def app (A : Arith) (T : Iso) (x : Vec3) : Vec3 := A.addVec (A.mulVec T.R x) T.t

/-- Product of transforms (`Eigen::Transform::operator*`). -/
def mulIso (A : Arith) (S T : Iso) : Iso := ⟨A.mulMat S.R T.R, A.app S T.t⟩

/-- `Joint::T_joint(q)` (`joint.cc:127-144`); `Eigen::AngleAxisd::toRotationMatrix` computes the entry of
the axis itself as `(1 - cos) + cos`. -/
def Tjoint (A : Arith) (t : JType) (q : ℝ) : Iso :=
  match t with
  | .rx => ⟨⟨A.add (A.sub 1 (A.cos q)) (A.cos q), 0, 0, 0, A.cos q, -A.sin q, 0, A.sin q, A.cos q⟩, 0⟩
  | .ry => ⟨⟨A.cos q, 0, A.sin q, 0, A.add (A.sub 1 (A.cos q)) (A.cos q), 0, -A.sin q, 0, A.cos q⟩, 0⟩
  | .rz => ⟨⟨A.cos q, -A.sin q, 0, A.sin q, A.cos q, 0, 0, 0, A.add (A.sub 1 (A.cos q)) (A.cos q)⟩, 0⟩
  | .px => ⟨1, ⟨q, 0, 0⟩⟩
  | .py => ⟨1, ⟨0, q, 0⟩⟩
  | .pz => ⟨1, ⟨0, 0, q⟩⟩
  | .undefined => 1

end Arith

namespace Body
variable (A : Arith)

/-- `T_to_parent(i, q)` (`articulated_body.cc:190-194`), and what `T_to_parent(i)` stores
(`articulated_body.cc:178-189`). -/
def roundTpAt (b : Body) (i : ℕ) (x : ℝ) : Iso := A.mulIso (b.rb i).T (A.Tjoint (b.rb i).joint.type x)

/-- The loop of `T_to_world` (`articulated_body.cc:196-212`), all transforms computed anew. -/
def roundTw (b : Body) : ℕ → Iso :=
  fwdLoop b.dof (fun Tw j _ => match b.par j with
    | none => A.mulIso b.T0 (b.roundTpAt A j (b.q.getD j 0))
    | some p => A.mulIso (Tw p) (b.roundTpAt A j (b.q.getD j 0))) (fun _ => 1)

/-- `Position(ab, link, offset)` (`forward_kinematics.cc:16-20`). -/
def roundPosition (b : Body) (link : ℤ) (offset : Vec3) : Out Vec3 :=
  (b.index link).bind fun k => .ok (A.app (b.roundTw A k) offset)

/-- The loop of `Position(ab, q, link, offset)` (`forward_kinematics.cc:26-28`). -/
def roundClimb (b : Body) (q : ℕ → ℝ) : ℕ → Option ℕ → Vec3 → Vec3
  | 0, _, x => x
  | _ + 1, none, x => x
  | k + 1, some i, x => roundClimb b q k (b.par i) (A.app (b.roundTpAt A i (q i)) x)

/-- `Position(ab, q, link, offset)` (`forward_kinematics.cc:22-30`). -/
def roundPositionQ (b : Body) (q : ℕ → ℝ) (link : ℤ) (offset : Vec3) : Out Vec3 :=
  (b.climbStart link).bind fun k => .ok (A.app b.T0 (b.roundClimb A q b.dof k offset))

end Body
end SpatialDyn
