import Verif.Model.Control
import Verif.Spec.Opspace

/-!
# Vocabulary for the controllers
-/

namespace SpatialDyn

/-- Componentwise product. -/
def Vec3.had (a b : Vec3) : Vec3 := ⟨a.x * b.x, a.y * b.y, a.z * b.z⟩

/-- What `ctrl_utils` and Eigen promise about the functions of `Ctl`, for unit quaternions `U`:
the error is the difference to the goal, without a limit the acceleration is
`-kp * error - kv * velocity`, the orientation error does not depend on velocity, gains and limit and
vanishes for equal rotations, and quaternions represent rotations. -/
structure Ctl.Law (C : Ctl) (U : C.Quat → Prop) : Prop where
  pd3_err : ∀ x xd dx g m, (C.pd3 x xd dx g m).2 = x - xd
  pd3_acc : ∀ x xd dx kp kv m, m ≤ 0 →
    (C.pd3 x xd dx (kp, kv) m).1 = -kp.had (x - xd) - kv.had dx
  pdN_err : ∀ n x xd dx g m, (C.pdN n x xd dx g m).2 = x - xd
  pdN_acc : ∀ n x xd dx kp kv m, m ≤ 0 →
    (C.pdN n x xd dx (kp, kv) m).1 = -(kp • (x - xd)) - kv • dx
  pdQ_err : ∀ q qd w g m w' g' m', (C.pdQ q qd w g m).2 = (C.pdQ q qd w' g' m').2
  pdQ_acc : ∀ q qd w kp kv m, m ≤ 0 →
    (C.pdQ q qd w (kp, kv) m).1 = -(kp • (C.pdQ q qd w (kp, kv) m).2) - kv • w
  ori_zero : ∀ q qd w g m, U q → U qd → C.toRot q = C.toRot qd →
    (C.pdQ (C.near q qd) qd w g m).2 = 0
  rot_unit : ∀ R : Mat3, R.IsRot → U (C.ofRot R) ∧ C.toRot (C.ofRot R) = R
  mul_unit : ∀ p q, U p → U q → U (C.mul p q) ∧ C.toRot (C.mul p q) = C.toRot p * C.toRot q
  inv_unit : ∀ q, U q → U (C.inv q) ∧ C.toRot (C.inv q) = (C.toRot q).T
  valid : ∀ q, U q → (C.toRot q).IsRot

/-- The orientation error `ctrl_utils` computes between a quaternion and a goal. -/
def Ctl.oriErr (C : Ctl) (q qd : C.Quat) : Vec3 := (C.pdQ (C.near q qd) qd 0 (0, 0) 0).2

namespace Body

/-- What the body answers about its last link: Jacobian and position of the point at `offset` of the
given link, and orientation of the last link. -/
structure Reads (b : Body) (link : ℤ) (offset : Vec3) (J : ℕ → Motion) (x : Vec3) (R : Mat3) :
    Prop where
  jacobian : ∃ b', b.jacobian link offset = .ok (J, b')
  position : ∃ b', b.position link offset = .ok (x, b')
  orientation : ∃ b', b.orientation (-1) = .ok (R, b')

/-- Answer of `opspace::IsSingular`. -/
def Singular (E : Ext) (b : Body) (J : DMat) (eps : ℝ) : Prop :=
  ∃ b', b.opsIsSingular E J eps = .ok (true, b')

end Body

/-- A velocity as seen in the task frame. -/
def Ctl.turn (C : Ctl) (t : Option C.Quat) (V : Motion) : Motion :=
  match t with
  | none => V
  | some t => ⟨(C.toRot t).mulVec V.lin, (C.toRot t).mulVec V.ang⟩

/-- The orientation the controller compares with its goal. -/
def Ctl.seen (C : Ctl) (t : Option C.Quat) (R : Mat3) : C.Quat :=
  match t with
  | none => C.ofRot R
  | some t => C.mul t (C.ofRot R)

/-- "below the threshold, or no threshold". -/
def Below (thr : ℝ) (v : Vec3) : Prop := thr < 0 ∨ v.dot v < thr ^ 2

end SpatialDyn
