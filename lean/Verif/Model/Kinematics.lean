import Verif.Model.Body

/-!
# Forward kinematics (`src/algorithms/forward_kinematics.cc`)

Matrices are arrays of columns: `Matrix6Xd` is `ℕ → Motion`.  Orientations are returned by the C++
as quaternions; the model returns the rotation matrix they are built from
(`Eigen::Quaterniond(Matrix3d)` is not modelled).
-/

namespace SpatialDyn
namespace Body

/-- `Position(ab, link, offset)` (`forward_kinematics.cc:16-20`). -/
noncomputable def position (b : Body) (link : ℤ) (offset : Vec3) : Out (Vec3 × Body) :=
  (b.index link).bind fun k => .ok ((b.viewTw k).app offset, b.touchTw)

/-- The loop `for (int i = link; i != -1; i = id_parent)` of the `q` overloads: `f` is applied to the
transforms from the link towards the root.  `fuel` bounds the number of iterations; a tree built by
`AddRigidBody` never needs more than `dof()`. -/
noncomputable def climb {α : Type*} (b : Body) (q : ℕ → ℝ) (f : Iso → α → α) :
    ℕ → Option ℕ → α → α
  | 0, _, x => x
  | _ + 1, none, x => x
  | k + 1, some i, x => climb b q f k (b.par i) (f (b.TpAt i (q i)) x)

/-- Start of the loop `for (int i = link; i != -1; …)` after `if (link < 0) link += dof()`
(`forward_kinematics.cc:24-26,39-41`): the value -1 ends the loop before any access. -/
def climbStart (b : Body) (link : ℤ) : Out (Option ℕ) :=
  if b.resolve link = -1 then .ok none else (b.index link).bind fun k => .ok (some k)

/-- `Position(ab, q, link, offset)` (`forward_kinematics.cc:22-30`). -/
noncomputable def positionQ (b : Body) (q : ℕ → ℝ) (link : ℤ) (offset : Vec3) : Out Vec3 :=
  (b.climbStart link).bind fun k =>
    .ok (b.T0.app (b.climb q (fun T p => T.app p) b.dof k offset))

/-- `Orientation(ab, link)` (`forward_kinematics.cc:32-35`). -/
noncomputable def orientation (b : Body) (link : ℤ) : Out (Mat3 × Body) :=
  (b.index link).bind fun k => .ok ((b.viewTw k).R, b.touchTw)

/-- `Orientation(ab, q, link)` (`forward_kinematics.cc:37-45`). -/
noncomputable def orientationQ (b : Body) (q : ℕ → ℝ) (link : ℤ) : Out Mat3 :=
  (b.climbStart link).bind fun k =>
    .ok (b.T0.R * b.climb q (fun T R => T.R * R) b.dof k 1)

/-- `CartesianPose(ab, link, offset)` (`forward_kinematics.cc:47-50`). -/
noncomputable def cartesianPose (b : Body) (link : ℤ) (offset : Vec3) : Out (Iso × Body) :=
  (b.index link).bind fun k => .ok (b.viewTw k * ⟨1, offset⟩, b.touchTw)

/-- `T_to_world(i, q)` (`articulated_body.cc:213-222`).  The local `Eigen::Isometry3d T` is never
initialised; `junk` is the value it happens to hold. -/
noncomputable def tToWorldQ (b : Body) (junk : Iso) (q : ℕ → ℝ) (i : ℤ) : Out Iso :=
  (b.index i).bind fun k =>
    .ok (b.T0 * b.climb q (fun T X => T * X) b.dof (some k) junk)

/-- `CartesianPose(ab, q, link, offset)` (`forward_kinematics.cc:52-55`). -/
noncomputable def cartesianPoseQ (b : Body) (junk : Iso) (q : ℕ → ℝ) (link : ℤ) (offset : Vec3) :
    Out Iso :=
  (b.tToWorldQ junk q link).bind fun T => .ok (T * ⟨1, offset⟩)

/-- `T_to_parent(i, q)` (`articulated_body.cc:190-194`). -/
noncomputable def tToParentQ (b : Body) (i : ℤ) (x : ℝ) : Out Iso :=
  (b.index i).bind fun k => .ok (b.TpAt k x)

/-- `T_from_parent(i)` (`articulated_body.h:317`). -/
noncomputable def tFromParent (b : Body) (i : ℤ) : Out (Iso × Body) :=
  (b.tToParent i).bind fun r => .ok (r.1.inv, r.2)

/-- `T_from_world(i)` (`articulated_body.h:378`). -/
noncomputable def tFromWorld (b : Body) (i : ℤ) : Out (Iso × Body) :=
  (b.tToWorld i).bind fun r => .ok (r.1.inv, r.2)

/-- The column loop of `Jacobian` (`forward_kinematics.cc:68-75`): zero matrix, then one column per
ancestor. -/
noncomputable def jacLoop (b : Body) (Tw : ℕ → Iso) (ancs : List ℕ) (p : Vec3) : ℕ → Motion :=
  ancs.foldl (fun J i => Function.update J i
    ((⟨(Tw i).R, (Tw i).t - p⟩ : Iso).actM (b.rb i).joint.subspace)) (fun _ => 0)

open Classical in
/-- `Jacobian(ab, link, offset)` (`forward_kinematics.cc:57-83`). -/
noncomputable def jacobian (b : Body) (link : ℤ) (offset : Vec3) : Out ((ℕ → Motion) × Body) :=
  (b.index link).bind fun k =>
    if b.c.jacDone = true ∧ b.c.jacLink = k ∧ b.c.jacOffset = offset then .ok (b.c.J, b)
    else
      let Tw := b.viewTw
      let J := b.jacLoop Tw (b.anc.getD k []) ((Tw k).app offset)
      let b := b.touchTw
      .ok (J, { b with c := { b.c with
        jacDone := true, jacLink := k, jacOffset := offset, J := J } })

/-- Append the transform of the next ancestor (first loop of `Jacobian(ab, q, link, offset)`,
`forward_kinematics.cc:89-96`). -/
noncomputable def jacQStep (b : Body) (q : ℕ → ℝ) (Ts : List Iso) (i : ℕ) : List Iso :=
  Ts ++ [match Ts.getLast? with
    | none => b.T0 * b.TpAt i (q i)
    | some T => T * b.TpAt i (q i)]

/-- `Jacobian(ab, q, link, offset)` (`forward_kinematics.cc:85-111`): the transforms of the ancestors
(first loop), then the columns. -/
noncomputable def jacobianQ (b : Body) (q : ℕ → ℝ) (link : ℤ) (offset : Vec3) : Out (ℕ → Motion) :=
  (b.index link).bind fun k =>
    let ancs := b.anc.getD k []
    let Ts : List Iso := ancs.foldl (b.jacQStep q) []
    match Ts.getLast? with
    | none => .ub
    | some Tn =>
      let p := Tn.app offset
      .ok ((ancs.zip Ts).foldl (fun J iT => Function.update J iT.1
        ((⟨iT.2.R, iT.2.t - p⟩ : Iso).actM (b.rb iT.1).joint.subspace)) (fun _ => 0))

/-- `LinearJacobian` (`forward_kinematics.cc:113-116`). -/
noncomputable def linearJacobian (b : Body) (link : ℤ) (offset : Vec3) :
    Out ((ℕ → Vec3) × Body) :=
  (b.jacobian link offset).bind fun r => .ok (fun i => (r.1 i).lin, r.2)

/-- `AngularJacobian` (`forward_kinematics.cc:123-126`): reuses whatever offset is stored in the
cache, which may never have been written. -/
noncomputable def angularJacobian (b : Body) (link : ℤ) : Out ((ℕ → Vec3) × Body) :=
  (b.jacobian link b.c.jacOffset).bind fun r => .ok (fun i => (r.1 i).ang, r.2)

/-- `AngularJacobian(ab, q, link)` (`forward_kinematics.cc:128-131`). -/
noncomputable def angularJacobianQ (b : Body) (q : ℕ → ℝ) (link : ℤ) : Out (ℕ → Vec3) :=
  (b.jacobianQ q link 0).bind fun J => .ok fun i => (J i).ang

/-- Write `H(i,j,:)` and `H(j,i,:)` (`forward_kinematics.cc:157-158`). -/
def hessSet (H : ℕ → ℕ → Motion) (i j : ℕ) (m : Motion) : ℕ → ℕ → Motion :=
  fun a b => if (a = i ∧ b = j) ∨ (a = j ∧ b = i) then m else H a b

/-- The double loop of `Hessian` (`forward_kinematics.cc:144-160`) over the ancestors from the
root. -/
noncomputable def hessLoop (b : Body) (Tw : ℕ → Iso) (J : ℕ → Motion) :
    List ℕ → (ℕ → ℕ → Motion) → ℕ → ℕ → Motion
  | [], H => H
  | i :: rest, H =>
    let H := if (b.rb i).joint.type.isPrismatic then H
      else
        let a := (Tw i).R.mulVec (b.rb i).joint.subspace.ang
        (i :: rest).foldl (fun H j => hessSet H i j ⟨a.cross (J j).lin, a.cross (J j).ang⟩) H
    hessLoop b Tw J rest H

/-- `Hessian(ab, link, offset)` (`forward_kinematics.cc:133-163`). -/
noncomputable def hessian (b : Body) (link : ℤ) (offset : Vec3) :
    Out ((ℕ → ℕ → Motion) × Body) :=
  (b.index link).bind fun k =>
    (b.jacobian k offset).bind fun r =>
      .ok (r.2.hessLoop r.2.viewTw r.1 (r.2.anc.getD k []) (fun _ _ => 0), r.2.touchTw)

end Body
end SpatialDyn
