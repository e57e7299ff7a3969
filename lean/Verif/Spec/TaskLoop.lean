import Verif.Spec.Loop
import Verif.Spec.Control
import Verif.Lemmas.Smooth
import Verif.Lemmas.Calculus

/-!
# Vocabulary for the operational-space controller in the loop
-/

namespace SpatialDyn
open Body

/-- Near the goal, the orientation error of `ctrl_utils` is smooth in the rotation and, to first order,
`c` times the rotation vector from the goal: for every smooth family of rotations through the goal. -/
def Ctl.Tracks (C : Ctl) (qd : C.Quat) (c : ℝ) : Prop :=
  ∀ (n : ℕ) (f : (Fin n → ℝ) → Mat3) (p : Fin n → ℝ), SmMat f → (∀ p, (f p).IsRot) →
    f p = C.toRot qd →
    (ContDiffAt ℝ 1 (fun p => (C.oriErr (C.ofRot (f p)) qd).x) p ∧
      ContDiffAt ℝ 1 (fun p => (C.oriErr (C.ofRot (f p)) qd).y) p ∧
      ContDiffAt ℝ 1 (fun p => (C.oriErr (C.ofRot (f p)) qd).z) p) ∧
    ∀ v w, HasDerivMat (fun s : ℝ => f (p + s • v)) (skew w * f p) 0 →
      HasDerivVec (fun s : ℝ => C.oriErr (C.ofRot (f (p + s • v))) qd) (c • w) 0

/-- The body, put at a configuration, answers `answer` about the singularity of its full Jacobian at
the configurations around `goal`. -/
def Body.SingularNear (E : Ext) (b : Body) (offset : Vec3) (goal : List ℝ) (answer : Prop) : Prop :=
  ∃ ρ > 0, ∀ q b1 J b2, (∀ i < b.dof, |q.getD i 0 - goal.getD i 0| ≤ ρ) → b.setQ q = .ok b1 →
    b1.jacobian (-1) offset = .ok (J, b2) → (b1.Singular E (jac6 b.dof J) 0.01 ↔ answer)

/-- Arguments of the controller which ask for the position of the tracked point at the configuration
`q_des`, where the point can move in every direction and the full Jacobian counts as singular: the
controller then controls the position and leaves the rest to the posture. -/
structure Body.PointGoal {C : Ctl} (E : Ext) (b : Body) (a : CtlArgs C) : Prop where
  kp : 0 < a.kpKvPos.1.x ∧ 0 < a.kpKvPos.1.y ∧ 0 < a.kpKvPos.1.z
  kv : 0 < a.kpKvPos.2.x ∧ 0 < a.kpKvPos.2.y ∧ 0 < a.kpKvPos.2.z
  joint : 0 < a.kpKvJoint.1 ∧ 0 < a.kpKvJoint.2
  unlimited : a.ddxMax ≤ 0
  frame : a.quatTask = none
  gravity : a.gravityComp = true
  posture : a.qDes.length = b.dof
  reached : ∃ b1 J R, b.setQ a.qDes = .ok b1 ∧ b1.Reads (-1) a.xTask J a.xDes R ∧
    ∀ v, ∃ w, (jacVel b.dof J w).lin = v
  singular : b.SingularNear E a.xTask a.qDes True

/-- The same for the whole pose: the frame of the last link can turn and its point move in every
direction, and the Jacobian does not count as singular. -/
structure Body.PoseGoal {C : Ctl} (E : Ext) (U : C.Quat → Prop) (b : Body) (a : CtlArgs C) : Prop where
  kp : 0 < a.kpKvPos.1.x ∧ 0 < a.kpKvPos.1.y ∧ 0 < a.kpKvPos.1.z
  kv : 0 < a.kpKvPos.2.x ∧ 0 < a.kpKvPos.2.y ∧ 0 < a.kpKvPos.2.z
  ori : 0 < a.kpKvOri.1 ∧ 0 < a.kpKvOri.2
  joint : 0 < a.kpKvJoint.1 ∧ 0 < a.kpKvJoint.2
  unlimited : a.ddxMax ≤ 0 ∧ a.dwMax ≤ 0
  frame : a.quatTask = none
  gravity : a.gravityComp = true
  posture : a.qDes.length = b.dof
  unit : U a.quatDes
  tracks : ∃ c > 0, C.Tracks a.quatDes c
  reached : ∃ b1 J, b.setQ a.qDes = .ok b1 ∧ b1.Reads (-1) a.xTask J a.xDes (C.toRot a.quatDes) ∧
    ∀ V, ∃ w, jacVel b.dof J w = V
  regular : b.SingularNear E a.xTask a.qDes False

end SpatialDyn
