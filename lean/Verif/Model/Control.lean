import Verif.Model.Store
import Verif.Model.Options

/-!
# Controllers

`ComputeOpspaceControl` (`src/python/spatial_dyn.cc:33-136`), its Python front end
(`spatialdyn/opspace_control.py`), `spatialdyn/joint_space_control.py` and `InverseKinematics`
(`src/algorithms/inverse_kinematics.cc`).

The control laws (`ctrl_utils::PdControl`, `ctrl_utils::NearQuaternion`) and Eigen's quaternions are
external; they enter as the fields of `Ctl`.
-/

namespace SpatialDyn

/-- Quaternions and control laws of external libraries.

* `ofRot`: `Eigen::Quaterniond(Matrix3d)`; `ofXyzw`: `Eigen::Quaterniond(w, x, y, z)`;
  `toRot`: `matrix()`; `mul`, `inv`: product and inverse;
* `near`: `ctrl_utils::NearQuaternion(quat, quat_reference)`;
* `pd3`, `pdQ`, `pdN`: `ctrl_utils::PdControl(x, x_des, dx, kp_kv, ddx_max, &x_err)` on positions
  (gains per axis), on quaternions and on vectors of the given size: acceleration and error. -/
structure Ctl where
  Quat : Type
  ofRot : Mat3 → Quat
  ofXyzw : ℝ → ℝ → ℝ → ℝ → Quat
  toRot : Quat → Mat3
  mul : Quat → Quat → Quat
  inv : Quat → Quat
  near : Quat → Quat → Quat
  pd3 : Vec3 → Vec3 → Vec3 → Vec3 × Vec3 → ℝ → Vec3 × Vec3
  pdQ : Quat → Quat → Vec3 → ℝ × ℝ → ℝ → Vec3 × Vec3
  pdN : (n : ℕ) → (Fin n → ℝ) → (Fin n → ℝ) → (Fin n → ℝ) → ℝ × ℝ → ℝ → (Fin n → ℝ) × (Fin n → ℝ)

/-- The `6 × n` matrix with the given columns. -/
def jac6 (n : ℕ) (J : ℕ → Motion) : DMat := ⟨6, n, fun i j => (J j).entry i⟩

/-- Its upper three rows (`J.topRows<3>()`). -/
def jac3 (n : ℕ) (J : ℕ → Motion) : DMat := ⟨3, n, fun i j => (J j).entry i⟩

/-- `J * dq`. -/
noncomputable def jacVel (n : ℕ) (J : ℕ → Motion) (dq : ℕ → ℝ) : Motion :=
  ∑ j ∈ Finset.range n, dq j • J j

/-- A vector of dynamic size as an array. -/
def padFin {n : ℕ} (v : Fin n → ℝ) (i : ℕ) : ℝ := if h : i < n then v ⟨i, h⟩ else 0

open Classical in
/-- `IsConverged` (`spatial_dyn.cc:44-47`). -/
noncomputable def isConverged (threshold : ℝ) (err : Vec3) : Bool :=
  if threshold < 0 then true else decide (err.dot err < threshold * threshold)

/-- The status masks (`spatial_dyn.cc:35-40`). -/
def maskX : ℕ := 1 <<< 0
def maskDx : ℕ := 1 <<< 1
def maskOri : ℕ := 1 <<< 2
def maskW : ℕ := 1 <<< 3
def maskSingular6 : ℕ := 1 <<< 4
def maskSingular3 : ℕ := 1 <<< 5

/-- `if (c) status |= mask;` -/
def orMask (c : Bool) (mask status : ℕ) : ℕ := if c then status ||| mask else status

/-- Arguments of `ComputeOpspaceControl` (`spatial_dyn.cc:49-58`). -/
structure CtlArgs (C : Ctl) where
  xDes : Vec3
  quatDes : C.Quat
  qDes : List ℝ
  kpKvPos : Vec3 × Vec3
  kpKvOri : ℝ × ℝ
  kpKvJoint : ℝ × ℝ
  xTask : Vec3
  quatTask : Option C.Quat
  ddxMax : ℝ
  dwMax : ℝ
  xThr : ℝ
  dxThr : ℝ
  oriThr : ℝ
  wThr : ℝ
  gravityComp : Bool
  dt : ℝ

/-- `J_v = R * J_v; J_w = R * J_w;` (`spatial_dyn.cc:63-68`). -/
def rotJac (C : Ctl) (q : Option C.Quat) (J : ℕ → Motion) : ℕ → Motion :=
  match q with
  | none => J
  | some q => fun j => ⟨(C.toRot q).mulVec (J j).lin, (C.toRot q).mulVec (J j).ang⟩

/-- What the controller measures (`spatial_dyn.cc:59-92`): Jacobian, linear velocity and position
control, angular velocity and orientation control. -/
structure Measured where
  J : ℕ → Motion
  dx : Vec3
  pos : Vec3 × Vec3
  w : Vec3
  ori : Vec3 × Vec3

/-- The list as a vector of size `n`. -/
def vecOf (n : ℕ) (l : List ℝ) : Fin n → ℝ := fun i => l.getD i 0

/-- No external forces. -/
def noExt : FExt := fun _ => none

/-- The `ddx_dw` vector (`spatial_dyn.cc:105-106`); its first three entries are `ddx`. -/
def ddxDw (ddx dw : Vec3) : ℕ → ℝ := (⟨ddx, dw⟩ : Motion).entry

namespace Body
variable (E : Ext) (C : Ctl)

/-- First part of `ComputeOpspaceControl` (`spatial_dyn.cc:59-92`). -/
noncomputable def ctlMeasure (b : Body) (a : CtlArgs C) : Out (Measured × Body) :=
  (b.jacobian (-1) a.xTask).bind fun j =>
  let J := rotJac C a.quatTask j.1
  (j.2.position (-1) a.xTask).bind fun x =>
  let V := jacVel b.dof J b.dqFun
  let pos := C.pd3 x.1 a.xDes V.lin a.kpKvPos a.ddxMax
  (x.2.orientation (-1)).bind fun o =>
  let quat := C.ofRot o.1
  let quat := match a.quatTask with
    | none => quat
    | some t => C.mul t quat
  let quat := C.near quat a.quatDes
  let ori := C.pdQ quat a.quatDes V.ang a.kpKvOri a.dwMax
  .ok (⟨J, V.lin, pos, V.ang, ori⟩, o.2)

/-- `opspace::InverseDynamics(ab, J, ddx, &N)` with default external forces and options
(`opspace_dynamics.h:24-27`, `options.h:168-173`). -/
noncomputable def opsTask (b : Body) (J : DMat) (ddx : ℕ → ℝ) (N : DMat) :
    Out ((ℕ → ℝ) × DMat × Body) :=
  (b.opsInverseDynamics E J ddx (some N) noExt false OpsOpts.make).bind fun r =>
    .ok (r.1, r.2.1.getD N, r.2.2)

/-- Task torques (`spatial_dyn.cc:94-109`): the torques, the nullspace matrix and the two singularity
flags. -/
noncomputable def ctlTask (b : Body) (m : Measured) :
    Out ((ℕ → ℝ) × DMat × (Bool × Bool) × Body) :=
  (b.opsIsSingular E (jac6 b.dof m.J) 0.01).bind fun s6 =>
  if s6.1 then
    (s6.2.opsTask E (jac3 b.dof m.J) (ddxDw m.pos.1 m.ori.1) (DMat.id b.dof)).bind fun t =>
    (t.2.2.opsIsSingular E (jac3 b.dof m.J) 0.01).bind fun s3 =>
    .ok (t.1, t.2.1, (true, s3.1), s3.2)
  else
    (s6.2.opsTask E (jac6 b.dof m.J) (ddxDw m.pos.1 m.ori.1) (DMat.id b.dof)).bind fun t =>
    .ok (t.1, t.2.1, (false, false), t.2.2)

/-- `PdControl(ab.q(), q_des, ab.dq(), gains, 0)` (`spatial_dyn.cc:112-114`,
`inverse_kinematics.cc:81-82`); vectors of different sizes cannot be subtracted. -/
noncomputable def jointPd (b : Body) (qDes : List ℝ) (kpKv : ℝ × ℝ) : Out (ℕ → ℝ) :=
  (Out.need (qDes.length = b.dof)).bind fun _ =>
  .ok (padFin (C.pdN b.dof (vecOf b.dof b.q) (vecOf b.dof qDes) (vecOf b.dof b.dq) kpKv 0).1)

/-- Command torques (`spatial_dyn.cc:94-121`). -/
noncomputable def ctlTorque (b : Body) (a : CtlArgs C) (m : Measured) :
    Out ((ℕ → ℝ) × (Bool × Bool) × Body) :=
  (b.ctlTask E m).bind fun t =>
  (t.2.2.2.jointPd C a.qDes a.kpKvJoint).bind fun ddq =>
  (t.2.2.2.opsTask E (DMat.id b.dof) ddq t.2.1).bind fun j =>
  let tau := fun i => t.1 i + j.1 i
  if a.gravityComp then
    let g := j.2.2.gravity
    .ok (fun i => tau i + g.1 i, t.2.2.1, g.2)
  else .ok (tau, t.2.2.1, j.2.2)

/-- The status word (`spatial_dyn.cc:123-130`). -/
noncomputable def ctlStatus (a : CtlArgs C) (m : Measured) (s : Bool × Bool) : ℕ :=
  orMask s.2 maskSingular3 <| orMask s.1 maskSingular6 <|
  orMask (isConverged a.wThr m.w) maskW <| orMask (isConverged a.oriThr m.ori.2) maskOri <|
  orMask (isConverged a.dxThr m.dx) maskDx <| orMask (isConverged a.xThr m.pos.2) maskX 0

open Classical in
/-- `ComputeOpspaceControl` (`spatial_dyn.cc:49-136`): command torques, status word and the body. -/
noncomputable def opspaceControl (b : Body) (a : CtlArgs C) : Out (((ℕ → ℝ) × ℕ) × Body) :=
  (b.ctlMeasure C a).bind fun m =>
  (m.2.ctlTorque E C a m.1).bind fun t =>
  let status := ctlStatus C a m.1 t.2.1
  if 0 < a.dt then
    (t.2.2.integrate E t.1 a.dt noExt IntOpts.make).bind fun b' => .ok ((t.1, status), b')
  else .ok ((t.1, status), t.2.2)

end Body

/-- An orientation argument of the Python controller (`opspace_control.py:218-258`): a quaternion, an
array of four numbers (x, y, z, w) or a matrix. -/
inductive OriArg (C : Ctl) where
  | quat (q : C.Quat)
  | xyzw (x y z w : ℝ)
  | mat (R : Mat3)

/-- `_parse_opspace_control_task_ori` (`opspace_control.py:218-230`). -/
noncomputable def OriArg.task {C : Ctl} : OriArg C → C.Quat
  | .quat q => C.inv q
  | .xyzw x y z w => C.inv (C.ofXyzw x y z w)
  | .mat R => C.ofRot R.T

/-- `_parse_opspace_control_ori` for a given orientation (`opspace_control.py:248-258`). -/
noncomputable def OriArg.goal {C : Ctl} : OriArg C → C.Quat
  | .quat q => q
  | .xyzw x y z w => C.ofXyzw x y z w
  | .mat R => C.ofRot R

/-- Keyword arguments of the Python `opspace_control` (`opspace_control.py:9-26`).  Gains for the
position are given per axis; a pair stands for the same gains on all axes (119-124). -/
structure PyCtl (C : Ctl) where
  pos : Option Vec3 := none
  ori : Option (OriArg C) := none
  joint : Option (List ℝ) := none
  posGains : Vec3 × Vec3 := (⟨80, 80, 80⟩, ⟨18, 18, 18⟩)
  oriGains : ℝ × ℝ := (80, 18)
  jointGains : ℝ × ℝ := (4, 1)
  taskPos : Option Vec3 := none
  taskOri : Option (OriArg C) := none
  maxPosAcc : Option ℝ := none
  maxOriAcc : Option ℝ := none
  posThreshold : Option (ℝ × ℝ) := none
  oriThreshold : Option (ℝ × ℝ) := none
  gravityComp : Bool := true
  step : Option ℝ := none

namespace Body
variable (E : Ext) (C : Ctl)

/-- `_parse_opspace_control_pos` (`opspace_control.py:233-239`). -/
noncomputable def pyPos (b : Body) (pos : Option Vec3) (xTask : Vec3) : Out (Vec3 × Body) :=
  match pos with
  | some x => .ok (x, b)
  | none => b.position (-1) xTask

/-- `_parse_opspace_control_ori` (`opspace_control.py:242-258`). -/
noncomputable def pyOri (b : Body) (ori : Option (OriArg C)) (quatTask : Option C.Quat) :
    Out (C.Quat × Body) :=
  match ori with
  | some o => .ok (o.goal, b)
  | none => (b.orientation (-1)).bind fun r =>
    .ok (match quatTask with
      | none => C.ofRot r.1
      | some t => C.mul t (C.ofRot r.1), r.2)

/-- Python `opspace_control` (`opspace_control.py:9-133`): a threshold left at `None` is indexed
(131-133), which raises. -/
noncomputable def pyOpspaceControl (b : Body) (k : PyCtl C) : Out (((ℕ → ℝ) × ℕ) × Body) :=
  let xTask := k.taskPos.getD 0
  let quatTask := k.taskOri.map OriArg.task
  (b.pyPos k.pos xTask).bind fun x =>
  (x.2.pyOri C k.ori quatTask).bind fun o =>
  match k.posThreshold, k.oriThreshold with
  | some p, some r =>
    o.2.opspaceControl E C
      { xDes := x.1, quatDes := o.1, qDes := k.joint.getD b.q, kpKvPos := k.posGains
        kpKvOri := k.oriGains, kpKvJoint := k.jointGains, xTask := xTask, quatTask := quatTask
        ddxMax := k.maxPosAcc.getD 0, dwMax := k.maxOriAcc.getD 0
        xThr := p.1, dxThr := p.2, oriThr := r.1, wThr := r.2
        gravityComp := k.gravityComp, dt := k.step.getD 0 }
  | _, _ => .throws

/-- Euclidean norm (`np.linalg.norm`) of a vector. -/
noncomputable def norm2 {n : ℕ} (v : Fin n → ℝ) : ℝ := Real.sqrt (∑ i, v i ^ 2)

open Classical in
/-- `is_converged` of `joint_space_control.py:84-92`. -/
noncomputable def jointConverged {n : ℕ} (thr : Option (ℝ × ℝ)) (err dx : Fin n → ℝ) : Bool :=
  match thr with
  | none => true
  | some t => decide (norm2 err < t.1 ∧ norm2 dx < t.2)

/-- Python `joint_space_control` (`joint_space_control.py:8-81`).  A vector of the wrong size makes
numpy raise (a vector of size one is broadcast by numpy; left out). -/
noncomputable def jointSpaceControl (b : Body) (joint : Option (List ℝ) := none)
    (gains : ℝ × ℝ := (25, 10)) (maxAcc : Option ℝ := none) (thr : Option (ℝ × ℝ) := none)
    (gravityComp : Bool := true) (step : Option ℝ := none) : Out (((ℕ → ℝ) × Bool) × Body) :=
  let qDes := joint.getD b.q
  if qDes.length ≠ b.dof then .throws
  else
    let pd := C.pdN b.dof (vecOf b.dof b.q) (vecOf b.dof qDes) (vecOf b.dof b.dq) gains
      (maxAcc.getD 0)
    let r := b.pyInverseDynamics (padFin pd.1) (gravity := gravityComp)
      (centrifugal_coriolis := false)
    let conv := jointConverged thr pd.2 (vecOf b.dof b.dq)
    match step with
    | none => .ok ((r.1, conv), r.2)
    | some dt => (r.2.pyIntegrate E r.1 dt).bind fun b' => .ok ((r.1, conv), b')

end Body

/-! ## Inverse kinematics -/

/-- Gains (`inverse_kinematics.cc:22-24`). -/
noncomputable def ikGains : ℝ × ℝ := (100, 20)

/-- `kMaxIterations` (`inverse_kinematics.cc:27`). -/
def ikMax : ℕ := 10000

/-- `kTolerancePos`, `kToleranceOri` (`inverse_kinematics.cc:28-29`). -/
noncomputable def ikTol : ℝ := 1e-3

/-- Arguments of `InverseKinematics` besides the body. -/
structure IkGoal (C : Ctl) where
  xDes : Vec3
  quatDes : C.Quat
  link : ℤ := -1
  offset : Vec3 := 0

namespace Body
variable (E : Ext) (C : Ctl)

/-- Measurements of one iteration (`inverse_kinematics.cc:44-61`). -/
noncomputable def ikMeasure (b : Body) (a : IkGoal C) : Out (Measured × Body) :=
  (b.jacobian a.link a.offset).bind fun j =>
  (j.2.position a.link a.offset).bind fun x =>
  let V := jacVel b.dof j.1 b.dqFun
  let pos := C.pd3 x.1 a.xDes V.lin (⟨100, 100, 100⟩, ⟨20, 20, 20⟩) 0
  (x.2.orientation (-1)).bind fun o =>
  let quat := C.near (C.ofRot o.1) a.quatDes
  let ori := C.pdQ quat a.quatDes V.ang ikGains 0
  .ok (⟨j.1, V.lin, pos, V.ang, ori⟩, o.2)

/-- The stopping test (`inverse_kinematics.cc:63-66`). -/
def ikDone (m : Measured) : Prop :=
  m.pos.2.dot m.pos.2 < ikTol * ikTol ∧ m.ori.2.dot m.ori.2 < ikTol * ikTol

/-- Torques of one iteration (`inverse_kinematics.cc:68-83`).  `n` is the size of the static identity
matrix of line 79. -/
noncomputable def ikTorque (b : Body) (qDes : List ℝ) (n : ℕ) (m : Measured) :
    Out ((ℕ → ℝ) × Body) :=
  (b.opsIsSingular E (jac6 b.dof m.J) 0).bind fun s =>
  (s.2.opsTask E (if s.1 then jac3 b.dof m.J else jac6 b.dof m.J) (ddxDw m.pos.1 m.ori.1)
    ⟨0, 0, fun _ _ => 0⟩).bind fun t =>
  (t.2.2.jointPd C qDes ikGains).bind fun ddq =>
  (t.2.2.opsTask E (DMat.id n) ddq t.2.1).bind fun j =>
  .ok (fun i => t.1 i + j.1 i, j.2.2)

open Classical in
/-- The loop (`inverse_kinematics.cc:43-89`) with `k` iterations left.  `s` is the static variable of
line 79: the size it was given when control first reached it, if ever. -/
noncomputable def ikLoop (a : IkGoal C) (qDes : List ℝ) :
    ℕ → Option ℕ → Body → Out (Body × Option ℕ)
  | 0, s, b => .ok (b, s)
  | k + 1, s, b =>
    (b.ikMeasure C a).bind fun m =>
    if ikDone m.1 then .ok (m.2, s)
    else
      (m.2.ikTorque E C qDes (s.getD b.dof) m.1).bind fun t =>
      (t.2.integrate E t.1 (1 / 1000) noExt (IntOpts.make false)).bind fun b' =>
      ikLoop a qDes k (some (s.getD b.dof)) b'

/-- `InverseKinematics` (`inverse_kinematics.cc:35-92`) on a copy of the body: the joint positions and
the static variable afterwards. -/
noncomputable def inverseKinematics (b : Body) (a : IkGoal C) (s : Option ℕ) :
    Out (List ℝ × Option ℕ) :=
  (ikLoop E C a b.q ikMax s { b with inertiaBase := defaultInertiaBase }).bind fun r =>
    .ok (r.1.q, r.2)

end Body
end SpatialDyn
