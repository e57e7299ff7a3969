import Verif.Model.Control
import Verif.Model.Document

/-!
# The operational-space demonstration (`apps/opspace/src/main.cc`)

Redis, the timer and the web page are external: what they deliver in one cycle of the loop is an
`AppInput`.  The loop stops at an exception (174-176); this is the outcome `throws` of a cycle.

Simplifications: the static identity matrix of line 149 has the size of the one robot of the program;
publishing (166-172) is the returned `AppOutput`.
-/

namespace SpatialDyn

/-- A field of a JSON object: missing, of a type that does not convert, or a value. -/
inductive Field (α : Type) where
  | missing
  | wrong
  | val (a : α)

/-- `json["key"].get<T>()` on a constant object: the key must exist. -/
def Field.getConst {α : Type} : Field α → Out α
  | .missing => .ub
  | .wrong => .throws
  | .val a => .ok a

/-- `json["key"].get<T>()` on an object that may change: a missing key is inserted as `null`, which
does not convert. -/
def Field.get {α : Type} : Field α → Out α
  | .val a => .ok a
  | _ => .throws

/-- The message of the web page (`main.cc:221-227,159`). -/
structure Interaction where
  keyObject : Field Str
  idxLink : Field ℤ
  posMouse : Field Vec3
  posClick : Field Vec3
  keyDown : Field Str

/-- Conversion of a JSON integer to `size_t`. -/
def sizeT (i : ℤ) : ℕ := (i % 2 ^ 64).toNat

/-- Conversion of a `size_t` to `int`. -/
def toInt32 (k : ℕ) : ℤ := Int.bmod k (2 ^ 32)

/-- `kGainClickDrag` (`main.cc:72`). -/
noncomputable def appDragGain : ℝ := 100

/-- `kGainKeyPress` (`main.cc:70-71`). -/
noncomputable def appKeyGain : ℝ := 0.1 / 1000

/-- `kEeOffset` (`main.cc:64`). -/
noncomputable def appOffset : Vec3 := ⟨0, 0, 0.03⟩

/-- `KEY_MODELS_PREFIX` (`main.cc:37-38`). -/
def appModels : Str := "spatial_dyn::".toList ++ "model::".toList

/-- Add `x` to the coordinate with the given number (`(*pos)(idx) += x`). -/
noncomputable def Vec3.bump (v : Vec3) (idx : Fin 3) (x : ℝ) : Vec3 :=
  match idx with
  | 0 => { v with x := v.x + x }
  | 1 => { v with y := v.y + x }
  | 2 => { v with z := v.z + x }

/-- The `switch` of `AdjustPosition` (`main.cc:245-255`): coordinate and sign. -/
def keyMove (c : Char) : Option (Fin 3 × ℤ) :=
  if c = 'a' then some (0, -1)
  else if c = 'd' then some (0, 1)
  else if c = 'w' then some (1, 1)
  else if c = 's' then some (1, -1)
  else if c = 'e' then some (2, 1)
  else if c = 'q' then some (2, -1)
  else none

/-- `AdjustPosition` (`main.cc:242-257`). -/
noncomputable def adjustPosition (key : Str) (pos : Vec3) : Vec3 :=
  match key with
  | [] => pos
  | c :: _ => match keyMove c with
    | none => pos
    | some (i, s) => pos.bump i (s * appKeyGain)

/-- What does not change while the demonstration runs (`main.cc:95-97,222`): the goals for orientation and
joints, and the key of the robot (`KEY_MODELS_PREFIX + ab.name`). -/
structure AppCfg (C : Ctl) where
  quatDes : C.Quat
  qDes : List ℝ
  robot : Str

/-- Variables of the loop. -/
structure App where
  xDes : Vec3
  body : Body

/-- What is read in one cycle (`main.cc:116-119`). -/
structure AppInput where
  kpKvPos : ℝ × ℝ
  kpKvOri : ℝ × ℝ
  kpKvJoint : ℝ × ℝ
  dt : ℝ
  interaction : Interaction

/-- What is published in one cycle (`main.cc:166-171`). -/
structure AppOutput (C : Ctl) where
  tau : ℕ → ℝ
  xDes : Vec3
  q : List ℝ
  dq : List ℝ
  x : Vec3
  quat : C.Quat

namespace Body
variable (E : Ext) (C : Ctl)

/-- `ComputeExternalForces` (`main.cc:216-240`). -/
noncomputable def clickForces (b : Body) (robot : Str) (m : Interaction) : Out (FExt × Body) :=
  m.keyObject.getConst.bind fun key =>
  if key ≠ robot then .ok (noExt, b)
  else
    m.idxLink.getConst.bind fun idx =>
    m.posMouse.getConst.bind fun mouse =>
    m.posClick.getConst.bind fun click =>
    (b.position (toInt32 (sizeT idx)) click).bind fun p =>
    let f := appDragGain • (mouse - p.1)
    .ok (fun i => if i = sizeT idx then some (transF p.1 ⟨f, 0⟩) else none, p.2)

/-- Measurements of a cycle (`main.cc:122-133`): Jacobian, position, orientation and the two laws. -/
noncomputable def appMeasure (b : Body) (cfg : AppCfg C) (xDes : Vec3) (i : AppInput) :
    Out ((Measured × Vec3 × C.Quat) × Body) :=
  (b.jacobian (-1) appOffset).bind fun j =>
  (j.2.position (-1) appOffset).bind fun x =>
  let V := jacVel b.dof j.1 b.dqFun
  let kp := i.kpKvPos.1
  let kv := i.kpKvPos.2
  let pos := C.pd3 x.1 xDes V.lin (⟨kp, kp, kp⟩, ⟨kv, kv, kv⟩) 0
  (x.2.orientation (-1)).bind fun o =>
  let quat := C.near (C.ofRot o.1) cfg.quatDes
  let ori := C.pdQ quat cfg.quatDes V.ang i.kpKvOri 0
  .ok ((⟨j.1, V.lin, pos, V.ang, ori⟩, x.1, quat), o.2)

/-- Torques of a cycle (`main.cc:135-154`). -/
noncomputable def appTorque (b : Body) (cfg : AppCfg C) (i : AppInput) (m : Measured) :
    Out ((ℕ → ℝ) × Body) :=
  (b.opsIsSingular E (jac6 b.dof m.J) 0).bind fun s =>
  (s.2.opsTask E (if s.1 then jac3 b.dof m.J else jac6 b.dof m.J) (ddxDw m.pos.1 m.ori.1)
    ⟨0, 0, fun _ _ => 0⟩).bind fun t =>
  (t.2.2.jointPd C cfg.qDes i.kpKvJoint).bind fun ddq =>
  (t.2.2.opsTask E (DMat.id b.dof) ddq t.2.1).bind fun j =>
  let g := j.2.2.gravity
  .ok (fun k => t.1 k + j.1 k + g.1 k, g.2)

end Body

section
variable (E : Ext) (C : Ctl)
open Body

/-- One cycle of the loop (`main.cc:111-173`). -/
noncomputable def App.step (cfg : AppCfg C) (s : App) (i : AppInput) : Out (AppOutput C × App) :=
  (s.body.appMeasure C cfg s.xDes i).bind fun m =>
  (m.2.appTorque E C cfg i m.1.1).bind fun t =>
  (t.2.clickForces cfg.robot i.interaction).bind fun f =>
  i.interaction.keyDown.get.bind fun key =>
  let xDes := adjustPosition key s.xDes
  (f.2.discreteIntegrate E t.1 i.dt f.1 (DIntOpts.make true)).bind fun b' =>
  .ok (⟨t.1, xDes, b'.q, b'.dq, m.1.2.1, m.1.2.2⟩, ⟨xDes, b'⟩)

/-- Cycles one after the other. -/
noncomputable def App.run (cfg : AppCfg C) : App → List AppInput → Out (List (AppOutput C) × App)
  | s, [] => .ok ([], s)
  | s, i :: l => (s.step E C cfg i).bind fun r =>
    (App.run cfg r.2 l).bind fun t => .ok (r.1 :: t.1, t.2)

/-- Start of the program (`main.cc:91-97`) with the loaded robot `n`; `home` is `kQHome`. -/
noncomputable def App.start (n : Named) (home : List ℝ) : Out (AppCfg C × App) :=
  (n.body.setQ home).bind fun b =>
  (b.position (-1) appOffset).bind fun x =>
  (x.2.orientation (-1)).bind fun o =>
  .ok (⟨C.ofRot o.1, home, appModels ++ n.name⟩, ⟨x.1, o.2⟩)

end
end SpatialDyn
