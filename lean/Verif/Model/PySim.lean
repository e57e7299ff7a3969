import Verif.Model.App
import Verif.Model.PyOpspace

/-!
# The demonstration in Python (`apps/opspace/python/spatial_dyn_opspace.py`)

Redis, the timer and the web page are external: what they deliver in one cycle of the loop is a `SimInput`.
Every exception of the loop is caught (`spatial_dyn_opspace.py:165-166`) and ends it.

The functions of the submodule `spatialdyn.opspace` are looked up when they are called; the names it has are a
parameter, `opspaceNames` are those of the bindings.

Simplifications: the registration for the web page (176-198) and printing are left out; a value of Redis that is
missing or cannot be decoded is `none`.
-/

namespace SpatialDyn

/-- The names bound in `spatialdyn.opspace` (`spatial_dyn.cc:541-618`). -/
def opspaceNames : List Str :=
  ["is_singular", "inverse_dynamics", "inertia", "inertia_inverse", "jacobian_dynamic_inverse",
    "centrifugal_coriolis", "gravity", "external_forces", "friction", "inertia_aba", "inertia_inverse_aba",
    "centrifugal_coriolis_aba", "gravity_aba"].map String.toList

/-- `spatialdyn.opspace.name`: an `AttributeError` if the module has no such function. -/
def pyAttr (names : List Str) (name : String) : Out Unit :=
  if name.toList ∈ names then .ok () else .throws

/-- A value read from Redis and decoded (`spatial_dyn_opspace.py:116-117`). -/
def pyDecode {α : Type} : Option α → Out α
  | none => .throws
  | some a => .ok a

/-- What is read in one cycle (`spatial_dyn_opspace.py:108-117`). -/
structure SimInput where
  kpKvPos : Option (ℝ × ℝ)
  kpKvOri : Option (ℝ × ℝ)
  kpKvJoint : Option (ℝ × ℝ)
  interaction : Option Interaction
  dt : ℝ

/-- A value written to Redis. -/
inductive SimPub (C : Ctl) where
  | vec (key : Str) (v : List ℝ)
  | quat (key : Str) (q : C.Quat)

/-- Keys (`spatial_dyn_opspace.py:34-60`). -/
def simKey (s : String) : Str := "spatial_dyn::".toList ++ s.toList

/-- A vector as a list (`encode_matlab`). -/
def Vec3.coords (v : Vec3) : List ℝ := [v.x, v.y, v.z]

/-- `pd_control` for positions (`spatial_dyn_opspace.py:75`). -/
noncomputable def pyPd3 (x xDes dx : Vec3) (k : ℝ × ℝ) : Vec3 := (-k.1) • (x - xDes) - k.2 • dx

/-- `interaction["key"]`: a missing key is a `KeyError`. -/
def Field.pyGet {α : Type} : Field α → Out α
  | .val a => .ok a
  | _ => .throws

namespace Body
variable (E : Ext) (C : Ctl) (names : List Str)

/-- `compute_external_forces` (`spatial_dyn_opspace.py:200-221`).  A link number that is no `int` is refused by
`position`, a negative one by the conversion of the dictionary to a map with keys `size_t` in the call of
`integrate` (`python/spatial_dyn.cc:478-479`), which is the next call. -/
noncomputable def pyClickForces (b : Body) (robot : Str) (m : Interaction) : Out (FExt × Body) :=
  m.keyObject.pyGet.bind fun key =>
  if key ≠ robot then .ok (noExt, b)
  else
    m.idxLink.pyGet.bind fun idx =>
    m.posMouse.pyGet.bind fun mouse =>
    m.posClick.pyGet.bind fun click =>
    (if -2 ^ 31 ≤ idx ∧ idx < 2 ^ 31 then b.position idx click else .throws).bind fun p =>
    let f := appDragGain • (mouse - p.1)
    if idx < 0 then .throws
    else .ok (fun i => if (i : ℤ) = idx then some (transF p.1 ⟨f, 0⟩) else none, p.2)

/-- Measurements of a cycle (`spatial_dyn_opspace.py:120-130`): the function `near_quaternion` is looked up
before its arguments are computed; `pd_control` of orientations looks up `orientation_error`, `err`. -/
noncomputable def pyMeasure (near : C.Quat → C.Quat → C.Quat) (err : C.Quat → C.Quat → Vec3) (b : Body)
    (cfg : AppCfg C) (xDes : Vec3) (kpos kori : ℝ × ℝ) :
    Out (((ℕ → Motion) × Vec3 × Vec3 × Vec3 × C.Quat) × Body) :=
  (b.jacobian (-1) appOffset).bind fun j =>
  (j.2.position (-1) appOffset).bind fun x =>
  let V := jacVel b.dof j.1 b.dqFun
  let ddx := pyPd3 x.1 xDes V.lin kpos
  (pyAttr names "near_quaternion").bind fun _ =>
  (x.2.orientation (-1)).bind fun o =>
  let quat := near (C.ofRot o.1) cfg.quatDes
  (pyAttr names "orientation_error").bind fun _ =>
  let dw := (-kori.1) • err quat cfg.quatDes - kori.2 • V.ang
  .ok ((j.1, x.1, ddx, dw, quat), o.2)

/-- Torques of a cycle (`spatial_dyn_opspace.py:132-147`): `N` is an array of doubles. -/
noncomputable def pyTorque (b : Body) (cfg : AppCfg C) (kj : ℝ × ℝ) (J : ℕ → Motion) (ddx dw : Vec3) :
    Out ((ℕ → ℝ) × Body) :=
  (pyAttr names "is_singular").bind fun _ =>
  (b.opsIsSingular E (jac6 b.dof J) 0.01).bind fun s =>
  (pyAttr names "inverse_dynamics").bind fun _ =>
  (s.2.pyOpsInverseDynamics E (if s.1 then jac3 b.dof J else jac6 b.dof J) (ddxDw ddx dw)
    (.mat true (DMat.id b.dof)) (svdEps := 0.01)).bind fun t =>
  (if cfg.qDes.length = t.2.2.dof then Out.ok () else .throws).bind fun _ =>
  let ddq := fun k => -kj.1 * (t.2.2.q.getD k 0 - cfg.qDes.getD k 0) - kj.2 * t.2.2.dq.getD k 0
  (t.2.2.pyOpsInverseDynamics E (DMat.id b.dof) ddq t.2.1).bind fun j =>
  let g := j.2.2.gravity
  .ok (fun k => t.1 k + j.1 k + g.1 k, g.2)

end Body

section
variable (E : Ext) (C : Ctl) (names : List Str) (near : C.Quat → C.Quat → C.Quat)
  (err : C.Quat → C.Quat → Vec3)
open Body

/-- One cycle of the loop (`spatial_dyn_opspace.py:104-163`): what is published, and the variables. -/
noncomputable def simCycle (cfg : AppCfg C) (s : App) (i : SimInput) : Out (List (SimPub C) × App) :=
  (pyDecode i.kpKvPos).bind fun kpos =>
  (pyDecode i.kpKvOri).bind fun kori =>
  (pyDecode i.kpKvJoint).bind fun kj =>
  (pyDecode i.interaction).bind fun msg =>
  (s.body.pyMeasure C names near err cfg s.xDes kpos kori).bind fun m =>
  (m.2.pyTorque E C names cfg kj m.1.1 m.1.2.2.1 m.1.2.2.2.1).bind fun t =>
  (t.2.pyClickForces cfg.robot msg).bind fun f =>
  msg.keyDown.pyGet.bind fun key =>
  let xDes := adjustPosition key s.xDes
  (f.2.pyIntegrate E t.1 i.dt f.1).bind fun b' =>
  .ok ([.vec (simKey "control::tau") ((List.range b'.dof).map t.1), .vec (simKey "control::pos") xDes.coords,
      .vec (simKey "sensor::q") b'.q, .vec (simKey "sensor::dq") b'.dq,
      .vec (simKey "trajectory::pos") m.1.2.1.coords, .quat (simKey "trajectory::ori") m.1.2.2.2.2],
    ⟨xDes, b'⟩)

/-- The loop (`spatial_dyn_opspace.py:103-166`), interrupted after the given cycles at the latest: what is
published, how many cycles were completed, and the variables after the last one. -/
noncomputable def simLoop (cfg : AppCfg C) : App → List SimInput → Out (List (SimPub C) × ℕ × App)
  | s, [] => .ok ([], 0, s)
  | s, i :: l => match simCycle E C names near err cfg s i with
    | .throws => .ok ([], 0, s)
    | .ub => .ub
    | .ok r => (simLoop cfg r.2 l).bind fun t => .ok (r.1 ++ t.1, t.2.1 + 1, t.2.2)

/-- The program (`spatial_dyn_opspace.py:84-169`) for the loaded robot `n`; `home` is `Q_HOME`. -/
noncomputable def simMain (n : Named) (home : List ℝ) (l : List SimInput) :
    Out (List (SimPub C) × ℕ × App) :=
  (App.start C n home).bind fun s =>
  (simLoop E C names near err s.1 s.2 l).bind fun r =>
  .ok ([.vec (simKey "sensor::q") s.2.body.q, .vec (simKey "control::kp_kv_pos") [40, 10],
      .vec (simKey "control::kp_kv_ori") [40, 10], .vec (simKey "control::kp_kv_joint") [1, 2]] ++ r.1 ++
      [.vec (simKey "control::tau") (List.replicate r.2.2.body.dof 0)], r.2)

end
end SpatialDyn
