import Verif.Model.Control

/-!
# The example program `apps/opspace/opspace.py`

The robot description, the timer (`ctrlutils.Timer`) and the signal handler are parameters: the
program is modelled for any body, any time step, and any number of cycles before it is interrupted.
-/

namespace SpatialDyn
namespace Body
variable (E : Ext) (C : Ctl)

/-- `EE_OFFSET` (`opspace.py:27`). -/
noncomputable def eeOffset : Vec3 := ⟨0, 0, 0.107⟩

/-- The keyword arguments of the call in the loop (`opspace.py:54-63`, thresholds 29-30). -/
noncomputable def exampleArgs (home : List ℝ) (x : Vec3) (Q : C.Quat) (dt : ℝ) : PyCtl C where
  pos := some x
  ori := some (.quat Q)
  joint := some home
  taskPos := some eeOffset
  posThreshold := some (0.01, 0.01)
  oriThreshold := some (0.01, 0.01)
  step := some dt

/-- The control loop (`opspace.py:49-67`), interrupted by the user after at most `n` cycles: the
values of `converged`, whether the loop ended by itself, and the body.  `converged` is the status word
of `ComputeOpspaceControl`; `if converged` asks whether it is not zero. -/
noncomputable def exampleLoop (k : PyCtl C) : ℕ → Body → Out ((List ℕ × Bool) × Body)
  | 0, b => .ok (([], false), b)
  | n + 1, b => (b.pyOpspaceControl E C k).bind fun r =>
    if r.1.2 ≠ 0 then .ok (([r.1.2], true), r.2)
    else (exampleLoop k n r.2).bind fun s => .ok ((r.1.2 :: s.1.1, s.1.2), s.2)

/-- The program after the robot has been loaded (`opspace.py:40-67`): the goal is 0.2 m beside the
initial position of the tip, the initial orientation and the initial posture. -/
noncomputable def exampleMain (home : List ℝ) (dt : ℝ) (n : ℕ) (b : Body) :
    Out ((List ℕ × Bool) × Body) :=
  (b.setQ home).bind fun b =>
  (b.position (-1) eeOffset).bind fun x =>
  (x.2.orientation (-1)).bind fun R =>
  exampleLoop E C (exampleArgs C home (x.1 + ⟨0, 0.2, 0⟩) (C.ofRot R.1) dt) n R.2

end Body
end SpatialDyn
