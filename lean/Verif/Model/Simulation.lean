import Verif.Model.Ext

/-!
# Simulation (`src/algorithms/simulation.cc`)

`JOINT_LIMITS` is not defined anywhere in the build; the code between `#ifdef JOINT_LIMITS` and
`#endif` is in `Model/JointLimits`.
-/

namespace SpatialDyn

/-- `IntegrationOptions::Method` (`options.h`). -/
inductive Method where
  | euler | heuns | rk4
  deriving DecidableEq

/-- `IntegrationOptions` (`options.h`). -/
structure IntOpts where
  gravity : Bool
  cc : Bool
  friction : Bool
  jointLimits : Bool
  method : Method
  aba : Bool
  eps : ℝ

/-- `ForwardDynamicsOptions(const IntegrationOptions&)` (`options.cc:22-24`). -/
def IntOpts.fd (o : IntOpts) : FDOpts := ⟨o.gravity, o.cc, o.friction, o.eps⟩

open Classical in
/-- One entry of `ClipQ` (`simulation.cc:83-88`). -/
noncomputable def clipQ1 (j : Joint) (x : ℝ) : ℝ :=
  if j.qMax.Lt (.fin x) then j.qMax.val
  else if (Dbl.fin x).Lt j.qMin then j.qMin.val
  else x

open Classical in
/-- One entry of `ClipDq` (`simulation.cc:101-103`); `x` is the current position. -/
noncomputable def clipDq1 (j : Joint) (x dx : ℝ) : ℝ :=
  if (j.qMax.Le (.fin x) ∧ 0 < dx) ∨ ((Dbl.fin x).Le j.qMin ∧ dx < 0) then 0 else dx

namespace Body
variable (E : Ext)

/-- `f` of `Integrate` (`simulation.cc:120`). -/
noncomputable def accel (b : Body) (tau : ℕ → ℝ) (fext : FExt) (o : IntOpts) : (ℕ → ℝ) × Body :=
  if o.aba then b.forwardDynamicsAba tau fext o.fd else b.fd E tau fext o.fd

/-- The first `n` values of an array as a vector. -/
def toVec (n : ℕ) (f : ℕ → ℝ) : List ℝ := (List.range n).map f

/-- `ab.set_q(FilterQ(ab, q, ..))` then `ab.set_dq(FilterDq(ab, dq, ..))`
(`simulation.cc:79-114` and e.g. 140-141). -/
noncomputable def setState (b : Body) (limits : Bool) (q dq : ℕ → ℝ) : Out Body :=
  (b.setQ (toVec b.dof fun i => if limits then clipQ1 (b.rb i).joint (q i) else q i)).bind fun b =>
    b.setDq (toVec b.dof fun i =>
      if limits then clipDq1 (b.rb i).joint (b.q.getD i 0) (dq i) else dq i)

/-- `ab.dq()` as an array. -/
def dqFun (b : Body) : ℕ → ℝ := fun i => b.dq.getD i 0

/-- `ab.q()` as an array. -/
def qFun (b : Body) : ℕ → ℝ := fun i => b.q.getD i 0

/-- The methods of `Integrate` (`simulation.cc:127-193`), where the acceleration of a stage comes from
`f`.  Each case of the code evaluates `f` on the body in the state it has just set. -/
noncomputable def integrateWith (f : Body → (ℕ → ℝ) × Body) (b : Body) (dt : ℝ) (limits : Bool)
    (m : Method) : Out Body :=
  let q0 := b.qFun
  let d0 := b.dqFun
  let s0 := f b
  let a0 := s0.1
  match m with
  | .euler =>
    s0.2.setState limits (fun i => q0 i + dt * d0 i + 0.5 * dt * dt * a0 i)
      (fun i => d0 i + dt * a0 i)
  | .heuns =>
    (s0.2.setState limits (fun i => q0 i + dt * d0 i) (fun i => d0 i + dt * a0 i)).bind
    fun b =>
      let d1 := b.dqFun
      let s1 := f b
      s1.2.setState limits (fun i => q0 i + 0.5 * dt * (d0 i + d1 i))
        (fun i => d0 i + 0.5 * dt * (a0 i + s1.1 i))
  | .rk4 =>
    (s0.2.setState limits (fun i => q0 i + 0.5 * dt * d0 i)
      (fun i => d0 i + 0.5 * dt * a0 i)).bind
    fun b =>
      let d1 := b.dqFun
      let s1 := f b
      (s1.2.setState limits (fun i => q0 i + 0.5 * dt * d1 i)
        (fun i => d0 i + 0.5 * dt * s1.1 i)).bind
      fun b =>
        let d2 := b.dqFun
        let s2 := f b
        (s2.2.setState limits (fun i => q0 i + dt * d2 i)
          (fun i => d0 i + dt * s2.1 i)).bind
        fun b =>
          let d3 := b.dqFun
          let s3 := f b
          s3.2.setState limits
            (fun i => q0 i + dt / 6 * (d0 i + 2 * d1 i + 2 * d2 i + d3 i))
            (fun i => d0 i + dt / 6 * (a0 i + 2 * s1.1 i + 2 * s2.1 i + s3.1 i))

/-- `Integrate` (`simulation.cc:116-194`). -/
noncomputable def integrate (b : Body) (tau : ℕ → ℝ) (dt : ℝ) (fext : FExt) (o : IntOpts) :
    Out Body :=
  b.integrateWith (fun b => b.accel E tau fext o) dt o.jointLimits o.method

end Body
end SpatialDyn
