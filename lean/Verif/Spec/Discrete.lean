import Verif.Spec.Mechanics

/-!
# Discrete mechanics of a tree of rigid bodies

The discrete Euler–Lagrange equations (D'Alembert–Pontryagin form) between three consecutive
configurations, and the previous configuration a history of calls has fixed.
-/

namespace SpatialDyn
namespace Body

/-- Displacement of link `k`, in its own frame, when the joints go from `u` to `w`. -/
noncomputable def disp (b : Body) (u w : ℕ → ℝ) (k : ℕ) : Iso := (b.twAt u k).inv * b.twAt w k

/-- Discrete momentum of link `k` over a displacement `T` taking time `dt`, `M` being its momentum as
a function of its velocity. -/
noncomputable def discMom (E : Ext) (M : ℕ → Motion → Force) (dt : ℝ) (k : ℕ) (T : Iso) : Force :=
  E.dlogT T (M k ((1 / dt) • E.log T))

/-- Generalised impulse that takes the body from `qp` through its current position to `qn` in two
steps of length `dt`, without gravity: the change of discrete momentum of every link, less the
impulse of the external force on it (given in world coordinates), projected on the joints. -/
noncomputable def discreteSpec (E : Ext) (b : Body) (M : ℕ → Motion → Force) (dt : ℝ)
    (qp qn : ℕ → ℝ) (fext : FExt) (i : ℕ) : ℝ :=
  b.fresh.genForce (fun k =>
    (b.twAt b.pos k).actF (discMom E M dt k (b.disp b.pos qn k) -
      (b.disp qp b.pos k).inv.actF (discMom E M dt k (b.disp qp b.pos k))) -
    dt • (fext k).getD 0) i

/-- A previous configuration with the step length it belongs to, or nothing. -/
abbrev Prev := Option (ℝ × (ℕ → ℝ))

open Classical in
/-- Previous configuration for a step of length `dt`: the recorded one if it belongs to that step
length, otherwise the current position less one step at the current rates. -/
noncomputable def before (b : Body) (p : Prev) (dt : ℝ) : ℕ → ℝ :=
  match p with
  | some (t, qp) => if t = dt then qp else fun i => b.pos i - dt * b.vel i
  | none => fun i => b.pos i - dt * b.vel i

/-- Defect of the candidate `x` for the next position: what `discrete::InverseDynamics` returns for
it, less the impulse of the applied torques. -/
noncomputable def defect (E : Ext) (b : Body) (tau : ℕ → ℝ) (dt : ℝ) (fext : FExt) (grav : Bool)
    (x : ℕ → ℝ) (i : ℕ) : ℝ :=
  (b.discreteID E x dt fext grav).1 i - dt * tau i

/-- Candidates for the next position: first a step with the forward-dynamics acceleration, then
corrections by the joint-space inertia. -/
noncomputable def candidate (E : Ext) (b : Body) (tau : ℕ → ℝ) (dt : ℝ) (fext : FExt)
    (grav : Bool) : ℕ → ℕ → ℝ
  | 0 => fun i =>
    b.pos i + dt * b.vel i + dt * dt * (b.fd E tau fext ⟨grav, true, false, 0.01⟩).1 i
  | k + 1 => fun i => candidate E b tau dt fext grav k i -
    dt * E.solve b.dof b.inertiaInverse.1
      (b.defect E tau dt fext grav (candidate E b tau dt fext grav k)) i

/-- The defect of a candidate is within the tolerance. -/
def Accepts (E : Ext) (b : Body) (tau : ℕ → ℝ) (dt : ℝ) (fext : FExt) (o : DIntOpts)
    (x : ℕ → ℝ) : Prop :=
  Real.sqrt (∑ i ∈ Finset.range b.dof, b.defect E tau dt fext o.gravity x i ^ 2) < o.epsV

/-- The root finding succeeds: one of the candidates tried is within the tolerance. -/
def Converges (E : Ext) (b : Body) (tau : ℕ → ℝ) (dt : ℝ) (fext : FExt) (o : DIntOpts) : Prop :=
  ∃ k < o.maxIter, b.Accepts E tau dt fext o (b.candidate E tau dt fext o.gravity k)

end Body

open Body

open Classical in
/-- Previous configuration fixed by a call: a discrete step records the position before the step,
discrete inverse dynamics the one it used, a change of state forgets it. -/
noncomputable def Op.prev (b b' : Body) (p : Prev) : Op → Prev
  | .query (.discreteInverseDynamics _ dt _ _) => some (dt, b.before p dt)
  | .discreteIntegrate _ dt _ _ => some (dt, b.pos)
  | _ => if b'.q = b.q ∧ b'.dq = b.dq then p else none

/-- Calls after which the previous configuration is determined by the history: a discrete step must
have converged, a continuous one must have moved the body. -/
def Op.Tracked (E : Ext) (b b' : Body) : Op → Prop
  | .integrate .. => b'.q ≠ b.q ∨ b'.dq ≠ b.dq
  | .discreteIntegrate tau dt fext o => b.Converges E tau dt fext o
  | _ => True

/-- Bodies reachable by allowed calls, with the previous configuration their history fixes. -/
inductive DReach (E : Ext) : Body → Bool → Prev → Prop
  | init (c : Cache) : DReach E (Body.init c) false none
  | step {b b' : Body} {d : Bool} {p : Prev} (op : Op) : DReach E b d p → op.Safe b d →
      op.exec E b = some b' → op.Tracked E b b' → DReach E b' (op.dirty b b' d) (op.prev b b' p)

theorem DReach.reach {E : Ext} {b : Body} {d : Bool} {p : Prev} (h : DReach E b d p) :
    Reach E b d := by
  induction h with
  | init c => exact .init c
  | step op _ ho hs _ ih => exact .step op ih ho hs

end SpatialDyn
