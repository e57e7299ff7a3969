import Verif.Model.Simulation

/-!
# Discrete (variational) dynamics (`src/algorithms/discrete_dynamics.cc`)
-/

namespace SpatialDyn
namespace Body
variable (E : Ext)

/-- The refresh of `q_prev` (`discrete_dynamics.cc:33-38`). -/
noncomputable def refreshPrev (b : Body) (dt : ℝ) : Body :=
  open Classical in
  if b.c.drnea.qPrevValid = false ∨ b.c.drnea.dt ≠ dt then
    { b with c := { b.c with drnea := { b.c.drnea with
      qPrev := fun i => b.qFun i - dt * b.dqFun i, dt := dt, qPrevValid := true
      prevDone := false } } }
  else b

/-- Discrete momentum of body `i` over a displacement `T`
(`discrete_dynamics.cc:55-58,75-78`); loads are not included. -/
noncomputable def momentum (b : Body) (dt : ℝ) (i : ℕ) (T : Iso) : Force :=
  E.dlogT T ((b.rb i).inertia.app ((1 / dt) • E.log T))

/-- First forward pass (`discrete_dynamics.cc:42-60`), on `(T_to_prev[i], p_prev[i])`. -/
noncomputable def prevStep (b : Body) (dt : ℝ) (qPrev : ℕ → ℝ) (Tp : ℕ → Iso)
    (arr : ℕ → Iso × Force) (i : ℕ) (_ : Iso × Force) : Iso × Force :=
  let T := match b.par i with
    | none => (b.TpAt i (qPrev i)).inv * Tp i
    | some p => (b.TpAt i (qPrev i)).inv * (arr p).1 * Tp i
  (T, b.momentum E dt i T)

/-- State after the first pass. -/
noncomputable def refreshMomentum (b : Body) (dt : ℝ) : Body :=
  if b.c.drnea.prevDone then b
  else
    let r := fwdLoop b.dof (b.prevStep E dt b.c.drnea.qPrev b.viewTp)
      (fun i => (b.c.drnea.TToPrev i, b.c.drnea.pPrev i))
    let b := b.touch (decide (0 < b.dof)) false
    { b with c := { b.c with drnea := { b.c.drnea with
      TToPrev := fun i => (r i).1, pPrev := fun i => (r i).2, prevDone := true } } }

/-- Second forward pass (`discrete_dynamics.cc:63-85`), on `(T_from_next[i], p[i])`. -/
noncomputable def nextStep (b : Body) (dt : ℝ) (qNext : ℕ → ℝ) (Tp : ℕ → Iso)
    (arr : ℕ → Iso × Force) (i : ℕ) (_ : Iso × Force) : Iso × Force :=
  let T := match b.par i with
    | none => (Tp i).inv * b.TpAt i (qNext i)
    | some p => (Tp i).inv * (arr p).1 * b.TpAt i (qNext i)
  (T, b.momentum E dt i T)

/-- Impulse of body `i` (`discrete_dynamics.cc:81-84`). -/
noncomputable def impulse (σ : Sys) (d : DrneaCache) (fext : FExt) (dt : ℝ) (i : ℕ) : Force :=
  let x := d.p i - (d.TToPrev i).inv.actF (d.pPrev i)
  match fext i with
  | none => x
  | some f => x - dt • (σ.Tw i).inv.actF f

/-- `discrete::InverseDynamics` (`discrete_dynamics.cc:25-104`). -/
noncomputable def discreteID (b : Body) (qNext : ℕ → ℝ) (dt : ℝ) (fext : FExt) (gravity : Bool) :
    (ℕ → ℝ) × Body :=
  let b := (b.refreshPrev dt).refreshMomentum E dt
  let r := fwdLoop b.dof (b.nextStep E dt qNext b.viewTp)
    (fun i => (b.c.drnea.TFromNext i, b.c.drnea.p i))
  let d := { b.c.drnea with TFromNext := fun i => (r i).1, p := fun i => (r i).2 }
  let σ := b.view
  let w := σ.backward (fun i => impulse σ d fext dt i) (fun _ => 0)
  let b := b.touch (decide (0 < b.dof)) (b.hasExt fext)
  let b : Body := { b with c := { b.c with drnea := { d with dp := w.1 } } }
  if gravity && decide (0 < b.dof) then
    let G := b.gravity
    (fun i => w.2 i + dt * G.1 i, G.2)
  else (w.2, b)

/-- `discrete::IntegrationOptions` (`options.h`). -/
structure _root_.SpatialDyn.DIntOpts where
  gravity : Bool
  epsV : ℝ
  maxIter : ℕ

open Classical in
/-- The root-finding loop of `discrete::Integrate` (`discrete_dynamics.cc:190-195`). -/
noncomputable def discreteLoop (tau : ℕ → ℝ) (dt : ℝ) (fext : FExt) (o : DIntOpts) :
    ℕ → (ℕ → ℝ) × Body → (ℕ → ℝ) × Body
  | 0, s => s
  | k + 1, s =>
    let r := s.2.discreteID E s.1 dt fext o.gravity
    let err := fun i => r.1 i - dt * tau i
    if Real.sqrt (∑ i ∈ Finset.range s.2.dof, err i ^ 2) < o.epsV then (s.1, r.2)
    else
      let A := r.2.inertiaInverse
      let x := E.solve s.2.dof A.1 err
      discreteLoop tau dt fext o k (fun i => s.1 i - dt * x i, A.2)

/-- `discrete::Integrate` (`discrete_dynamics.cc:180-207`).  The options convert to
`ForwardDynamicsOptions` with gravity copied and the rest at its default (`options.cc:26-27`). -/
noncomputable def discreteIntegrate (b : Body) (tau : ℕ → ℝ) (dt : ℝ) (fext : FExt)
    (o : DIntOpts) : Out Body :=
  let q := b.qFun
  let a := b.fd E tau fext ⟨o.gravity, true, false, 0.01⟩
  let s := discreteLoop E tau dt fext o o.maxIter
    (fun i => q i + dt * b.dqFun i + dt * dt * a.1 i, a.2)
  (s.2.setQ (toVec b.dof s.1)).bind fun b1 =>
    (b1.setDq (toVec b.dof fun i => (s.1 i - b1.c.drnea.qPrev i) / (2 * dt))).bind fun b2 =>
      .ok { b2 with c := { b2.c with drnea := { b2.c.drnea with
        qPrev := q, qPrevValid := true, prevDone := true
        TFromNext := b2.c.drnea.TToPrev, TToPrev := b2.c.drnea.TFromNext
        p := b2.c.drnea.pPrev, pPrev := b2.c.drnea.p } } }

end Body
end SpatialDyn
