import Verif.Model.Body

/-!
# Derivatives of inverse dynamics (`src/algorithms/dynamics_derivatives.cc`)

`dv[i]`, `da[i]`, `df[i]` are `6 × dof` matrices, given by their columns.
-/

namespace SpatialDyn

/-- Columns of `dv[i]`, `da[i]`, `df[i]`. -/
structure DCols where
  dv : ℕ → Motion
  da : ℕ → Motion
  df : ℕ → Force

namespace Sys

/-- Body of the forward pass of `InverseDynamicsVelocityDerivative`
(`dynamics_derivatives.cc:130-157`).  The matrices start at zero, so columns above `i` stay zero. -/
noncomputable def dvelStep (σ : Sys) (v : ℕ → Motion) (arr : ℕ → DCols) (i : ℕ) (_ : DCols) :
    DCols :=
  let s := σ.S i
  let I := σ.Itot i
  let dv : ℕ → Motion := fun j => if j = i then s else if j < i then
      (match σ.par i with | none => 0 | some p => (σ.Tp i).inv.actM ((arr p).dv j)) else 0
  let da : ℕ → Motion := fun j => if j ≤ i then
      let x := (dv j).crossM (σ.dq i • s)
      let x := if j = i then x + (v i).crossM s else x
      match σ.par i with | none => x | some p => x + (σ.Tp i).inv.actM ((arr p).da j)
    else 0
  let df : ℕ → Force := fun j => if j ≤ i then
      I.app (da j) + (dv j).crossF (I.app (v i)) + (v i).crossF (I.app (dv j))
    else 0
  ⟨dv, da, df⟩

/-- Backward pass (`dynamics_derivatives.cc:160-172`): rows of `dtau`. -/
noncomputable def dvelBackward (σ : Sys) (df : ℕ → ℕ → Force) : (ℕ → ℕ → Force) × (ℕ → ℕ → ℝ) :=
  bwdLoop (fun a b j => a j + b j) σ.n σ.par (fun i F j => (σ.S i).dot (F j)) (fun _ F => F)
    (fun i F j => (σ.Tp i).actF (F j)) df (fun _ _ => 0)

/-- `InverseDynamicsVelocityDerivative` after the call of `InverseDynamics`, from the velocities
`vel.v` it leaves (`dynamics_derivatives.cc:104-175`). -/
noncomputable def dvel (σ : Sys) (v : ℕ → Motion) : ℕ → ℕ → ℝ :=
  let arr := fwdLoop σ.n (σ.dvelStep v) (fun _ => ⟨fun _ => 0, fun _ => 0, fun _ => 0⟩)
  (σ.dvelBackward fun i => (arr i).df).2

/-- Body of the forward pass of `InverseDynamicsPositionDerivative` for a body without parent
(`dynamics_derivatives.cc:37-76`). -/
noncomputable def dposRoot (σ : Sys) (o : IDOpts) (v : ℕ → Motion) (i : ℕ) : DCols :=
  let s := σ.S i
  let I := σ.Itot i
  let dv : ℕ → Motion := fun _ => 0
  let da : ℕ → Motion := fun j => if j ≤ i then
      let x : Motion := if j = i ∧ o.gravity then -((σ.Tw i).inv.actM σ.g).crossM s else 0
      if o.cc then x + (dv j).crossM (σ.dq i • s) else x
    else 0
  let df : ℕ → Force := fun j => if j ≤ i then
      if o.cc then I.app (da j) + (dv j).crossF (I.app (v i)) + (v i).crossF (I.app (dv j))
      else I.app (da j)
    else 0
  ⟨dv, da, df⟩

end Sys

namespace Body

/-- `InverseDynamics` forced onto its recursive path (`dynamics_derivatives.cc:31-34,121-124`). -/
noncomputable def forcedID (b : Body) (ddq : ℕ → ℝ) (fext : FExt) (o : IDOpts) : Body :=
  let r := ({ b with c := { b.c with crbaDone := false } } : Body).inverseDynamics ddq fext o
  { r.2 with c := { r.2.c with crbaDone := b.c.crbaDone } }

/-- `InverseDynamicsVelocityDerivative` (`dynamics_derivatives.cc:104-175`). -/
noncomputable def velocityDerivative (b : Body) (ddq : ℕ → ℝ) (fext : FExt) (o : IDOpts) :
    (ℕ → ℕ → ℝ) × Body :=
  if !o.cc then (fun _ _ => 0, b)
  else
    let b := b.forcedID ddq fext o
    (b.view.dvel b.c.v, b.touch b.hasChild false)

/-- `InverseDynamicsPositionDerivative` (`dynamics_derivatives.cc:16-102`).  As soon as some body has
a parent, line 60 adds the `6 × dof` matrix `da[parent]` to a column, which is a size mismatch
(`dof ≥ 2` there): undefined behaviour.  Otherwise the backward pass has nothing to propagate.  The
external-force term only changes `rnea.f` (line 79), which is then not read. -/
noncomputable def positionDerivative (b : Body) (ddq : ℕ → ℝ) (fext : FExt) (o : IDOpts) :
    Out ((ℕ → ℕ → ℝ) × Body) :=
  if b.hasChild then .ub
  else
    let b := b.forcedID ddq fext o
    let σ := b.view
    let b' := b.touch false ((o.gravity && b.hasRoot) || b.hasExt fext)
    .ok (fun i j => (σ.S i).dot ((σ.dposRoot o b.c.v i).df j),
      { b' with c := { b'.c with f := fun i => match fext i with
        | none => b'.c.f i
        | some f => b'.c.f i - (σ.S i).crossF ((σ.Tw i).inv.actF f) } })

end Body
end SpatialDyn
