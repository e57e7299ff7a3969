import Verif.Model.Spatial
import Verif.Model.Loops
import Mathlib.Data.Real.Sign

/-!
# Joint-space dynamics algorithms

`Sys` is what the algorithms in `src/algorithms/inverse_dynamics.cc` and
`src/algorithms/forward_dynamics.cc` read from an `ArticulatedBody`: number of bodies, parents,
subspaces, inertias, loads, the transforms returned by `T_to_parent(i)` and `T_to_world(i)` at the
current joint positions, the joint velocities and gravity.  The stateful layer (cache flags) is in
`Verif.Model.Body`; here each algorithm takes the scratch arrays it reads and returns the arrays it
writes.  `std::vector`s and `VectorXd`s are functions of the index; only indices below `n` are ever
read.  `T_from_parent(i)` and `T_from_world(i)` are the inverses of `T_to_parent(i)`,
`T_to_world(i)` (`include/spatial_dyn/structs/articulated_body.h:317,378`).
-/

namespace SpatialDyn

/-- Friction coefficients of a joint as read by the dynamics (`joint.h:61-69`). -/
structure Fric where
  coulomb : ℝ
  viscous : ℝ
  stiction : ℝ

/-- View of an articulated body at one configuration (see the header comment). -/
structure Sys where
  /-- `dof()` -/
  n : ℕ
  /-- `rigid_bodies(i).id_parent()`, with a negative id as `none` -/
  par : ℕ → Option ℕ
  /-- `rigid_bodies(i).joint().subspace()` -/
  S : ℕ → Motion
  /-- `rigid_bodies(i).inertia()` -/
  I : ℕ → Inertia
  /-- `inertia_load()`, a `std::map<size_t, SpatialInertiad>` -/
  load : ℕ → Option Inertia
  /-- `T_to_parent(i)` -/
  Tp : ℕ → Iso
  /-- `T_to_world(i)` -/
  Tw : ℕ → Iso
  /-- `dq(i)` -/
  dq : ℕ → ℝ
  /-- `g()`, as a spatial motion whose angular part is zero (`articulated_body.cc:130-135`) -/
  g : Motion
  /-- friction coefficients -/
  fr : ℕ → Fric

/-- External forces, `std::map<size_t, SpatialForced>`; absent keys are `none`. -/
abbrev FExt := ℕ → Option Force

/-- `InverseDynamicsOptions` (`include/spatial_dyn/structs/options.h:38-62`). -/
structure IDOpts where
  gravity : Bool
  cc : Bool
  friction : Bool
  eps : ℝ

/-- Velocity, acceleration and force of one body: entries of `vel.v`, `rnea.a`, `rnea.f`
(`articulated_body_cache.h:31-35,62-66`). -/
structure VAF where
  v : Motion
  a : Motion
  f : Force

namespace Sys

/-- `has_load ? inertia + load : inertia`, repeated in every algorithm
(`inverse_dynamics.cc:45-47,108-110,151-153,229-231`, `forward_dynamics.cc:44-46,155-157`). -/
noncomputable def Itot (σ : Sys) (i : ℕ) : Inertia :=
  match σ.load i with
  | none => σ.I i
  | some L => (σ.I i).add L

/-- Subtraction of the external force on body `i` (`inverse_dynamics.cc:77-79`,
`forward_dynamics.cc:67-69`). -/
noncomputable def subExt (σ : Sys) (fext : FExt) (i : ℕ) (f : Force) : Force :=
  match fext i with
  | none => f
  | some fe => f - (σ.Tw i).inv.actF fe

/-- Velocity of body `i` from its parent's (`inverse_dynamics.cc:51-54`). -/
noncomputable def velStep (σ : Sys) (dqi : ℝ) (arr : ℕ → VAF) (i : ℕ) : Motion :=
  match σ.par i with
  | none => dqi • σ.S i
  | some p => dqi • σ.S i + (σ.Tp i).inv.actM (arr p).v

/-- Body of the forward pass of `InverseDynamics` (`inverse_dynamics.cc:43-80`). -/
noncomputable def rneaStep (σ : Sys) (ddq : ℕ → ℝ) (fext : FExt) (o : IDOpts) (velDone : Bool)
    (arr : ℕ → VAF) (i : ℕ) (old : VAF) : VAF :=
  let s := σ.S i
  let I := σ.Itot i
  let v := if !velDone && o.cc then σ.velStep (σ.dq i) arr i else old.v
  let a := match σ.par i with
    | none =>
      let a := ddq i • s
      let a := if o.gravity then a - (σ.Tw i).inv.actM σ.g else a
      if o.cc then a + v.crossM (σ.dq i • s) else a
    | some p =>
      if !o.cc then ddq i • s + (σ.Tp i).inv.actM (arr p).a
      else ddq i • s + ((σ.Tp i).inv.actM (arr p).a + v.crossM (σ.dq i • s))
  let f := if !o.cc then I.app a else I.app a + v.crossF (I.app v)
  { v := v, a := a, f := σ.subExt fext i f }

/-- Forward pass of `InverseDynamics` (`inverse_dynamics.cc:43-80`). -/
noncomputable def rneaForward (σ : Sys) (ddq : ℕ → ℝ) (fext : FExt) (o : IDOpts) (velDone : Bool)
    (arr0 : ℕ → VAF) : ℕ → VAF :=
  fwdLoop σ.n (σ.rneaStep ddq fext o velDone) arr0

/-- Backward pass shared by `InverseDynamics`, `CentrifugalCoriolis`, `Gravity` and
`ExternalTorques` (`inverse_dynamics.cc:84-91,131-139,158-166,187-195`):
`tau(i) = s · f[i]`, then `f[parent] += T_to_parent(i) * f[i]`. -/
noncomputable def backward (σ : Sys) (f : ℕ → Force) (tau0 : ℕ → ℝ) : (ℕ → Force) × (ℕ → ℝ) :=
  bwdLoop (· + ·) σ.n σ.par (fun i F => (σ.S i).dot F) (fun _ F => F)
    (fun i F => (σ.Tp i).actF F) f tau0

/-- `ctrl_utils::Signum(x, eps)` (external; `x > eps ? 1 : x < -eps ? -1 : 0`). -/
noncomputable def signum (x eps : ℝ) : ℝ := if eps < x then 1 else if x < -eps then -1 else 0

/-- `Friction` for one joint (`inverse_dynamics.cc:202-219`). -/
noncomputable def frictionJoint (c : Fric) (dq tau : ℝ) (compensate : Bool) (eps : ℝ) : ℝ :=
  let f0 := c.coulomb * signum dq eps
  let f1 := if f0 = 0 then
      let mu := c.coulomb + c.stiction
      let mu := if !compensate then min mu |tau| else mu
      mu * signum tau 0
    else f0
  c.viscous * dq + f1

/-- `Friction` (`inverse_dynamics.cc:199-221`). -/
noncomputable def friction (σ : Sys) (tau : ℕ → ℝ) (compensate : Bool) (eps : ℝ) : ℕ → ℝ :=
  fun i => frictionJoint (σ.fr i) (σ.dq i) (tau i) compensate eps

/-- `tau += Friction(ab, tau, true, eps)` when the option is set (`inverse_dynamics.cc:37,94`). -/
noncomputable def addFriction (σ : Sys) (o : IDOpts) (tau : ℕ → ℝ) : ℕ → ℝ :=
  if o.friction then fun i => tau i + σ.friction tau true o.eps i else tau

/-- Recursive path of `InverseDynamics` (`inverse_dynamics.cc:41-97`).  The first component is the
torque, the second the body arrays after the call. -/
noncomputable def rnea (σ : Sys) (ddq : ℕ → ℝ) (fext : FExt) (o : IDOpts) (velDone : Bool)
    (arr0 : ℕ → VAF) : (ℕ → ℝ) × (ℕ → VAF) :=
  let arr := σ.rneaForward ddq fext o velDone arr0
  let b := σ.backward (fun i => (arr i).f) (fun _ => 0)
  (σ.addFriction o b.2, fun i => { arr i with f := b.1 i })

/-- Body of the forward pass of `CentrifugalCoriolis`; the fields are `vel.v`, `cc.c_c`, `cc.f_c`
(`inverse_dynamics.cc:106-127`). -/
noncomputable def ccStep (σ : Sys) (velDone : Bool) (arr : ℕ → VAF) (i : ℕ) (old : VAF) : VAF :=
  let s := σ.S i
  let I := σ.Itot i
  let v := if !velDone then σ.velStep (σ.dq i) arr i else old.v
  let c := match σ.par i with
    | none => 0
    | some p => (σ.Tp i).inv.actM (arr p).a + v.crossM (σ.dq i • s)
  { v := v, a := c, f := I.app c + v.crossF (I.app v) }

/-- Forward pass of `CentrifugalCoriolis` (`inverse_dynamics.cc:104-128`). -/
noncomputable def ccForward (σ : Sys) (velDone : Bool) (arr0 : ℕ → VAF) : ℕ → VAF :=
  fwdLoop σ.n (σ.ccStep velDone) arr0

/-- `CentrifugalCoriolis` when its cache flag is not set (`inverse_dynamics.cc:99-142`): `cc.C` and
the body arrays `vel.v`, `cc.c_c`, `cc.f_c` after the call. -/
noncomputable def coriolis (σ : Sys) (velDone : Bool) (arr0 : ℕ → VAF) (C0 : ℕ → ℝ) :
    (ℕ → ℝ) × (ℕ → VAF) :=
  let arr := σ.ccForward velDone arr0
  let b := σ.backward (fun i => (arr i).f) C0
  (b.2, fun i => { arr i with f := b.1 i })

/-- Forward pass of `Gravity` (`inverse_dynamics.cc:150-155`). -/
noncomputable def gravForward (σ : Sys) (f0 : ℕ → Force) : ℕ → Force :=
  fwdLoop σ.n (fun _ i _ => (σ.Itot i).app ((σ.Tw i).inv.actM (-σ.g))) f0

/-- `Gravity` when its cache flag is not set (`inverse_dynamics.cc:144-169`): `grav.G` and
`grav.f_g` after the call. -/
noncomputable def gravity (σ : Sys) (f0 : ℕ → Force) (G0 : ℕ → ℝ) : (ℕ → ℝ) × (ℕ → Force) :=
  let b := σ.backward (σ.gravForward f0) G0
  (b.2, b.1)

/-- Forward pass of `ExternalTorques` (`inverse_dynamics.cc:177-183`). -/
noncomputable def extForward (σ : Sys) (fext : FExt) (f0 : ℕ → Force) : ℕ → Force :=
  fwdLoop σ.n (fun _ i _ => match fext i with
    | some fe => (σ.Tw i).inv.actF (-fe)
    | none => 0) f0

/-- `ExternalTorques` (`inverse_dynamics.cc:171-197`). -/
noncomputable def extTorques (σ : Sys) (fext : FExt) (f0 : ℕ → Force) : (ℕ → ℝ) × (ℕ → Force) :=
  let b := σ.backward (σ.extForward fext f0) (fun _ => 0)
  (b.2, b.1)

/-- `A(i,j) = x`. -/
def setMat (A : ℕ → ℕ → ℝ) (i j : ℕ) (x : ℝ) : ℕ → ℕ → ℝ :=
  Function.update A i (Function.update (A i) j x)

/-- The walk up the tree in `Inertia` (`inverse_dynamics.cc:247-253`).  `fuel` bounds the number of
iterations; a well-formed tree never has more ancestors than `fuel = n`. -/
noncomputable def crbaWalk (σ : Sys) (i : ℕ) :
    ℕ → Option ℕ → ℕ → Force → (ℕ → ℕ → ℝ) → (ℕ → ℕ → ℝ)
  | 0, _, _, _, A => A
  | _ + 1, none, _, _, A => A
  | k + 1, some j, child, f, A =>
    let f := (σ.Tp child).actF f
    let A := setMat A i j (f.dot (σ.S j))
    let A := setMat A j i (A i j)
    crbaWalk σ i k (σ.par j) j f A

/-- Body of the backward pass of `Inertia` (`inverse_dynamics.cc:236-254`). -/
noncomputable def crbaStep (σ : Sys) (s : (ℕ → Inertia) × (ℕ → ℕ → ℝ)) (i : ℕ) :
    (ℕ → Inertia) × (ℕ → ℕ → ℝ) :=
  let Ic := match σ.par i with
    | none => s.1
    | some p => accum Inertia.add s.1 p ((σ.Tp i).actI (s.1 i))
  let f := (Ic i).app (σ.S i)
  let A := setMat s.2 i i (f.dot (σ.S i))
  (Ic, σ.crbaWalk i σ.n (σ.par i) i f A)

/-- `Inertia` when its cache flag is not set (`inverse_dynamics.cc:223-257`): `crba.I_c` and
`crba.A`. -/
noncomputable def crba (σ : Sys) (Ic0 : ℕ → Inertia) : (ℕ → Inertia) × (ℕ → ℕ → ℝ) :=
  let Ic := fwdLoop σ.n (fun _ i _ => σ.Itot i) Ic0
  (List.range σ.n).reverse.foldl σ.crbaStep (Ic, fun _ _ => 0)

end Sys
end SpatialDyn
