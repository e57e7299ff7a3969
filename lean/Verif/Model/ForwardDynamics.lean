import Verif.Model.Dynamics
import Mathlib.LinearAlgebra.Matrix.NonsingularInverse

/-!
# Forward dynamics algorithms (`src/algorithms/forward_dynamics.cc`)
-/

namespace SpatialDyn

/-- `ForwardDynamicsOptions` has the same four fields as `InverseDynamicsOptions`
(`include/spatial_dyn/structs/options.h:72-107`). -/
abbrev FDOpts := IDOpts

/-- `SpatialInertiaMatrix -= ` and `+=` on blocks (spatial_inertia.h 306-312). -/
noncomputable instance : AddCommMonoid Mat3 where
  add_assoc a b c := by
    show Mat3.mk _ _ _ _ _ _ _ _ _ = Mat3.mk _ _ _ _ _ _ _ _ _
    congr 1 <;> exact add_assoc _ _ _
  zero_add a := by
    show Mat3.mk _ _ _ _ _ _ _ _ _ = _
    cases a; congr 1 <;> exact zero_add _
  add_zero a := by
    show Mat3.mk _ _ _ _ _ _ _ _ _ = _
    cases a; congr 1 <;> exact add_zero _
  add_comm a b := by
    show Mat3.mk _ _ _ _ _ _ _ _ _ = Mat3.mk _ _ _ _ _ _ _ _ _
    congr 1 <;> exact add_comm _ _
  nsmul := nsmulRec

noncomputable instance : AddCommMonoid Mat6 where
  add_assoc a b c := by
    show Mat6.mk _ _ _ _ = Mat6.mk _ _ _ _
    congr 1 <;> exact add_assoc _ _ _
  zero_add a := by
    show Mat6.mk _ _ _ _ = _
    cases a; congr 1 <;> exact zero_add _
  add_zero a := by
    show Mat6.mk _ _ _ _ = _
    cases a; congr 1 <;> exact add_zero _
  add_comm a b := by
    show Mat6.mk _ _ _ _ = Mat6.mk _ _ _ _
    congr 1 <;> exact add_comm _ _
  nsmul := nsmulRec

/-- The `n × n` matrix stored in an array. -/
def toMat (n : ℕ) (A : ℕ → ℕ → ℝ) : Matrix (Fin n) (Fin n) ℝ := Matrix.of fun i j => A i j

/-- The quadratic form of a matrix is positive. -/
def PosMat {n : ℕ} (M : Matrix (Fin n) (Fin n) ℝ) : Prop := ∀ v, v ≠ 0 → 0 < v ⬝ᵥ M.mulVec v

open Classical in
/-- `A.ldlt().solve(b)` (Eigen) for a symmetric matrix `A`.  If `A` is positive definite this is `A⁻¹ b`
(`exact_solves` proves it of the algorithm in `Model/RoundDynamics`); the result on other matrices is left
unspecified (`none`). -/
noncomputable def ldltSolve (n : ℕ) (A : ℕ → ℕ → ℝ) (b : ℕ → ℝ) : Option (ℕ → ℝ) :=
  if PosMat (toMat n A) then
    some fun i => if h : i < n then ((toMat n A)⁻¹.mulVec fun j => b j) ⟨i, h⟩ else 0
  else none

/-- Outputs of the backward pass of the articulated body algorithm for one body: `aba.h[i]`,
`aba.d[i]`, `ddq(i)`. -/
structure AbaOut where
  h : Force
  d : ℝ
  ddq : ℝ

/-- Cached articulated inertias: `aba.I_a`, `aba.h`, `aba.d` (`articulated_body_cache.h:78-90`). -/
structure AbaCache where
  Ia : ℕ → Mat6
  h : ℕ → Force
  d : ℕ → ℝ

namespace Sys

/-- Right-hand side of the linear system solved by `ForwardDynamics` (`forward_dynamics.cc:24-28`)
from the torque `id0` returned by `InverseDynamics(ab, 0, f_external, {gravity, cc, false})`. -/
noncomputable def fdRhs (σ : Sys) (tau id0 : ℕ → ℝ) (o : FDOpts) : ℕ → ℝ :=
  let dtau : ℕ → ℝ := fun i => tau i - id0 i
  if o.friction then fun i => dtau i - σ.friction dtau false o.eps i else dtau

/-- `ForwardDynamics` (`forward_dynamics.cc:21-30`) from `id0` (see `fdRhs`) and the mass matrix `A`
whose factorisation `InertiaInverse` returns. -/
noncomputable def fdSolve (σ : Sys) (tau id0 : ℕ → ℝ) (A : ℕ → ℕ → ℝ) (o : FDOpts) :
    Option (ℕ → ℝ) :=
  ldltSolve σ.n A (σ.fdRhs tau id0 o)

/-- `ForwardDynamics` with nothing cached. -/
noncomputable def forwardDynamics (σ : Sys) (tau : ℕ → ℝ) (fext : FExt) (o : FDOpts)
    (arr0 : ℕ → VAF) (Ic0 : ℕ → Inertia) : Option (ℕ → ℝ) :=
  σ.fdSolve tau (σ.rnea (fun _ => 0) fext ⟨o.gravity, o.cc, false, 0.01⟩ false arr0).1
    (σ.crba Ic0).2 o

/-- Body of the first pass of `ForwardDynamicsAba` (`forward_dynamics.cc:42-70`), except the
initialisation of `aba.I_a` (line 63), which is in `abaInit`. -/
noncomputable def abaStep (σ : Sys) (fext : FExt) (o : FDOpts) (velDone : Bool)
    (arr : ℕ → VAF) (i : ℕ) (old : VAF) : VAF :=
  let s := σ.S i
  let I := σ.Itot i
  let dqi := if o.cc then σ.dq i else 0
  let v := if !velDone || !o.cc then σ.velStep dqi arr i else old.v
  let a := match σ.par i with
    | none => 0
    | some _ => v.crossM (dqi • s)
  { v := v, a := a, f := σ.subExt fext i (v.crossF (I.app v)) }

/-- First pass of `ForwardDynamicsAba` (`forward_dynamics.cc:42-70`). -/
noncomputable def abaForward (σ : Sys) (fext : FExt) (o : FDOpts) (velDone : Bool)
    (arr0 : ℕ → VAF) : ℕ → VAF :=
  fwdLoop σ.n (σ.abaStep fext o velDone) arr0

/-- `if (!aba.is_computed) aba.I_a[i] = I` (`forward_dynamics.cc:63,158`): the inertia is converted
to its 6x6 matrix. -/
noncomputable def abaInit (σ : Sys) (done : Bool) (c : AbaCache) : ℕ → Mat6 :=
  fwdLoop σ.n (fun _ i old => if done then old else (σ.Itot i).matrix) c.Ia

/-- `aba.h[i]` and `aba.d[i]` as used at body `i` (`forward_dynamics.cc:78-80,168-170`). -/
noncomputable def abaH (σ : Sys) (done : Bool) (c : AbaCache) (i : ℕ) (Ia : Mat6) : Force :=
  if done then c.h i else Ia.app (σ.S i)

/-- See `abaH`. -/
noncomputable def abaD (σ : Sys) (done : Bool) (c : AbaCache) (i : ℕ) (Ia : Mat6) : ℝ :=
  if done then c.d i else (σ.S i).dot (Ia.app (σ.S i))

/-- `aba.I_a[i]` after the rank-one update (`forward_dynamics.cc:81-82,171-172`). -/
noncomputable def abaRed (σ : Sys) (done : Bool) (c : AbaCache) (i : ℕ) (Ia : Mat6) : Mat6 :=
  if done then Ia
  else match σ.par i with
    | none => Ia
    | some _ => Ia - Mat6.outerDiv (σ.abaH done c i Ia) (σ.abaD done c i Ia)

/-- Contribution of body `i` to `aba.I_a[parent]` (`forward_dynamics.cc:83,173`); nothing is added
when the articulated inertias are cached. -/
noncomputable def abaContribI (σ : Sys) (done : Bool) (c : AbaCache) (i : ℕ) (Ia : Mat6) : Mat6 :=
  if done then 0 else (σ.Tp i).actMat (σ.abaRed done c i Ia)

/-- Joint friction inside `ForwardDynamicsAba` (`forward_dynamics.cc:93-107`): the torque left after
friction. -/
noncomputable def abaFriction (c : Fric) (dq eps tau_i : ℝ) : ℝ :=
  let t := tau_i - c.viscous * dq
  let f0 := c.coulomb * signum dq eps
  let f1 := if f0 = 0 then min |t| (c.coulomb + c.stiction) * signum t 0 else f0
  t - f1

/-- `ddq(i)` in the backward pass (`forward_dynamics.cc:87-110`). -/
noncomputable def abaDdq (σ : Sys) (tau : ℕ → ℝ) (o : FDOpts) (i : ℕ) (d : ℝ) (f : Force) : ℝ :=
  let tau_i := tau i - (σ.S i).dot f
  let tau_i := if o.friction then abaFriction (σ.fr i) (σ.dq i) o.eps tau_i else tau_i
  tau_i / d

/-- Backward pass of `ForwardDynamicsAba` (`forward_dynamics.cc:75-116`): accumulates `aba.I_a` and
`rnea.f` towards the root and outputs `h`, `d`, `ddq` of every body.  `a` is `rnea.a` after the
first pass. -/
noncomputable def abaBackward (σ : Sys) (tau : ℕ → ℝ) (o : FDOpts) (done : Bool) (c : AbaCache)
    (a : ℕ → Motion) (B0 : ℕ → Mat6 × Force) (C0 : ℕ → AbaOut) :
    (ℕ → Mat6 × Force) × (ℕ → AbaOut) :=
  bwdLoop (· + ·) σ.n σ.par
    (fun i b => ⟨σ.abaH done c i b.1, σ.abaD done c i b.1,
      σ.abaDdq tau o i (σ.abaD done c i b.1) b.2⟩)
    (fun i b => (σ.abaRed done c i b.1, b.2))
    (fun i b => (σ.abaContribI done c i b.1,
      (σ.Tp i).actF (b.2 + (σ.abaRed done c i b.1).app (a i)
        + (σ.abaDdq tau o i (σ.abaD done c i b.1) b.2) • σ.abaH done c i b.1)))
    B0 C0

/-- Body of the last pass of `ForwardDynamicsAba` (`forward_dynamics.cc:119-133`) on the pairs
`(rnea.a[i], ddq(i))`. -/
noncomputable def abaLastStep (σ : Sys) (gravity : Bool) (out : ℕ → AbaOut)
    (arr : ℕ → Motion × ℝ) (i : ℕ) (old : Motion × ℝ) : Motion × ℝ :=
  let a := match σ.par i with
    | none => if gravity then (σ.Tp i).inv.actM (-σ.g) else 0
    | some p => old.1 + (σ.Tp i).inv.actM (arr p).1
  let ddq := old.2 - (out i).h.dot a / (out i).d
  (a + ddq • σ.S i, ddq)

/-- Result of `ForwardDynamicsAba`. -/
structure AbaResult where
  ddq : ℕ → ℝ
  arr : ℕ → VAF
  cache : AbaCache

/-- `ForwardDynamicsAba` (`forward_dynamics.cc:32-135`): accelerations, the scratch arrays and the
articulated-inertia cache after the call.  `velDone`, `done` are the cache flags
`vel.is_computed`, `aba.is_computed` at entry. -/
noncomputable def aba (σ : Sys) (tau : ℕ → ℝ) (fext : FExt) (o : FDOpts) (velDone done : Bool)
    (arr0 : ℕ → VAF) (c : AbaCache) : AbaResult :=
  let arr := σ.abaForward fext o velDone arr0
  let Ia := σ.abaInit done c
  let b := σ.abaBackward tau o done c (fun i => (arr i).a) (fun i => (Ia i, (arr i).f))
    (fun i => ⟨c.h i, c.d i, 0⟩)
  let last := fwdLoop σ.n (σ.abaLastStep o.gravity b.2) (fun i => ((arr i).a, (b.2 i).ddq))
  { ddq := fun i => (last i).2
    arr := fun i => ⟨(arr i).v, (last i).1, (b.1 i).2⟩
    cache := ⟨fun i => (b.1 i).1, fun i => (b.2 i).h, fun i => (b.2 i).d⟩ }

end Sys
end SpatialDyn
