import Verif.Model.InertiaInverseAba
import Verif.Model.Kinematics
import Verif.Model.Ext

/-!
# Operational-space dynamics

`src/algorithms/opspace_dynamics.cc` and `src/algorithms/opspace_dynamics_aba.cc`.

External code enters through `Ext` (`Verif.Model.Ext`).
-/

namespace SpatialDyn

namespace DMat

/-- `size()`. -/
def size (A : DMat) : ℕ := A.rows * A.cols

/-- Matrix product. -/
noncomputable def mul (A B : DMat) : DMat :=
  ⟨A.rows, B.cols, fun i j => ∑ k ∈ Finset.range A.cols, A.e i k * B.e k j⟩

/-- Transpose. -/
def tr (A : DMat) : DMat := ⟨A.cols, A.rows, fun i j => A.e j i⟩

/-- Matrix times vector. -/
noncomputable def mulVec (A : DMat) (x : ℕ → ℝ) : ℕ → ℝ :=
  fun i => ∑ k ∈ Finset.range A.cols, A.e i k * x k

/-- Identity. -/
def id (n : ℕ) : DMat := ⟨n, n, fun i j => if i = j then 1 else 0⟩

/-- Difference. -/
def sub (A B : DMat) : DMat := ⟨A.rows, A.cols, fun i j => A.e i j - B.e i j⟩

/-- Equal dimensions and equal entries. -/
def Eqv (A B : DMat) : Prop :=
  A.rows = B.rows ∧ A.cols = B.cols ∧ ∀ i < A.rows, ∀ j < A.cols, A.e i j = B.e i j

end DMat

/-- `opspace::InverseDynamicsOptions` (`include/spatial_dyn/structs/options.h`): the joint-space
options plus `svd_epsilon` and `f_acc_max`. -/
structure OpsOpts where
  gravity : Bool
  cc : Bool
  friction : Bool
  svdEps : ℝ
  stictionEps : ℝ
  fAccMax : ℝ

/-- Conversion `double → int` (truncation towards zero). -/
noncomputable def truncInt (x : ℝ) : ℤ := if 0 ≤ x then ⌊x⌋ else ⌈x⌉

namespace Body
variable (E : Ext)

open Classical in
/-- `ops.J.size() == J.size() && ops.J == J`, the negation of the test in
`opspace_dynamics.cc:86,99,114`.  Matrices with equal sizes but different shapes are compared out of
bounds. -/
noncomputable def opsSame (b : Body) (J : DMat) : Out Bool :=
  if b.c.ops.J.size ≠ J.size then .ok false
  else if b.c.ops.J.rows ≠ J.rows ∨ b.c.ops.J.cols ≠ J.cols then .ub
  else .ok (decide (b.c.ops.J.Eqv J))

/-- Body of `opspace::InertiaInverse` when it recomputes (`opspace_dynamics.cc:100-105`). -/
noncomputable def opsInvCompute (b : Body) (J : DMat) : Out (DMat × Body) :=
  if J.cols ≠ b.dof then .ub
  else
    let r := b.inertiaInverse
    let X : DMat := ⟨b.dof, J.rows, fun i k => E.solve b.dof r.1 (fun j => J.e k j) i⟩
    let L := J.mul X
    .ok (L, { r.2 with c := { r.2.c with ops := { r.2.c.ops with
      AinvJT := X, LambdaInv := L, J := J, lambdaInvDone := true
      lambdaDone := false, jbarDone := false } } })

/-- `opspace::InertiaInverse` (`opspace_dynamics.cc:95-108`). -/
noncomputable def opsInertiaInverse (b : Body) (J : DMat) : Out (DMat × Body) :=
  if !b.c.ops.lambdaInvDone then b.opsInvCompute E J
  else (b.opsSame J).bind fun same =>
    if same then .ok (b.c.ops.LambdaInv, b) else b.opsInvCompute E J

/-- Body of `opspace::Inertia` when it recomputes (`opspace_dynamics.cc:87-89`). -/
noncomputable def opsLambdaCompute (b : Body) (J : DMat) (eps : ℝ) : Out (DMat × Body) :=
  (b.opsInertiaInverse E J).bind fun r =>
    let L := E.pinvOf r.1 eps
    .ok (L.1, { r.2 with c := { r.2.c with ops := { r.2.c.ops with
      Lambda := L.1, singular := L.2, eps := eps, lambdaDone := true } } })

open Classical in
/-- `opspace::Inertia` (`opspace_dynamics.cc:81-93`). -/
noncomputable def opsInertia (b : Body) (J : DMat) (eps : ℝ) : Out (DMat × Body) :=
  if !b.c.ops.lambdaDone then b.opsLambdaCompute E J eps
  else (b.opsSame J).bind fun same =>
    if same ∧ b.c.ops.eps = eps then .ok (b.c.ops.Lambda, b) else b.opsLambdaCompute E J eps

/-- `opspace::IsSingular` (`opspace_dynamics.cc:22-28`). -/
noncomputable def opsIsSingular (b : Body) (J : DMat) (eps : ℝ) : Out (Bool × Body) :=
  (b.opsInertia E J eps).bind fun r => .ok (r.2.c.ops.singular, r.2)

/-- Body of `opspace::JacobianDynamicInverse` when it recomputes (`opspace_dynamics.cc:117-119`). -/
noncomputable def opsJbarCompute (b : Body) (J : DMat) (eps : ℝ) : Out (DMat × Body) :=
  (b.opsInertia E J eps).bind fun r =>
    let X := r.2.c.ops.AinvJT.mul r.2.c.ops.Lambda
    .ok (X, { r.2 with c := { r.2.c with ops := { r.2.c.ops with Jbar := X, jbarDone := true } } })

open Classical in
/-- `opspace::JacobianDynamicInverse` (`opspace_dynamics.cc:110-123`). -/
noncomputable def opsJbar (b : Body) (J : DMat) (eps : ℝ) : Out (DMat × Body) :=
  if !b.c.ops.jbarDone then b.opsJbarCompute E J eps
  else (b.opsSame J).bind fun same =>
    if same ∧ b.c.ops.eps = eps then .ok (b.c.ops.Jbar, b) else b.opsJbarCompute E J eps

/-- The six entries of a spatial motion as a vector (linear part first). -/
def _root_.SpatialDyn.Motion.entry (m : Motion) : ℕ → ℝ
  | 0 => m.lin.x
  | 1 => m.lin.y
  | 2 => m.lin.z
  | 3 => m.ang.x
  | 4 => m.ang.y
  | 5 => m.ang.z
  | _ => 0

/-- `opspace::CentrifugalCoriolis` (`opspace_dynamics.cc:126-142`); the offset is not used. -/
noncomputable def opsCoriolis (b : Body) (J : DMat) (link : ℤ) (eps : ℝ) :
    Out ((ℕ → ℝ) × Body) :=
  if J.rows ≠ 6 then .throws
  else (b.opsJbar E J eps).bind fun r =>
    let c := r.2.centrifugalCoriolis
    let mu := r.1.tr.mulVec c.1
    (c.2.opsInertia E J 0).bind fun l =>
      (l.2.index link).bind fun k =>
        let w := (⟨(l.2.viewTw k).R, 0⟩ : Iso).actM (l.2.c.cC k)
        .ok (fun i => mu i - l.1.mulVec w.entry i, l.2.touchTw)

/-- `opspace::Gravity` (`opspace_dynamics.cc:144-147`).  The order in which C++ evaluates the two
factors is unspecified; neither reads what the other writes. -/
noncomputable def opsGravity (b : Body) (J : DMat) (eps : ℝ) : Out ((ℕ → ℝ) × Body) :=
  (b.opsJbar E J eps).bind fun r =>
    let g := r.2.gravity
    .ok (r.1.tr.mulVec g.1, g.2)

/-- `opspace::ExternalForces` (`opspace_dynamics.cc:149-153`). -/
noncomputable def opsExternal (b : Body) (J : DMat) (fext : FExt) (eps : ℝ) :
    Out ((ℕ → ℝ) × Body) :=
  (b.opsJbar E J eps).bind fun r =>
    let g := r.2.externalTorques fext
    .ok (r.1.tr.mulVec g.1, g.2)

open Classical in
/-- `opspace::Friction` (`opspace_dynamics.cc:155-160`): `stiction_epsilon` lands in the `bool`
parameter `compensate` of the joint-space function, whose own `stiction_epsilon` keeps its default
(`inverse_dynamics.h`). -/
noncomputable def opsFriction (b : Body) (J : DMat) (tau : ℕ → ℝ) (eps stictionEps : ℝ) :
    Out ((ℕ → ℝ) × Body) :=
  (b.opsJbar E J eps).bind fun r =>
    .ok (r.1.tr.mulVec (r.2.friction tau (decide (stictionEps ≠ 0)) 0.01), r.2)

/-- Euclidean norm of the first `n` entries. -/
noncomputable def vnorm (n : ℕ) (x : ℕ → ℝ) : ℝ := Real.sqrt (∑ i ∈ Finset.range n, x i ^ 2)

open Classical in
/-- The clipping of `F_x` (`opspace_dynamics.cc:44-49`). -/
noncomputable def clipForce (n : ℕ) (fmax : ℝ) (F : ℕ → ℝ) : ℕ → ℝ :=
  if 0 < fmax ∧ fmax < vnorm n F then fun i => fmax * (F i / vnorm n F) else F

/-- An optional step of `opspace::InverseDynamics`: `if (flag) F_x += term(ab, F_x)`. -/
noncomputable def opsAdd (flag : Bool) (s : (ℕ → ℝ) × Body)
    (term : Body → (ℕ → ℝ) → Out ((ℕ → ℝ) × Body)) : Out ((ℕ → ℝ) × Body) :=
  if flag then (term s.2 s.1).bind fun r => .ok (fun i => s.1 i + r.1 i, r.2) else .ok s

/-- The Jacobian used by `opspace::InverseDynamics` (`opspace_dynamics.cc:36-41`). -/
noncomputable def opsJx (J : DMat) (N : Option DMat) : DMat :=
  match N with
  | none => J
  | some M => if 0 < M.size then J.mul M else J

/-- A product of matrices whose inner dimensions differ is undefined behaviour (an Eigen assertion
when assertions are compiled in). -/
def _root_.SpatialDyn.Out.need (c : Prop) [Decidable c] : Out Unit := if c then .ok () else .ub

/-- The product `J * (*N)` of `opspace_dynamics.cc:39` is defined, or not formed. -/
def opsFits (J : DMat) : Option DMat → Out Unit
  | none => .ok ()
  | some M => .need (0 < M.size → J.cols = M.rows)

/-- Update of the nullspace matrix (`opspace_dynamics.cc:68-75`). -/
noncomputable def opsNull (b : Body) (Jx : DMat) (N : Option DMat) (eps : ℝ) :
    Out (Option DMat × Body) :=
  match N with
  | none => .ok (none, b)
  | some M => (b.opsJbar E Jx eps).bind fun r =>
    (Out.need (M.size = 0 ∨ M.rows = b.dof)).bind fun _ =>
    let P := (DMat.id b.dof).sub (r.1.mul Jx)
    .ok (some (if M.size = 0 then P else P.mul M), r.2)

/-- `opspace::InverseDynamics` (`opspace_dynamics.cc:30-78`): joint torques, the updated nullspace
matrix and the body.  `N = none` is the null pointer; `someExt` says whether the map of external
forces has any entry. -/
noncomputable def opsInverseDynamics (b : Body) (J : DMat) (ddx : ℕ → ℝ) (N : Option DMat)
    (fext : FExt) (someExt : Bool) (o : OpsOpts) : Out ((ℕ → ℝ) × Option DMat × Body) :=
  let Jx := opsJx J N
  (opsFits J N).bind fun _ =>
  (b.opsInertia E Jx o.svdEps).bind fun l =>
    let F := clipForce Jx.rows o.fAccMax (l.1.mulVec ddx)
    (opsAdd someExt (F, l.2) fun b _ => b.opsExternal E Jx fext o.svdEps).bind fun s =>
    (opsAdd o.gravity s fun b _ => b.opsGravity E Jx o.svdEps).bind fun s =>
    (opsAdd o.cc s fun b _ => b.opsCoriolis E Jx (truncInt o.svdEps) 0).bind fun s =>
    (opsAdd o.friction s fun b F =>
      b.opsFriction E Jx (Jx.tr.mulVec F) o.svdEps o.stictionEps).bind fun s =>
    (s.2.opsNull E Jx N o.svdEps).bind fun r =>
      .ok (Jx.tr.mulVec s.1, r.1, r.2)

/-! ## Articulated-body versions -/

/-- Column `k` of the identity of spatial forces. -/
def _root_.SpatialDyn.Force.unit (k : Fin 6) : Force :=
  ⟨⟨if k = 0 then 1 else 0, if k = 1 then 1 else 0, if k = 2 then 1 else 0⟩,
   ⟨if k = 3 then 1 else 0, if k = 4 then 1 else 0, if k = 5 then 1 else 0⟩⟩

/-- The system without the loads: the `opspace_dynamics_aba.cc` functions read
`rigid_bodies(i).inertia()` only. -/
def _root_.SpatialDyn.Sys.unload (σ : Sys) : Sys := { σ with load := fun _ => none }

/-- Common backward pass of the three functions (`opspace_dynamics_aba.cc:56-74,127-145,184-201`):
zero joint torques, no friction. -/
noncomputable def _root_.SpatialDyn.Sys.opsBackward (σ : Sys) (done : Bool) (c : AbaCache)
    (a : ℕ → Motion) (f : ℕ → Force) : (ℕ → Mat6 × Force) × (ℕ → AbaOut) :=
  σ.abaBackward (fun _ => 0) ⟨false, false, false, 0⟩ done c a
    (fun i => (σ.abaInit done c i, f i)) (fun i => ⟨c.h i, c.d i, 0⟩)

/-- Last pass along the ancestors (`opspace_dynamics_aba.cc:77-82,148-157,204-213`): acceleration of
the last body of the list.  At a root the C++ of line 79 transforms the zero acceleration, which is
zero. -/
noncomputable def _root_.SpatialDyn.Sys.opsForward (σ : Sys) (out : ℕ → AbaOut) (bias : ℕ → Motion)
    (ancs : List ℕ) : Motion :=
  ancs.foldl (fun a i =>
    let a := match σ.par i with
      | none => a
      | some _ => (σ.Tp i).inv.actM a + bias i
    let ddq := (out i).ddq - (out i).h.dot a / (out i).d
    a + ddq • σ.S i) 0

/-- The articulated-inertia cache after a pass. -/
def abaCacheOf (r : (ℕ → Mat6 × Force) × (ℕ → AbaOut)) : AbaCache :=
  ⟨fun i => (r.1 i).1, fun i => (r.2 i).h, fun i => (r.2 i).d⟩

/-- Unit force number `k` (negated) on the link, in its frame (`opspace_dynamics_aba.cc:48-52`). -/
noncomputable def unitForce (b : Body) (link : ℕ) (k : Fin 6) (i : ℕ) : Force :=
  if i = link then (⟨(b.viewTw i).R.T, 0⟩ : Iso).actF (-Force.unit k) else 0

/-- `opspace::InertiaInverseAba` when it recomputes (`opspace_dynamics_aba.cc:45-88`).  The six
columns of `ops.p` never interact; each is propagated by the same loop. -/
noncomputable def opsInvAbaCompute (b : Body) (link : ℕ) (offset : Vec3) :
    Matrix (Fin 6) (Fin 6) ℝ × Body :=
  let σ := b.view.unload
  let r := fun k => σ.opsBackward b.c.abaDone b.c.aba (fun _ => 0) (b.unitForce link k)
  let R : Iso := ⟨(b.viewTw link).R, 0⟩
  let L : Matrix (Fin 6) (Fin 6) ℝ := Matrix.of fun i k =>
    (R.actM (σ.opsForward (r k).2 (fun _ => 0) (b.anc.getD link []))).entry i
  let b' := b.touchTw.touchTp
  (L, { b' with c := { b'.c with
    aba := abaCacheOf (r 0), abaDone := true
    opsAba := { b'.c.opsAba with
      LambdaInv := L, idx := link, offset := offset, lambdaInvDone := true, lambdaDone := false } } })

open Classical in
/-- `opspace::InertiaInverseAba` (`opspace_dynamics_aba.cc:33-89`). -/
noncomputable def opsInertiaInverseAba (b : Body) (link : ℤ) (offset : Vec3) :
    Out (Matrix (Fin 6) (Fin 6) ℝ × Body) :=
  (b.index link).bind fun k =>
    if b.c.opsAba.lambdaInvDone = true ∧ b.c.opsAba.idx = k ∧ b.c.opsAba.offset = offset then
      .ok (b.c.opsAba.LambdaInv, b)
    else .ok (b.opsInvAbaCompute k offset)

open Classical in
/-- `opspace::InertiaAba` (`opspace_dynamics_aba.cc:19-31`). -/
noncomputable def opsInertiaAba (b : Body) (link : ℤ) (offset : Vec3) (eps : ℝ) :
    Out (Matrix (Fin 6) (Fin 6) ℝ × Body) :=
  (b.index link).bind fun k =>
    if b.c.opsAba.lambdaDone = true ∧ b.c.opsAba.idx = k ∧ b.c.opsAba.offset = offset ∧
        b.c.opsAba.eps = eps then .ok (b.c.opsAba.Lambda, b)
    else (b.opsInertiaInverseAba k offset).bind fun r =>
      let L := E.pinv6 r.1 eps
      .ok (L, { r.2 with c := { r.2.c with opsAba := { r.2.c.opsAba with
        Lambda := L, eps := eps, lambdaDone := true } } })

/-- Matrix times the entries of a motion. -/
noncomputable def mulVec6 (L : Matrix (Fin 6) (Fin 6) ℝ) (m : Motion) : Fin 6 → ℝ :=
  L.mulVec fun k => m.entry k

/-- First pass of `opspace::CentrifugalCoriolisAba` (`opspace_dynamics_aba.cc:98-123`), on `vel.v`,
`rnea.a`, `rnea.f`. -/
noncomputable def _root_.SpatialDyn.Sys.opsCcStep (σ : Sys) (velDone : Bool) (arr : ℕ → VAF) (i : ℕ)
    (old : VAF) : VAF :=
  let v := if !velDone then σ.velStep (σ.dq i) arr i else old.v
  let a := match σ.par i with
    | none => 0
    | some _ => v.crossM (σ.dq i • σ.S i)
  { v := v, a := a, f := v.crossF ((σ.Itot i).app v) }

/-- `opspace::CentrifugalCoriolisAba` (`opspace_dynamics_aba.cc:91-158`). -/
noncomputable def opsCoriolisAba (b : Body) (link : ℤ) (offset : Vec3) (eps : ℝ) :
    Out ((Fin 6 → ℝ) × Body) :=
  (b.index link).bind fun k =>
    let σ := b.view.unload
    let arr := fwdLoop σ.n (σ.opsCcStep b.c.velDone) b.vaf
    let r := σ.opsBackward b.c.abaDone b.c.aba (fun i => (arr i).a) (fun i => (arr i).f)
    let a := σ.opsForward r.2 (fun i => (arr i).a) (b.anc.getD k [])
    let mu := (⟨(b.viewTw k).R, 0⟩ : Iso).actM a
    let b' := b.touchTw.touchTp
    let b' : Body := { b' with c := { b'.c with
      v := fun i => (arr i).v, velDone := true, a := fun i => (arr i).a
      f := fun i => (r.1 i).2, aba := abaCacheOf r, abaDone := true } }
    (b'.opsInertiaAba E k offset eps).bind fun l => .ok (mulVec6 l.1 (-mu), l.2)

/-- `opspace::GravityAba` (`opspace_dynamics_aba.cc:160-214`): the first pass multiplies by whatever
`aba.I_a` holds at that point. -/
noncomputable def opsGravityAba (b : Body) (link : ℤ) (offset : Vec3) (fext : FExt) (eps : ℝ) :
    Out ((Fin 6 → ℝ) × Body) :=
  (b.index link).bind fun k =>
    let σ := b.view.unload
    let Ia := σ.abaInit b.c.abaDone b.c.aba
    let f := fwdLoop σ.n (fun _ i _ =>
      σ.subExt fext i ((Ia i).app ((σ.Tw i).inv.actM σ.g))) b.c.f
    let r := σ.opsBackward b.c.abaDone b.c.aba (fun _ => 0) f
    let a := σ.opsForward r.2 (fun _ => 0) (b.anc.getD k [])
    let p := (⟨(b.viewTw k).R, 0⟩ : Iso).actM a
    let b' := b.touchTw.touchTp
    let b' : Body := { b' with c := { b'.c with
      f := fun i => (r.1 i).2, aba := abaCacheOf r, abaDone := true } }
    (b'.opsInertiaAba E k offset eps).bind fun l => .ok (mulVec6 l.1 p, l.2)

end Body
end SpatialDyn
