import Verif.Model.Control
import Verif.Model.Document
import Verif.Model.Machine

/-!
# The MATLAB functions (`src/matlab/*.cc`)

Every MEX file has one call operator, which reads the arguments, calls the library, and assigns the
output.  The first argument is the MATLAB object with the pointer to the body; the model takes the body
itself (a null pointer, for which the functions return at once, is left out) and the list of the other
arguments.

The MATLAB data API is external: an array is its dimensions and its entries in memory order (first
index fastest).  `createArray` fills with zeros.  Reading an array of characters as numbers, or the
other way round, throws.  Access outside an array, or an argument that was not given, is undefined
behaviour.
-/

namespace SpatialDyn
namespace Mex

/-- `matlab::data::TypedArray<double>`. -/
structure Arr where
  dims : List ℕ
  e : ℕ → ℝ

/-- Number of entries. -/
def Arr.numel (a : Arr) : ℕ := a.dims.prod

/-- An argument. -/
inductive Val where
  | num (a : Arr)
  | chars (s : Str)

/-- `const matlab::data::TypedArray<double> x = inputs[i]`. -/
def Val.toNum : Val → Out Arr
  | .num a => .ok a
  | .chars _ => .throws

/-- `const matlab::data::CharArray x = inputs[i]`, then `toAscii()`. -/
def Val.toChars : Val → Out Str
  | .chars s => .ok s
  | .num _ => .throws

/-- Entry `k` in memory order. -/
def Arr.read (a : Arr) (k : ℕ) : Out ℝ := if k < a.numel then .ok (a.e k) else .ub

/-- Column `i` of `Eigen::Map<const Eigen::MatrixXd>(&*a.begin(), n, …)`. -/
def Arr.col (a : Arr) (n i : ℕ) : Out (List ℝ) :=
  if n * (i + 1) ≤ a.numel then .ok ((List.range n).map fun j => a.e (n * i + j)) else .ub

/-- What a MEX function does: the output, if it assigned one, and the body afterwards. -/
abbrev Res := Out (Option Arr × Body)

/-- Write `size` entries from place `size * i` on (`Eigen::Map` on `&data[size * i]`); `total` is the
number of entries of the output. -/
def put (total size i : ℕ) (v e : ℕ → ℝ) : Out (ℕ → ℝ) :=
  if size * (i + 1) ≤ total then
    .ok fun k => if size * i ≤ k ∧ k < size * (i + 1) then v (k - size * i) else e k
  else .ub

/-- The loop `for (size_t i = 0; i < Q.cols(); i++)` with the output array of `total` entries: `f` is
the body of the loop, which gives the entries it writes. -/
noncomputable def loop (total size : ℕ) (f : Body → ℕ → Out ((ℕ → ℝ) × Body)) :
    ℕ → Body → Out ((ℕ → ℝ) × Body)
  | 0, b => .ok (fun _ => 0, b)
  | n + 1, b => (loop total size f n b).bind fun s =>
    (f s.2 n).bind fun r => (put total size n r.1 s.1).bind fun e => .ok (e, r.2)

/-- Create the output, run the loop, assign the output. -/
noncomputable def fill (dims : List ℕ) (size n : ℕ) (b : Body)
    (f : Body → ℕ → Out ((ℕ → ℝ) × Body)) : Res :=
  (loop dims.prod size f n b).bind fun r => .ok (some ⟨dims, r.1⟩, r.2)

/-- Entries of a matrix with `n` rows in memory order. -/
def byCols (n : ℕ) (A : ℕ → ℕ → ℝ) (k : ℕ) : ℝ := A (k % n) (k / n)

/-- Entries of a `6 × n` matrix with the given columns. -/
def byCols6 (J : ℕ → Motion) (k : ℕ) : ℝ := (J (k / 6)).entry (k % 6)

/-- Entries of an `n × n × 6` tensor. -/
def byCols3 (n : ℕ) (H : ℕ → ℕ → Motion) (k : ℕ) : ℝ := (H (k % n) (k / n % n)).entry (k / n / n)

/-- The three entries of a vector. -/
def entry3 (v : Vec3) : ℕ → ℝ
  | 0 => v.x
  | 1 => v.y
  | 2 => v.z
  | _ => 0

/-- The first dimension of an array is `n` (otherwise the functions print a message and return). -/
def Arr.rows (a : Arr) (n : ℕ) : Bool := decide (a.dims.head? = some n)

variable (E : Ext)

/-- `inertia.cc:22-70`. -/
noncomputable def inertia (b : Body) : List Val → Res
  | [] => let r := b.inertia; .ok (some ⟨[b.dof, b.dof], byCols b.dof r.1⟩, r.2)
  | v :: _ => v.toNum.bind fun Q =>
    if !Q.rows b.dof then .ok (none, b)
    else fill (b.dof :: b.dof :: Q.dims.tail) (b.dof * b.dof) Q.dims.tail.prod b fun b i =>
      (Q.col b.dof i).bind fun q => (b.setQ q).bind fun b =>
      let r := b.inertia; .ok (byCols b.dof r.1, r.2)

/-- `gravity.cc:22-69`. -/
noncomputable def gravity (b : Body) : List Val → Res
  | [] => let r := b.gravity; .ok (some ⟨[b.dof], r.1⟩, r.2)
  | v :: _ => v.toNum.bind fun Q =>
    if !Q.rows b.dof then .ok (none, b)
    else fill (b.dof :: Q.dims.tail) b.dof Q.dims.tail.prod b fun b i =>
      (Q.col b.dof i).bind fun q => (b.setQ q).bind fun b =>
      let r := b.gravity; .ok (r.1, r.2)

/-- `hessian.cc:22-72`. -/
noncomputable def hessian (b : Body) : List Val → Res
  | [] => (b.hessian (-1) 0).bind fun r =>
    .ok (some ⟨[b.dof, b.dof, 6], byCols3 b.dof r.1⟩, r.2)
  | v :: _ => v.toNum.bind fun Q =>
    if !Q.rows b.dof then .ok (none, b)
    else fill (b.dof :: b.dof :: 6 :: Q.dims.tail) (b.dof * b.dof * 6) Q.dims.tail.prod b fun b i =>
      (Q.col b.dof i).bind fun q => (b.setQ q).bind fun b =>
      (b.hessian (-1) 0).bind fun r => .ok (byCols3 b.dof r.1, r.2)

/-- `centrifugal_coriolis.cc:22-84`.  The code for a call with the body alone (30-37) comes after the
test for fewer than three arguments (23) and is never reached; arrays of different dimensions only cause
a message (57-59). -/
noncomputable def centrifugalCoriolis (b : Body) : List Val → Res
  | v :: w :: _ => v.toNum.bind fun Q =>
    if !Q.rows b.dof then .ok (none, b)
    else w.toNum.bind fun dQ =>
      if !dQ.rows b.dof then .ok (none, b)
      else fill (b.dof :: Q.dims.tail) b.dof Q.dims.tail.prod b fun b i =>
        (Q.col b.dof i).bind fun q => (b.setQ q).bind fun b =>
        (dQ.col b.dof i).bind fun dq => (b.setDq dq).bind fun b =>
        let r := b.centrifugalCoriolis; .ok (r.1, r.2)
  | _ => .ok (none, b)

/-- The three arguments of `inverse_dynamics.cc:31-71` (the same lines in
`inverse_dynamics_position_derivative.cc` and `inverse_dynamics_velocity_derivative.cc`): matrices with
`dof` rows and the same number of columns. -/
def motion3 (b : Body) (u v w : Val) (k : Arr → Arr → Arr → Res) : Res :=
  u.toNum.bind fun Q =>
  if Q.dims.length ≠ 2 ∨ !Q.rows b.dof then .ok (none, b)
  else v.toNum.bind fun dQ =>
    if dQ.dims.length ≠ 2 ∨ !dQ.rows b.dof ∨ dQ.dims ≠ Q.dims then .ok (none, b)
    else w.toNum.bind fun ddQ =>
      if ddQ.dims.length ≠ 2 ∨ !ddQ.rows b.dof ∨ ddQ.dims ≠ Q.dims then .ok (none, b)
      else k Q dQ ddQ

/-- One column of the three arguments (`inverse_dynamics.cc:91-94`). -/
noncomputable def motionStep (Q dQ ddQ : Arr)
    (g : Body → (ℕ → ℝ) → Out ((ℕ → ℝ) × Body)) (b : Body) (i : ℕ) : Out ((ℕ → ℝ) × Body) :=
  (Q.col b.dof i).bind fun q => (b.setQ q).bind fun b =>
  (dQ.col b.dof i).bind fun dq => (b.setDq dq).bind fun b =>
  (ddQ.col b.dof i).bind fun ddq => g b fun j => ddq.getD j 0

/-- The options of line 88: gravity and velocity products, no friction. -/
noncomputable def idOpts : IDOpts := IDOpts.make true true

/-- `inverse_dynamics.cc:22-98`. -/
noncomputable def inverseDynamics (b : Body) : List Val → Res
  | u :: v :: w :: _ => motion3 b u v w fun Q dQ ddQ =>
    fill (b.dof :: Q.dims.tail) b.dof Q.dims.tail.prod b
      (motionStep Q dQ ddQ fun b ddq =>
        let r := b.inverseDynamics ddq noExt idOpts; .ok (r.1, r.2))
  | _ => .ok (none, b)

/-- `inverse_dynamics_position_derivative.cc:22-99`. -/
noncomputable def positionDerivative (b : Body) : List Val → Res
  | u :: v :: w :: _ => motion3 b u v w fun Q dQ ddQ =>
    fill (b.dof :: b.dof :: Q.dims.tail) (b.dof * b.dof) Q.dims.tail.prod b
      (motionStep Q dQ ddQ fun b ddq => (b.positionDerivative ddq noExt idOpts).bind fun r =>
        .ok (byCols b.dof r.1, r.2))
  | _ => .ok (none, b)

/-- `inverse_dynamics_velocity_derivative.cc:22-99`. -/
noncomputable def velocityDerivative (b : Body) : List Val → Res
  | u :: v :: w :: _ => motion3 b u v w fun Q dQ ddQ =>
    fill (b.dof :: b.dof :: Q.dims.tail) (b.dof * b.dof) Q.dims.tail.prod b
      (motionStep Q dQ ddQ fun b ddq =>
        let r := b.velocityDerivative ddq noExt idOpts; .ok (byCols b.dof r.1, r.2))
  | _ => .ok (none, b)

/-- The words of the named arguments. -/
def sOffset : Str := "offset".toList
def sLink : Str := "link".toList

/-- The loop over names and values (`jacobian.cc:51-72`, `position.cc:50-71`,
`jacobian_dynamic_inverse.cc:52-73`, `inverse_kinematics.cc:71-92`), starting from the link and the
offset parsed so far; nothing when the function prints a message and returns. -/
noncomputable def named : List Val → ℤ × Vec3 → Out (Option (ℤ × Vec3))
  | n :: v :: rest, o => n.toChars.bind fun s =>
    if s = sOffset then v.toNum.bind fun a =>
      if !a.rows 3 then .ok none
      else (a.read 0).bind fun x => (a.read 1).bind fun y => (a.read 2).bind fun z =>
        named rest (o.1, ⟨x, y, z⟩)
    else if s = sLink then v.toNum.bind fun a =>
      if !a.rows 1 then .ok none
      else (a.read 0).bind fun x => named rest (truncInt x, o.2)
    else named rest o
  | _, o => .ok (some o)

/-- `position.cc:22-92`. -/
noncomputable def position (b : Body) : List Val → Res
  | [] => (b.position (-1) 0).bind fun r => .ok (some ⟨[3], entry3 r.1⟩, r.2)
  | v :: rest => v.toNum.bind fun Q =>
    if !Q.rows b.dof then .ok (none, b)
    else (named rest (-1, 0)).bind fun
      | none => .ok (none, b)
      | some o => fill (3 :: Q.dims.tail) 3 Q.dims.tail.prod b fun b i =>
        (Q.col b.dof i).bind fun q =>
        (b.positionQ (fun j => q.getD j 0) o.1 o.2).bind fun x => .ok (entry3 x, b)

/-- `jacobian.cc:22-94`. -/
noncomputable def jacobian (b : Body) : List Val → Res
  | [] => (b.jacobian (-1) 0).bind fun r => .ok (some ⟨[6, b.dof], byCols6 r.1⟩, r.2)
  | v :: rest => v.toNum.bind fun Q =>
    if !Q.rows b.dof then .ok (none, b)
    else (named rest (-1, 0)).bind fun
      | none => .ok (none, b)
      | some o => fill (6 :: b.dof :: Q.dims.tail) (b.dof * 6) Q.dims.tail.prod b fun b i =>
        (Q.col b.dof i).bind fun q =>
        (b.jacobianQ (fun j => q.getD j 0) o.1 o.2).bind fun J => .ok (byCols6 J, b)

/-- `jacobian_dynamic_inverse.cc:23-96`.  The link and the offset are parsed and not used (93).
Without joint positions the `dof × 6` matrix is assigned to a map with six rows (36-37), undefined
behaviour unless the body has six degrees of freedom. -/
noncomputable def jacobianDynamicInverse (b : Body) : List Val → Res
  | [] => if b.dof ≠ 6 then .ub else
    (b.jacobian (-1) 0).bind fun J => (J.2.opsJbar E (jac6 b.dof J.1) 0).bind fun r =>
    .ok (some ⟨[b.dof, 6], byCols b.dof r.1.e⟩, r.2)
  | v :: rest => v.toNum.bind fun Q =>
    if !Q.rows b.dof then .ok (none, b)
    else (named rest (-1, 0)).bind fun
      | none => .ok (none, b)
      | some _ => fill (b.dof :: 6 :: Q.dims.tail) (b.dof * 6) Q.dims.tail.prod b fun b i =>
        (Q.col b.dof i).bind fun q => (b.setQ q).bind fun b =>
        (b.jacobian (-1) 0).bind fun J => (J.2.opsJbar E (jac6 b.dof J.1) 0).bind fun r =>
        .ok (byCols b.dof r.1.e, r.2)

/-- One column of `discrete_inverse_dynamics.cc:59-63`. -/
noncomputable def discreteStep (Q : Arr) (dt : ℝ) (b : Body) (i : ℕ) : Out ((ℕ → ℝ) × Body) :=
  (Q.col b.dof i).bind fun q0 => (Q.col b.dof (i + 1)).bind fun q1 => (b.setQ q1).bind fun b =>
  (b.setDq ((List.range b.dof).map fun j => (q1.getD j 0 - q0.getD j 0) / dt)).bind fun b =>
  (Q.col b.dof (i + 2)).bind fun q2 =>
  let r := b.discreteID E (fun j => q2.getD j 0) dt noExt true
  .ok (r.1, r.2)

/-- `discrete_inverse_dynamics.cc:22-65`. -/
noncomputable def discreteInverseDynamics (b : Body) : List Val → Res
  | u :: v :: _ => u.toNum.bind fun Q =>
    if Q.dims.length ≠ 2 ∨ !Q.rows b.dof then .ok (none, b)
    else if Q.dims.getD 1 0 < 2 then .ok (none, b)
    else v.toNum.bind fun a => (a.read 0).bind fun dt =>
      fill [b.dof, Q.dims.getD 1 0 - 2] b.dof (Q.dims.getD 1 0 - 2) b (discreteStep E Q dt)
  | _ => .ok (none, b)

variable (C : Ctl)

/-- `inverse_kinematics.cc:22-99`: `s` is the static variable of the library function
(`Body.inverseKinematics`).  The four numbers of the quaternion are taken from the array of the position
(57-58).  A call without a guess for the joint positions passes the test of line 36 and reads an argument
that is not there (61). -/
noncomputable def inverseKinematics (b : Body) (s : Option ℕ) : List Val → Out ((Option Arr × Body) × Option ℕ)
  | u :: v :: rest => u.toNum.bind fun x =>
    if !x.rows 3 then .ok ((none, b), s)
    else (x.read 0).bind fun x0 => (x.read 1).bind fun x1 => (x.read 2).bind fun x2 =>
      v.toNum.bind fun quat =>
      if !quat.rows 4 then .ok ((none, b), s)
      else (x.read 0).bind fun w => (x.read 1).bind fun i => (x.read 2).bind fun j =>
        (x.read 3).bind fun k =>
        match rest with
        | [] => .ub
        | g :: opts => g.toNum.bind fun q0 =>
          if !q0.rows b.dof then .ok ((none, b), s)
          else (q0.col b.dof 0).bind fun q => (b.setQ q).bind fun b =>
            (named opts (-1, 0)).bind fun
              | none => .ok ((none, b), s)
              | some o =>
                (b.inverseKinematics E C ⟨⟨x0, x1, x2⟩, C.ofXyzw i j k w, o.1, o.2⟩ s).bind fun r =>
                .ok ((some ⟨[b.dof], fun k => r.1.getD k 0⟩, b), r.2)
  | _ => .ok ((none, b), s)

end Mex
end SpatialDyn
