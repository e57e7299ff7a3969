import Verif.Model.Body

/-!
# `InertiaInverseAba` (`src/algorithms/forward_dynamics.cc:146-200`)
-/

namespace SpatialDyn

/-- Outputs of the backward pass for one body: `aba.h[i]`, `aba.d[i]`, row `i` of `aba.A_inv`. -/
structure InvOut where
  h : Force
  d : ℝ
  row : ℕ → ℝ

namespace Sys

/-- `aba.A_inv(i,j)` in the backward pass (`forward_dynamics.cc:177`). -/
noncomputable def invEntry (σ : Sys) (d : ℝ) (P : ℕ → Force) (i j : ℕ) : ℝ :=
  ((if i = j then 1 else 0) - (σ.S i).dot (P j)) / d

/-- Backward pass (`forward_dynamics.cc:164-183`).  The accumulated pair is `aba.I_a[i]` and the
columns of `aba.P[i]`.  The iterations of the inner loop over `subtree(i)` touch different columns,
so the loop is written as one pointwise update; `A0` is `aba.A_inv` at entry. -/
noncomputable def invBackward (σ : Sys) (sub : ℕ → List ℕ) (done : Bool) (c : AbaCache)
    (A0 : ℕ → ℕ → ℝ) : (ℕ → Mat6 × (ℕ → Force)) × (ℕ → InvOut) :=
  bwdLoop (· + ·) σ.n σ.par
    (fun i b => ⟨σ.abaH done c i b.1, σ.abaD done c i b.1,
      fun j => if j ∈ sub i then σ.invEntry (σ.abaD done c i b.1) b.2 i j else A0 i j⟩)
    (fun i b => (σ.abaRed done c i b.1, b.2))
    (fun i b => (σ.abaContribI done c i b.1,
      fun j => if j ∈ sub i then
        (σ.Tp i).actF (b.2 j + σ.invEntry (σ.abaD done c i b.1) b.2 i j • σ.abaH done c i b.1)
      else 0))
    (fun i => (σ.abaInit done c i, fun _ => 0)) (fun i => ⟨c.h i, c.d i, A0 i⟩)

/-- Body of the inner loop of the last pass (`forward_dynamics.cc:190-196`) on
`(aba.A, aba.A_inv)`. -/
noncomputable def invFwdInner (σ : Sys) (out : ℕ → InvOut) (i : ℕ)
    (s : (ℕ → ℕ → Motion) × (ℕ → ℕ → ℝ)) (j : ℕ) : (ℕ → ℕ → Motion) × (ℕ → ℕ → ℝ) :=
  let a := match σ.par i with
    | none => s.1 i j
    | some p => s.1 i j + (σ.Tp i).inv.actM (s.1 p j)
  let x := s.2 i j - (out i).h.dot a / (out i).d
  let A := setMat s.2 i j x
  let A := if i ≠ j then setMat A j i x else A
  (Function.update s.1 i (Function.update (s.1 i) j (a + x • σ.S i)), A)

/-- Last pass (`forward_dynamics.cc:186-197`). -/
noncomputable def invForward (σ : Sys) (sub : ℕ → List ℕ) (out : ℕ → InvOut) :
    (ℕ → ℕ → Motion) × (ℕ → ℕ → ℝ) :=
  (List.range σ.n).foldl (fun s i => (sub i).foldl (σ.invFwdInner out i) s)
    (fun _ _ => 0, fun i => (out i).row)

/-- `InertiaInverseAba` when its flag is not set: `aba.A_inv` and the articulated-inertia cache after
the call. -/
noncomputable def inertiaInverseAba (σ : Sys) (sub : ℕ → List ℕ) (done : Bool) (c : AbaCache)
    (A0 : ℕ → ℕ → ℝ) : (ℕ → ℕ → ℝ) × AbaCache :=
  let b := σ.invBackward sub done c A0
  ((σ.invForward sub b.2).2,
    ⟨fun i => (b.1 i).1, fun i => (b.2 i).h, fun i => (b.2 i).d⟩)

end Sys

namespace Body

/-- `InertiaInverseAba` (`forward_dynamics.cc:146-200`). -/
noncomputable def inertiaInverseAba (b : Body) : (ℕ → ℕ → ℝ) × Body :=
  if b.c.abaInvDone then (b.c.abaInv, b)
  else
    let r := b.view.inertiaInverseAba (fun i => b.sub.getD i []) b.c.abaDone b.c.aba b.c.abaInv
    let b := b.touch b.hasChild false
    (r.1, { b with c := { b.c with
      abaInv := r.1, aba := r.2, abaDone := true, abaInvDone := true } })

end Body
end SpatialDyn
