import Verif.Lemmas.Threads

/-! Programs of accesses run alone do what the calls do. -/

namespace SpatialDyn
namespace BProg
open Prog Body

variable {α β : Type}

@[simp] theorem run_mbind (p : BProg α) (f : α → BProg β) (b : Body) :
    Prog.run memory (p >>= f) b = (f (p.run memory b).1).run memory (p.run memory b).2 :=
  Prog.run_bind p f b

@[simp] theorem run_pure (a : α) (b : Body) : Prog.run memory (pure a : BProg α) b = (a, b) := rfl

@[simp] theorem rd_tree (b : Body) : Rd.tree.run memory b = (b.shape, b) := rfl
@[simp] theorem rd_q (b : Body) : Rd.q.run memory b = (b.q, b) := rfl
@[simp] theorem rd_dq (b : Body) : Rd.dq.run memory b = (b.dq, b) := rfl
@[simp] theorem rd_g (b : Body) : Rd.g.run memory b = (b.g, b) := rfl
@[simp] theorem rd_load (b : Body) : Rd.load.run memory b = (b.load, b) := rfl
@[simp] theorem rd_base (b : Body) : Rd.base.run memory b = (b.T0, b) := rfl
@[simp] theorem rd_tp (b : Body) : Rd.tp.run memory b = (b.c.Tp, b) := rfl
@[simp] theorem rd_tw (b : Body) : Rd.tw.run memory b = (b.c.Tw, b) := rfl
@[simp] theorem rd_v (b : Body) : Rd.v.run memory b = (b.c.v, b) := rfl
@[simp] theorem rd_jacLink (b : Body) : Rd.jacLink.run memory b = (b.c.jacLink, b) := rfl
@[simp] theorem rd_jacOffset (b : Body) : Rd.jacOffset.run memory b = (b.c.jacOffset, b) := rfl
@[simp] theorem rd_J (b : Body) : Rd.J.run memory b = (b.c.J, b) := rfl
@[simp] theorem rd_cC (b : Body) : Rd.cC.run memory b = (b.c.cC, b) := rfl
@[simp] theorem rd_fC (b : Body) : Rd.fC.run memory b = (b.c.fC, b) := rfl
@[simp] theorem rd_C (b : Body) : Rd.C.run memory b = (b.c.C, b) := rfl
@[simp] theorem rd_fG (b : Body) : Rd.fG.run memory b = (b.c.fG, b) := rfl
@[simp] theorem rd_G (b : Body) : Rd.G.run memory b = (b.c.G, b) := rfl
@[simp] theorem rd_a (b : Body) : Rd.a.run memory b = (b.c.a, b) := rfl
@[simp] theorem rd_f (b : Body) : Rd.f.run memory b = (b.c.f, b) := rfl
@[simp] theorem rd_Ic (b : Body) : Rd.Ic.run memory b = (b.c.Ic, b) := rfl
@[simp] theorem rd_A (b : Body) : Rd.A.run memory b = (b.c.A, b) := rfl
@[simp] theorem rd_Afact (b : Body) : Rd.Afact.run memory b = (b.c.Afact, b) := rfl
@[simp] theorem rd_aba (b : Body) : Rd.aba.run memory b = (b.c.aba, b) := rfl
@[simp] theorem rd_abaInv (b : Body) : Rd.abaInv.run memory b = (b.c.abaInv, b) := rfl
@[simp] theorem rd_opsJ (b : Body) : Rd.opsJ.run memory b = (b.c.ops.J, b) := rfl
@[simp] theorem rd_opsEps (b : Body) : Rd.opsEps.run memory b = (b.c.ops.eps, b) := rfl
@[simp] theorem rd_lambda (b : Body) : Rd.lambda.run memory b = (b.c.ops.Lambda, b) := rfl
@[simp] theorem rd_lambdaInv (b : Body) : Rd.lambdaInv.run memory b = (b.c.ops.LambdaInv, b) := rfl
@[simp] theorem rd_ainvJT (b : Body) : Rd.ainvJT.run memory b = (b.c.ops.AinvJT, b) := rfl
@[simp] theorem rd_singular (b : Body) : Rd.singular.run memory b = (b.c.ops.singular, b) := rfl
@[simp] theorem rd_jbar (b : Body) : Rd.jbar.run memory b = (b.c.ops.Jbar, b) := rfl
@[simp] theorem rd_tp' (b : Body) : (Rd.flag .tp).run memory b = (b.c.tpDone, b) := rfl
@[simp] theorem rd_tw' (b : Body) : (Rd.flag .tw).run memory b = (b.c.twDone, b) := rfl
@[simp] theorem rd_vel' (b : Body) : (Rd.flag .vel).run memory b = (b.c.velDone, b) := rfl
@[simp] theorem rd_jac' (b : Body) : (Rd.flag .jac).run memory b = (b.c.jacDone, b) := rfl
@[simp] theorem rd_cc' (b : Body) : (Rd.flag .cc).run memory b = (b.c.ccDone, b) := rfl
@[simp] theorem rd_grav' (b : Body) : (Rd.flag .grav).run memory b = (b.c.gravDone, b) := rfl
@[simp] theorem rd_crba' (b : Body) : (Rd.flag .crba).run memory b = (b.c.crbaDone, b) := rfl
@[simp] theorem rd_inv' (b : Body) : (Rd.flag .inv).run memory b = (b.c.invDone, b) := rfl
@[simp] theorem rd_aba' (b : Body) : (Rd.flag .aba).run memory b = (b.c.abaDone, b) := rfl
@[simp] theorem rd_abaInv' (b : Body) : (Rd.flag .abaInv).run memory b = (b.c.abaInvDone, b) := rfl
@[simp] theorem rd_lambda' (b : Body) : (Rd.flag .lambda).run memory b = (b.c.ops.lambdaDone, b) := rfl
@[simp] theorem rd_lambdaInv' (b : Body) : (Rd.flag .lambdaInv).run memory b = (b.c.ops.lambdaInvDone, b) := rfl
@[simp] theorem rd_jbar' (b : Body) : (Rd.flag .jbar).run memory b = (b.c.ops.jbarDone, b) := rfl

@[simp] theorem run_wr (l : Cell) (x : l.Val) (b : Body) : (wr l x).run memory b = ((), b.putCell l x) := rfl

@[simp] theorem run_ite (c : Prop) [Decidable c] (p q : BProg α) (b : Body) :
    Prog.run memory (if c then p else q) b = if c then p.run memory b else q.run memory b := by
  split <;> rfl

theorem touchTp_done {b : Body} (h : b.c.tpDone = true) : b.touchTp = b := by
  unfold touchTp viewTp
  rw [if_pos h]
  conv_lhs => rw [← h]

@[simp] theorem run_tpArr (b : Body) : tpArr.run memory b = (b.viewTp, b.touchTp) := by
  by_cases h : b.c.tpDone = true
  · simp [tpArr, viewTp, h, touchTp_done h]
  · simp only [tpArr, viewTp, touchTp, run_mbind, rd_tp', run_ite, h, rd_tree, rd_q, rd_tp, run_wr]
    rfl

@[simp] theorem run_twArr (b : Body) : twArr.run memory b = (b.viewTw, b.touchTw) := by
  by_cases h : b.c.twDone = true
  · simp [twArr, viewTw, touchTw, h]
  · simp only [twArr, viewTw, touchTw, run_mbind, rd_tw', run_ite, h, run_tpArr, rd_tree, rd_base,
      rd_tw, run_wr]
    rfl

@[simp] theorem run_tpIf (c : Bool) (b : Body) :
    (tpIf c).run memory b = (if c then b.viewTp else fun _ => 1, if c then b.touchTp else b) := by
  cases c <;> simp [tpIf]

@[simp] theorem run_twIf (c : Bool) (b : Body) :
    (twIf c).run memory b = (if c then b.viewTw else fun _ => 1, if c then b.touchTw else b) := by
  cases c <;> simp [twIf]

@[simp] theorem run_index (i : ℤ) (b : Body) : (index i).run memory b = (b.index i, b) := by
  simp [index]; rfl

theorem run_jacobian (k : ℕ) (x : Vec3) (b : Body) :
    (jacobian k x).run memory b = open Classical in
      if b.c.jacDone = true ∧ b.c.jacLink = k ∧ b.c.jacOffset = x then (b.c.J, b)
      else
        let Tw := b.viewTw
        let J := b.jacLoop Tw (b.anc.getD k []) ((Tw k).app x)
        let b := b.touchTw
        (J, { b with c := { b.c with jacDone := true, jacLink := k, jacOffset := x, J := J } }) := by
  have key : ∀ d : Body, d.shape = b.shape →
      (((Prog.run memory (do
        let t ← Rd.tree
        wr .J (t.body.jacLoop b.viewTw (t.anc.getD k []) ((b.viewTw k).app x))
        wr (.flag .jac) true
        wr .jacLink k
        wr .jacOffset x
        Rd.J) d))) = (b.jacLoop b.viewTw (b.anc.getD k []) ((b.viewTw k).app x),
          { d with c := { d.c with
            jacDone := true, jacLink := k, jacOffset := x
            J := b.jacLoop b.viewTw (b.anc.getD k []) ((b.viewTw k).app x) } }) := by
    intro d hd
    simp only [run_mbind, rd_tree, hd, run_wr]
    rfl
  have hs : b.touchTw.shape = b.shape := by unfold touchTw; split <;> rfl
  have := key _ hs
  by_cases h1 : b.c.jacDone = true
  · by_cases h2 : b.c.jacLink = k
    · by_cases h3 : b.c.jacOffset = x
      · rw [if_pos ⟨h1, h2, h3⟩]
        simp [jacobian, h1, h2, h3]
      · rw [if_neg fun h => h3 h.2.2]
        simp only [jacobian, run_mbind, rd_jac', h1, run_ite, if_true, rd_jacLink, h2, rd_jacOffset,
          run_pure, h3, decide_false, Bool.false_eq_true, if_false, run_twArr] at this ⊢
        exact this
    · rw [if_neg fun h => h2 h.2.1]
      simp only [jacobian, run_mbind, rd_jac', h1, run_ite, if_true, rd_jacLink, h2,
          run_pure, Bool.false_eq_true, if_false, run_twArr] at this ⊢
      exact this
  · rw [if_neg fun h => h1 h.1]
    simp only [jacobian, run_mbind, rd_jac', h1, run_ite, run_pure, if_false, run_twArr,
      Bool.false_eq_true] at this ⊢
    exact this

end BProg

/-! ## Transforms that are not used do not matter -/

namespace Sys
variable {σ : Sys} {P Q : ℕ → Iso}

theorem backward_irrel (h : ∀ i < σ.n, σ.par i ≠ none → P i = σ.Tp i) (f : ℕ → Force)
    (t : ℕ → ℝ) : ({ σ with Tp := P, Tw := Q } : Sys).backward f t = σ.backward f t := by
  unfold backward bwdLoop
  refine List.foldl_ext _ _ _ fun s i hi => ?_
  have hi : i < σ.n := by simpa using hi
  have := h i hi
  cases hp : σ.par i with
  | none => rfl
  | some p => simp only [hp]; rw [this (by simp [hp])]

theorem extTorques_irrel (h : ∀ i < σ.n, σ.par i ≠ none → P i = σ.Tp i) {fext : FExt}
    (h2 : ∀ i < σ.n, fext i ≠ none → Q i = σ.Tw i) (f0 : ℕ → Force) :
    ({ σ with Tp := P, Tw := Q } : Sys).extTorques fext f0 = σ.extTorques fext f0 := by
  have e : ({ σ with Tp := P, Tw := Q } : Sys).extForward fext f0 = σ.extForward fext f0 := by
    unfold extForward fwdLoop
    refine List.foldl_ext _ _ _ fun s i hi => ?_
    have hi : i < σ.n := by simpa using hi
    have := h2 i hi
    cases hf : fext i with
    | none => simp [hf]
    | some p => simp only [hf]; rw [this (by simp [hf])]
  unfold extTorques
  simp only [backward_irrel h, e]

theorem rnea_irrel (h : ∀ i < σ.n, σ.par i ≠ none → P i = σ.Tp i) {fext : FExt} {o : IDOpts}
    (h2 : ∀ i < σ.n, fext i ≠ none ∨ (o.gravity = true ∧ σ.par i = none) → Q i = σ.Tw i)
    (ddq : ℕ → ℝ) (vd : Bool) (arr : ℕ → VAF) :
    ({ σ with Tp := P, Tw := Q } : Sys).rnea ddq fext o vd arr = σ.rnea ddq fext o vd arr := by
  have e : ({ σ with Tp := P, Tw := Q } : Sys).rneaForward ddq fext o vd arr =
      σ.rneaForward ddq fext o vd arr := by
    unfold rneaForward fwdLoop
    refine List.foldl_ext _ _ _ fun s i hi => ?_
    have hi : i < σ.n := by simpa using hi
    have h2 := h2 i hi
    have h1 := h i hi
    congr 1
    have es : ({ σ with Tp := P, Tw := Q } : Sys).subExt fext i = σ.subExt fext i := by
      unfold subExt
      cases hf : fext i with
      | none => rfl
      | some p => simp only; rw [h2 (by simp [hf])]
    unfold rneaStep
    cases hp : σ.par i with
    | none =>
      cases hg : o.gravity with
      | false => simp only [velStep, hp, es]; rfl
      | true =>
        simp only [velStep, hp, es, h2 (Or.inr ⟨hg, hp⟩)]; rfl
    | some p => simp only [velStep, hp, es, h1 (by simp [hp])]; rfl
  unfold rnea
  simp only [backward_irrel h, e]
  rfl

theorem coriolis_irrel (h : ∀ i < σ.n, σ.par i ≠ none → P i = σ.Tp i) (vd : Bool) (arr : ℕ → VAF)
    (C : ℕ → ℝ) :
    ({ σ with Tp := P, Tw := Q } : Sys).coriolis vd arr C = σ.coriolis vd arr C := by
  have e : ({ σ with Tp := P, Tw := Q } : Sys).ccForward vd arr = σ.ccForward vd arr := by
    unfold ccForward fwdLoop
    refine List.foldl_ext _ _ _ fun s i hi => ?_
    have hi : i < σ.n := by simpa using hi
    have h1 := h i hi
    congr 1
    unfold ccStep
    cases hp : σ.par i with
    | none => simp only [velStep, hp]; rfl
    | some p => simp only [velStep, hp, h1 (by simp [hp])]; rfl
  unfold coriolis
  simp only [backward_irrel h, e]

theorem gravity_irrel (h : ∀ i < σ.n, σ.par i ≠ none → P i = σ.Tp i)
    (h2 : ∀ i < σ.n, Q i = σ.Tw i) (f : ℕ → Force) (G : ℕ → ℝ) :
    ({ σ with Tp := P, Tw := Q } : Sys).gravity f G = σ.gravity f G := by
  have e : ({ σ with Tp := P, Tw := Q } : Sys).gravForward f = σ.gravForward f := by
    unfold gravForward fwdLoop
    refine List.foldl_ext _ _ _ fun s i hi => ?_
    have hi : i < σ.n := by simpa using hi
    simp only [h2 i hi]
    rfl
  unfold gravity
  simp only [backward_irrel h, e]

theorem crba_irrel (h : P = σ.Tp ∨ ∀ i < σ.n, σ.par i = none) (I : ℕ → Inertia) (d : ℕ → ℝ) (g : Motion) :
    ({ σ with Tp := P, Tw := Q, dq := d, g := g } : Sys).crba I = σ.crba I := by
  rcases h with h | h
  · have walk : ∀ (i k : ℕ) (j : Option ℕ) (c : ℕ) (f : Force) (A : ℕ → ℕ → ℝ),
      ({ σ with Tp := P, Tw := Q, dq := d, g := g } : Sys).crbaWalk i k j c f A = σ.crbaWalk i k j c f A := by
      intro i k
      induction k with
      | zero => intros; rfl
      | succ k ih =>
        intro j c f A
        cases j with
        | none => rfl
        | some p => simp only [crbaWalk, h]; exact h ▸ ih _ _ _ _
    unfold crba
    refine List.foldl_ext _ _ _ fun s i hi => ?_
    unfold crbaStep
    subst h
    refine Prod.ext rfl ?_
    exact walk _ _ _ _ _ _
  · unfold crba
    refine List.foldl_ext _ _ _ fun s i hi => ?_
    have hi : i < σ.n := by simpa using hi
    unfold crbaStep
    simp only [h i hi]
    cases hn : σ.n with
    | zero => omega
    | succ n => rfl

theorem aba_irrel {fext : FExt} {o : FDOpts}
    (h : ∀ i < σ.n, σ.par i ≠ none ∨ (o.gravity = true ∧ σ.par i = none) → P i = σ.Tp i)
    (h2 : ∀ i < σ.n, fext i ≠ none → Q i = σ.Tw i) (tau : ℕ → ℝ) (vd done : Bool) (arr : ℕ → VAF)
    (c : AbaCache) :
    ({ σ with Tp := P, Tw := Q } : Sys).aba tau fext o vd done arr c =
      σ.aba tau fext o vd done arr c := by
  have e1 : ({ σ with Tp := P, Tw := Q } : Sys).abaForward fext o vd arr =
      σ.abaForward fext o vd arr := by
    unfold abaForward fwdLoop
    refine List.foldl_ext _ _ _ fun s i hi => ?_
    have hi : i < σ.n := by simpa using hi
    have h1 := h i hi
    congr 1
    have es : ({ σ with Tp := P, Tw := Q } : Sys).subExt fext i = σ.subExt fext i := by
      unfold subExt
      cases hf : fext i with
      | none => rfl
      | some p => simp only; rw [h2 i hi (by simp [hf])]
    unfold abaStep
    cases hp : σ.par i with
    | none => simp only [velStep, hp, es]; rfl
    | some p => simp only [velStep, hp, es, h1 (by simp [hp])]; rfl
  have e2 : ∀ a B C, ({ σ with Tp := P, Tw := Q } : Sys).abaBackward tau o done c a B C =
      σ.abaBackward tau o done c a B C := by
    intro a B C
    unfold abaBackward bwdLoop
    refine List.foldl_ext _ _ _ fun s i hi => ?_
    have hi : i < σ.n := by simpa using hi
    have h1 := h i hi
    cases hp : σ.par i with
    | none => rfl
    | some p => simp only [hp, abaContribI, h1 (by simp [hp])]; rfl
  have e3 : ∀ out B, fwdLoop σ.n (({ σ with Tp := P, Tw := Q } : Sys).abaLastStep o.gravity out) B =
      fwdLoop σ.n (σ.abaLastStep o.gravity out) B := by
    intro out B
    unfold fwdLoop
    refine List.foldl_ext _ _ _ fun s i hi => ?_
    have hi : i < σ.n := by simpa using hi
    have h1 := h i hi
    congr 1
    unfold abaLastStep
    cases hp : σ.par i with
    | none =>
      cases hg : o.gravity with
      | false => simp
      | true => simp only [h1 (Or.inr ⟨hg, hp⟩)]
    | some p => simp only [h1 (by simp [hp])]
  unfold aba
  simp only [e1, e2, e3]
  rfl

theorem inertiaInverseAba_irrel (h : ∀ i < σ.n, σ.par i ≠ none → P i = σ.Tp i)
    (sub : ℕ → List ℕ) (done : Bool) (c : AbaCache) (A : ℕ → ℕ → ℝ) :
    ({ σ with Tp := P, Tw := Q } : Sys).inertiaInverseAba sub done c A =
      σ.inertiaInverseAba sub done c A := by
  have e1 : ({ σ with Tp := P, Tw := Q } : Sys).invBackward sub done c A =
      σ.invBackward sub done c A := by
    unfold invBackward bwdLoop
    refine List.foldl_ext _ _ _ fun s i hi => ?_
    have hi : i < σ.n := by simpa using hi
    have h1 := h i hi
    cases hp : σ.par i with
    | none => rfl
    | some p => simp only [hp, abaContribI, h1 (by simp [hp])]; rfl
  have e2 : ∀ out, ({ σ with Tp := P, Tw := Q } : Sys).invForward sub out =
      σ.invForward sub out := by
    intro out
    unfold invForward
    refine List.foldl_ext _ _ _ fun s i hi => ?_
    have hi : i < σ.n := by simpa using hi
    have h1 := h i hi
    refine List.foldl_ext _ _ _ fun s j _ => ?_
    unfold invFwdInner
    cases hp : σ.par i with
    | none => rfl
    | some p => simp only [h1 (by simp [hp])]
  unfold inertiaInverseAba
  simp only [e1, e2]

end Sys

namespace BProg
open Prog Body

theorem touchTw_form (b : Body) : ∃ x y z w, b.touchTw =
    { b with c := { b.c with tpDone := x, Tp := y, twDone := z, Tw := w } } := by
  unfold touchTw
  split
  · exact ⟨b.c.tpDone, b.c.Tp, b.c.twDone, b.c.Tw, rfl⟩
  · exact ⟨_, _, _, _, rfl⟩

theorem touch_form (b : Body) (tp tw : Bool) : ∃ x y z w, b.touch tp tw =
    { b with c := { b.c with tpDone := x, Tp := y, twDone := z, Tw := w } } := by
  unfold touch
  obtain ⟨x, y, z, w, e⟩ := touchTw_form b
  cases tp <;> cases tw <;> simp only [if_true, if_false, Bool.false_eq_true]
  · exact ⟨b.c.tpDone, b.c.Tp, b.c.twDone, b.c.Tw, rfl⟩
  · exact ⟨x, y, z, w, e⟩
  · exact ⟨_, _, b.c.twDone, b.c.Tw, rfl⟩
  · rw [e]; exact ⟨_, _, _, _, rfl⟩

theorem viewTp_touchTw (b : Body) : b.touchTw.viewTp = b.viewTp := by
  unfold touchTw
  split
  · rfl
  · rfl

/-- Fetching transforms: `T_to_world` first, then `T_to_parent`. -/
theorem fetch (b : Body) (tw tp : Bool) :
    (if tp = true then (if tw = true then b.touchTw else b).viewTp else fun _ => 1) =
      (if tp = true then b.viewTp else fun _ => 1) ∧
    (if tp = true then (if tw = true then b.touchTw else b).touchTp
      else (if tw = true then b.touchTw else b)) = b.touch tp tw := by
  refine ⟨?_, rfl⟩
  cases tp <;> cases tw <;> simp [viewTp_touchTw]

theorem not_hasChild {b : Body} (h : b.hasChild = false) {i : ℕ} (hi : i < b.dof) :
    b.par i = none := by
  unfold hasChild at h
  rw [List.any_eq_false] at h
  have := h i (List.mem_range.2 hi)
  cases hp : b.par i with
  | none => rfl
  | some p => simp [hp] at this

theorem not_hasRoot {b : Body} (h : b.hasRoot = false) {i : ℕ} (hi : i < b.dof) :
    b.par i ≠ none := by
  unfold hasRoot at h
  rw [List.any_eq_false] at h
  have := h i (List.mem_range.2 hi)
  intro hp
  simp [hp] at this

theorem not_hasExt {b : Body} {fext : FExt} (h : b.hasExt fext = false) {i : ℕ} (hi : i < b.dof) :
    fext i = none := by
  unfold hasExt at h
  rw [List.any_eq_false] at h
  have := h i (List.mem_range.2 hi)
  cases hp : fext i with
  | none => rfl
  | some p => simp [hp] at this

/-- The view with other transforms. -/
theorem sysWith_tr (b : Body) (P Q : ℕ → Iso) : b.sysWith P Q =
    { b.view with Tp := fun i => if i < b.dof then P i else 1,
                  Tw := fun i => if i < b.dof then Q i else 1 } := rfl

theorem run_externalTorques (fext : FExt) (b : Body) :
    (externalTorques fext).run memory b = b.externalTorques fext := by
  unfold externalTorques Body.externalTorques
  simp only [run_mbind, rd_tree, run_twIf, run_tpIf, rd_fG, run_wr, run_pure]
  rw [(fetch b _ _).1, (fetch b _ _).2]
  obtain ⟨x, y, z, w, e⟩ := touch_form b b.hasChild (b.hasExt fext)
  have key : (b.sysWith (if b.hasChild = true then b.viewTp else fun _ => 1)
      (if b.hasExt fext = true then b.viewTw else fun _ => 1)).extTorques fext b.c.fG =
      b.view.extTorques fext b.c.fG := by
    rw [sysWith_tr]
    refine Sys.extTorques_irrel (fun i hi hp => ?_) (fun i hi hp => ?_) _
    · cases h : b.hasChild with
      | true => rfl
      | false => exact absurd (not_hasChild h hi) hp
    · cases h : b.hasExt fext with
      | true => rfl
      | false => exact absurd (not_hasExt h hi) hp
  rw [← key]
  show _ = (_, (b.touch b.hasChild (b.hasExt fext)).putCell .fG _)
  have e2 : (b.touch b.hasChild (b.hasExt fext)).c.fG = b.c.fG := by rw [e]
  have e3 : (b.shape.body.hasExt fext) = b.hasExt fext := rfl
  have e4 : (b.shape.body.hasChild) = b.hasChild := rfl
  rw [e3, e4, e2]
  rfl

theorem run_friction (tau : ℕ → ℝ) (c : Bool) (e : ℝ) (b : Body) :
    (friction tau c e).run memory b = (b.friction tau c e, b) := rfl

theorem run_idCached (o : IDOpts) (b : Body) : (idCached o).run memory b =
    (b.c.crbaDone && (!o.cc || b.c.ccDone) && (!o.gravity || b.c.gravDone), b) := by
  unfold idCached
  cases o.cc <;> cases o.gravity <;> cases h1 : b.c.crbaDone <;> cases h2 : b.c.ccDone <;>
    cases h3 : b.c.gravDone <;> simp [h1, h2, h3]

theorem run_inverseDynamics (ddq : ℕ → ℝ) (fext : FExt) (o : IDOpts) (b : Body) :
    (inverseDynamics ddq fext o).run memory b = b.inverseDynamics ddq fext o := by
  unfold inverseDynamics Body.inverseDynamics
  rw [run_mbind, run_idCached]
  cases h : (b.c.crbaDone && (!o.cc || b.c.ccDone) && (!o.gravity || b.c.gravDone)) with
  | true =>
    simp only [if_true, run_mbind, rd_A, rd_tree, run_externalTorques]
    have e : ∃ x y z w F, (b.externalTorques fext).2 =
        { b with c := { b.c with tpDone := x, Tp := y, twDone := z, Tw := w, fG := F } } := by
      obtain ⟨x, y, z, w, e⟩ := touch_form b b.hasChild (b.hasExt fext)
      refine ⟨x, y, z, w, (b.view.extTorques fext b.c.fG).2, ?_⟩
      unfold Body.externalTorques
      simp only [e]
    obtain ⟨x, y, z, w, F, e⟩ := e
    obtain ⟨og, oc, of, oe⟩ := o
    cases og <;> cases oc <;> cases of <;>
      simp only [if_true, if_false, Bool.false_eq_true, run_mbind, run_pure, rd_C, rd_G,
        run_friction, e] <;> rfl
  | false =>
    simp only [if_false, Bool.false_eq_true, run_mbind, rd_tree, rd_load, rd_dq, rd_g, rd_vel',
      run_twIf, run_tpIf, rd_v, rd_a, rd_f, run_wr, run_pure]
    rw [(fetch b _ _).1, (fetch b _ _).2]
    obtain ⟨x, y, z, w, e⟩ := touch_form b b.hasChild ((o.gravity && b.hasRoot) || b.hasExt fext)
    have key : (b.sysWith (if b.hasChild = true then b.viewTp else fun _ => 1)
        (if ((o.gravity && b.hasRoot) || b.hasExt fext) = true then b.viewTw
          else fun _ => 1)).rnea ddq fext o b.c.velDone b.vaf =
        b.view.rnea ddq fext o b.c.velDone b.vaf := by
      rw [sysWith_tr]
      refine Sys.rnea_irrel (fun i hi hp => ?_) (fun i hi hp => ?_) _ _ _
      · cases h : b.hasChild with
        | true => rfl
        | false => exact absurd (not_hasChild h hi) hp
      · cases h : ((o.gravity && b.hasRoot) || b.hasExt fext) with
        | true => rfl
        | false =>
          rw [Bool.or_eq_false_iff] at h
          rcases hp with hp | ⟨hg, hp⟩
          · exact absurd (not_hasExt h.2 hi) hp
          · rw [hg, Bool.true_and] at h
            exact absurd hp (not_hasRoot h.1 hi)
    rw [← key]
    have e3 : (b.shape.body.hasExt fext) = b.hasExt fext := rfl
    have e4 : (b.shape.body.hasChild) = b.hasChild := rfl
    have e5 : (b.shape.body.hasRoot) = b.hasRoot := rfl
    simp only [e3, e4, e5, e]
    rfl

theorem run_centrifugalCoriolis (b : Body) :
    centrifugalCoriolis.run memory b = b.centrifugalCoriolis := by
  unfold centrifugalCoriolis Body.centrifugalCoriolis
  cases h : b.c.ccDone with
  | true => simp [h]
  | false =>
    simp only [if_false, Bool.false_eq_true, run_mbind, rd_cc', h, rd_tree, rd_load, rd_dq, rd_vel',
      run_ite, run_tpIf, rd_v, rd_cC, rd_fC, rd_C, run_wr]
    obtain ⟨x, y, z, w, e⟩ := touch_form b b.hasChild false
    have e1 : (if b.hasChild = true then b.touchTp else b) = b.touch b.hasChild false := rfl
    have key : ∀ arr C, (b.sysWith (if b.hasChild = true then b.viewTp else fun _ => 1)
        (fun _ => 1)).coriolis b.c.velDone arr C = b.view.coriolis b.c.velDone arr C := by
      intro arr C
      rw [sysWith_tr]
      refine Sys.coriolis_irrel (fun i hi hp => ?_) _ _ _
      cases h : b.hasChild with
      | true => rfl
      | false => exact absurd (not_hasChild h hi) hp
    have e4 : (b.shape.body.hasChild) = b.hasChild := rfl
    have k0 : ∀ arr C, (sys b.shape b.load b.dq 0 (if b.hasChild = true then b.viewTp else fun _ => 1)
        fun _ => 1).coriolis b.c.velDone arr C = b.view.coriolis b.c.velDone arr C := by
      intro arr C
      rw [← key]; rfl
    simp only [e4, e1, e, k0]
    generalize b.view.coriolis _ _ _ = r
    simp only [putCell, putFlag]

theorem run_gravity (b : Body) : gravity.run memory b = b.gravity := by
  unfold gravity Body.gravity
  cases h : b.c.gravDone with
  | true => simp [h]
  | false =>
    simp only [if_false, Bool.false_eq_true, run_mbind, rd_grav', h, rd_tree, rd_load, rd_g,
      run_ite, run_twIf, run_tpIf, rd_fG, rd_G, run_wr]
    rw [(fetch b _ _).1, (fetch b _ _).2]
    obtain ⟨x, y, z, w, e⟩ := touch_form b b.hasChild (decide (0 < b.dof))
    have key : ∀ f G, (b.sysWith (if b.hasChild = true then b.viewTp else fun _ => 1)
        (if decide (0 < b.dof) = true then b.viewTw else fun _ => 1)).gravity f G =
        b.view.gravity f G := by
      intro f G
      rw [sysWith_tr]
      refine Sys.gravity_irrel (fun i hi hp => ?_) (fun i hi => ?_) _ _
      · cases h : b.hasChild with
        | true => rfl
        | false => exact absurd (not_hasChild h hi) hp
      · have : 0 < b.dof := lt_of_le_of_lt (Nat.zero_le _) hi
        simp only [this, decide_true, if_true]; rfl
    have e4 : (b.shape.body.hasChild) = b.hasChild := rfl
    have e5 : (b.shape.body.dof) = b.dof := rfl
    rw [← key]
    simp only [e4, e5, e]
    rfl

theorem run_inertia (b : Body) : inertia.run memory b = b.inertia := by
  unfold inertia Body.inertia
  cases h : b.c.crbaDone with
  | true => simp [h]
  | false =>
    simp only [if_false, Bool.false_eq_true, run_mbind, rd_crba', h, rd_tree, rd_load,
      run_ite, run_tpIf, rd_Ic, run_wr]
    obtain ⟨x, y, z, w, e⟩ := touch_form b b.hasChild false
    have e1 : (if b.hasChild = true then b.touchTp else b) = b.touch b.hasChild false := rfl
    have key : ∀ I, (sys b.shape b.load [] 0 (if b.hasChild = true then b.viewTp else fun _ => 1)
        fun _ => 1).crba I = b.view.crba I := by
      intro I
      refine Sys.crba_irrel (σ := b.view) ?_ _ _ _
      cases h : b.hasChild with
      | true => exact Or.inl rfl
      | false => exact Or.inr fun i hi => not_hasChild h hi
    have e4 : (b.shape.body.hasChild) = b.hasChild := rfl
    simp only [e4, e1, e, key]
    generalize b.view.crba _ = r
    rfl

theorem run_inertiaInverse (b : Body) : inertiaInverse.run memory b = b.inertiaInverse := by
  unfold inertiaInverse Body.inertiaInverse
  cases h : b.c.invDone with
  | true => simp [h]
  | false =>
    simp only [if_false, Bool.false_eq_true, run_mbind, rd_inv', h, run_ite, run_inertia, run_wr]
    rfl

theorem run_forwardDynamics (E : Ext) (tau : ℕ → ℝ) (fext : FExt) (o : FDOpts) (b : Body) :
    (forwardDynamics E tau fext o).run memory b = b.fd E tau fext o := by
  unfold forwardDynamics Body.fd
  simp only [run_mbind, run_inverseDynamics, run_inertiaInverse, rd_tree, run_pure]
  have e : ∀ x : IDOpts, (b.inverseDynamics (fun _ => 0) fext x).2.shape = b.shape ∧
      (b.inverseDynamics (fun _ => 0) fext x).2.dq = b.dq := by
    intro x
    unfold Body.inverseDynamics
    split
    · unfold Body.externalTorques
      obtain ⟨x, y, z, w, e⟩ := touch_form b b.hasChild (b.hasExt fext)
      simp only [e]; exact ⟨rfl, trivial⟩
    · obtain ⟨x, y, z, w, e⟩ := touch_form b b.hasChild ((x.gravity && b.hasRoot) || b.hasExt fext)
      simp only [e]; exact ⟨rfl, trivial⟩
  have ei : ∀ d : Body, d.inertiaInverse.2.shape = d.shape := by
    intro d
    unfold Body.inertiaInverse Body.inertia
    obtain ⟨x, y, z, w, e⟩ := touch_form d d.hasChild false
    split
    · rfl
    · split
      · rfl
      · simp only [e]; rfl
  have e' := e ⟨o.gravity, o.cc, false, 0.01⟩
  have ed : ∀ t : Shape, t = b.shape → t.body.dof = b.dof := fun t h => by rw [h]; rfl
  cases ho : o.friction with
  | true =>
    simp only [if_true, run_mbind, run_friction, run_pure, run_inertiaInverse, rd_tree]
    rw [ed _ ((ei _).trans e'.1)]
    have hf : ∀ t, (b.inverseDynamics (fun _ => 0) fext ⟨o.gravity, o.cc, false, 0.01⟩).2.friction t
        false o.eps = b.friction t false o.eps := by
      intro t
      have : ∀ d d' : Body, d.shape = d'.shape → d.dq = d'.dq → d.friction t false o.eps =
          d'.friction t false o.eps := by
        intro d d' h1 h2
        show (sys d.shape (fun _ => none) d.dq 0 (fun _ => 1) (fun _ => 1)).friction t false o.eps = _
        rw [h1, h2]; rfl
      exact this _ _ e'.1 e'.2
    rw [hf]
    unfold Sys.fdRhs
    rw [if_pos ho]
    rfl
  | false =>
    simp only [if_false, Bool.false_eq_true, run_pure, run_mbind, run_inertiaInverse, rd_tree]
    rw [ed _ ((ei _).trans e'.1)]
    unfold Sys.fdRhs
    rw [if_neg (by simp [ho])]

theorem run_forwardDynamicsAba (tau : ℕ → ℝ) (fext : FExt) (o : FDOpts) (b : Body) :
    (forwardDynamicsAba tau fext o).run memory b = b.forwardDynamicsAba tau fext o := by
  unfold forwardDynamicsAba Body.forwardDynamicsAba
  simp only [run_mbind, rd_tree, rd_load, rd_dq, rd_g, rd_vel', rd_aba', rd_aba,
      run_twIf, run_tpIf, rd_v, rd_a, rd_f, run_wr, run_pure]
  rw [(fetch b _ _).1, (fetch b _ _).2]
  obtain ⟨x, y, z, w, e⟩ := touch_form b (b.hasChild || (o.gravity && b.hasRoot)) (b.hasExt fext)
  have key : (b.sysWith (if (b.hasChild || (o.gravity && b.hasRoot)) = true then b.viewTp
        else fun _ => 1)
      (if b.hasExt fext = true then b.viewTw else fun _ => 1)).aba tau fext o b.c.velDone b.c.abaDone
        b.vaf b.c.aba =
      b.view.aba tau fext o b.c.velDone b.c.abaDone b.vaf b.c.aba := by
    rw [sysWith_tr]
    refine Sys.aba_irrel (fun i hi hp => ?_) (fun i hi hp => ?_) _ _ _ _ _
    · cases h : (b.hasChild || (o.gravity && b.hasRoot)) with
      | true => rfl
      | false =>
        rw [Bool.or_eq_false_iff] at h
        rcases hp with hp | ⟨hg, hp⟩
        · exact absurd (not_hasChild h.1 hi) hp
        · rw [hg, Bool.true_and] at h
          exact absurd hp (not_hasRoot h.2 hi)
    · cases h : b.hasExt fext with
      | true => rfl
      | false => exact absurd (not_hasExt h hi) hp
  have e3 : (b.shape.body.hasExt fext) = b.hasExt fext := rfl
  have e4 : (b.shape.body.hasChild) = b.hasChild := rfl
  have e5 : (b.shape.body.hasRoot) = b.hasRoot := rfl
  have k0 : (sys b.shape b.load b.dq b.g (if (b.hasChild || (o.gravity && b.hasRoot)) = true
        then b.viewTp else fun _ => 1)
      (if b.hasExt fext = true then b.viewTw else fun _ => 1)).aba tau fext o b.c.velDone b.c.abaDone
        (fun i => ⟨b.c.v i, b.c.a i, b.c.f i⟩) b.c.aba =
      b.view.aba tau fext o b.c.velDone b.c.abaDone b.vaf b.c.aba := key
  simp only [e3, e4, e5, e, k0]
  generalize b.view.aba _ _ _ _ _ _ _ = r
  simp only [putCell, putFlag]

theorem run_inertiaInverseAba (b : Body) :
    inertiaInverseAba.run memory b = b.inertiaInverseAba := by
  unfold inertiaInverseAba Body.inertiaInverseAba
  cases h : b.c.abaInvDone with
  | true => simp [h]
  | false =>
    simp only [if_false, Bool.false_eq_true, run_mbind, rd_abaInv', h, rd_tree, rd_load, rd_aba',
      run_ite, run_tpIf, rd_aba, rd_abaInv, run_wr]
    obtain ⟨x, y, z, w, e⟩ := touch_form b b.hasChild false
    have e1 : (if b.hasChild = true then b.touchTp else b) = b.touch b.hasChild false := rfl
    have key : ∀ s d c A, (b.sysWith (if b.hasChild = true then b.viewTp else fun _ => 1)
        (fun _ => 1)).inertiaInverseAba s d c A = b.view.inertiaInverseAba s d c A := by
      intro s d c A
      rw [sysWith_tr]
      refine Sys.inertiaInverseAba_irrel (fun i hi hp => ?_) _ _ _ _
      cases h : b.hasChild with
      | true => rfl
      | false => exact absurd (not_hasChild h hi) hp
    have e4 : (b.shape.body.hasChild) = b.hasChild := rfl
    rw [← key]
    simp only [e4, e1, e]
    rfl

end BProg
end SpatialDyn
