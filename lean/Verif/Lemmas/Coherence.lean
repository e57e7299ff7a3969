import Verif.Spec.Fresh
import Verif.Lemmas.Tree
import Verif.Lemmas.Calculus
import Verif.Lemmas.Positive

/-! The cache invariant and its preservation by every call. -/

namespace SpatialDyn
namespace Body
variable {b : Body}

/-! ## The state-only view -/

theorem worldLoop_spec {n : ℕ} {par : ℕ → Option ℕ} (hp : ParLt n par) (T0 : Iso)
    (Tp Tw0 : ℕ → Iso) (i : ℕ) (hi : i < n) :
    worldLoop n par T0 Tp Tw0 i = match par i with
      | none => T0 * Tp i
      | some p => worldLoop n par T0 Tp Tw0 p * Tp i := by
  have := Sys.fwdLoop_spec' (n := n) (f := fun (Tw : ℕ → Iso) j _ => match par j with
    | none => T0 * Tp j
    | some p => Tw p * Tp j) (fun i hi x y o hxy => by
      cases hpar : par i with
      | none => rfl
      | some p => simp only; rw [hxy p (hp i hi p hpar)]) Tw0 i hi
  exact this

theorem worldLoop_congr {n : ℕ} {par : ℕ → Option ℕ} (hp : ParLt n par) (T0 : Iso)
    {Tp Tp' : ℕ → Iso} (Tw0 Tw0' : ℕ → Iso) (h : ∀ i < n, Tp i = Tp' i) (i : ℕ) (hi : i < n) :
    worldLoop n par T0 Tp Tw0 i = worldLoop n par T0 Tp' Tw0' i := by
  induction i using Nat.strong_induction_on with
  | _ i ih =>
    rw [worldLoop_spec hp _ _ _ i hi, worldLoop_spec hp _ _ _ i hi, h i hi]
    cases hpar : par i with
    | none => rfl
    | some p =>
      have := hp i hi p hpar
      simp only
      rw [ih p this (by omega)]

theorem Rigid.TpAt (h : b.Rigid) {i : ℕ} (hi : i < b.dof) (x : ℝ) : (b.TpAt i x).Valid :=
  (h.link i hi).mul (JType.Tjoint_valid _ x)

theorem Rigid.freshTw (h : b.Rigid) (ht : b.Tree) (i : ℕ) (hi : i < b.dof) :
    (b.freshTw i).Valid := by
  induction i using Nat.strong_induction_on with
  | _ i ih =>
    unfold Body.freshTw at ih ⊢
    rw [worldLoop_spec ht.parLt _ _ _ i hi]
    cases hpar : b.par i with
    | none => exact h.base.mul (h.TpAt hi _)
    | some p =>
      have := ht.parLt i hi p hpar
      exact (ih p this (by omega)).mul (h.TpAt hi _)

theorem fresh_Tp {i : ℕ} (hi : i < b.dof) : b.fresh.Tp i = b.freshTp i := by
  show (if i < b.dof then _ else _) = _
  rw [if_pos hi]

theorem fresh_Tw {i : ℕ} (hi : i < b.dof) : b.fresh.Tw i = b.freshTw i := by
  show (if i < b.dof then _ else _) = _
  rw [if_pos hi]

/-- The state-only view of a tree of rigid transforms is well formed. -/
theorem Rigid.wf (h : b.Rigid) (ht : b.Tree) : b.fresh.WF := by
  refine ⟨ht.parLt, ?_, ?_, ?_⟩
  · intro i hi; rw [fresh_Tp hi]; exact h.TpAt hi _
  · intro i hi; rw [fresh_Tw hi]; exact h.freshTw ht i hi
  · intro i hi p hpar
    have hlt := ht.parLt i hi p hpar
    rw [fresh_Tw hi, fresh_Tw (show p < b.dof from lt_trans hlt hi), fresh_Tp hi]
    have := worldLoop_spec ht.parLt b.T0 b.freshTp (fun _ => 1) i hi
    rw [show b.par i = some p from hpar] at this
    exact this

theorem sysWith_congr {Tp Tp' Tw Tw' : ℕ → Iso} (h1 : ∀ i < b.dof, Tp i = Tp' i)
    (h2 : ∀ i < b.dof, Tw i = Tw' i) : b.sysWith Tp Tw = b.sysWith Tp' Tw' := by
  unfold sysWith
  congr 1
  · funext i; by_cases hi : i < b.dof
    · rw [if_pos hi, if_pos hi, h1 i hi]
    · rw [if_neg hi, if_neg hi]
  · funext i; by_cases hi : i < b.dof
    · rw [if_pos hi, if_pos hi, h2 i hi]
    · rw [if_neg hi, if_neg hi]

/-! ## The invariant -/

/-- `A` is a mass matrix computed by the composite-rigid-body algorithm. -/
def IsA (σ : Sys) (A : ℕ → ℕ → ℝ) : Prop := ∃ Ic0, A = (σ.crba Ic0).2

/-- `J A⁻¹ Jᵀ` and `A⁻¹ Jᵀ` as `opspace::InertiaInverse` computes them. -/
noncomputable def ainvJT (E : Ext) (n : ℕ) (A : ℕ → ℕ → ℝ) (J : DMat) : DMat :=
  ⟨n, J.rows, fun i k => E.solve n A (fun j => J.e k j) i⟩

/-- `Λ⁻¹` of `opspace::InertiaInverseAba` from correct articulated inertias. -/
noncomputable def lambdaInvAba (b : Body) (done : Bool) (c : AbaCache) (link : ℕ) :
    Matrix (Fin 6) (Fin 6) ℝ :=
  Matrix.of fun i k => ((⟨(b.freshTw link).R, 0⟩ : Iso).actM
    (b.fresh.unload.opsForward (b.fresh.unload.opsBackward done c (fun _ => 0)
      (fun j => if j = link then (⟨(b.freshTw j).R.T, 0⟩ : Iso).actF (-Force.unit k) else 0)).2
      (fun _ => 0) (b.anc.getD link []))).entry i

/-- Every cached value whose flag is set is the value determined by the observable state of `b`. -/
structure CohC (E : Ext) (b : Body) (c : Cache) : Prop where
  tp : c.tpDone = true → ∀ i < b.dof, c.Tp i = b.freshTp i
  tw : c.twDone = true → ∀ i < b.dof, c.Tw i = b.freshTw i
  vel : c.velDone = true → b.fresh.VelOK c.v
  jac : c.jacDone = true → c.jacLink < b.dof ∧
    c.J = b.jacLoop b.freshTw (b.anc.getD c.jacLink []) ((b.freshTw c.jacLink).app c.jacOffset)
  cc : c.ccDone = true → ∀ i < b.dof, c.C i = b.fresh.coriolisSpec i
  cC : c.ccDone = true → ∀ i < b.dof, (b.freshTw i).actM (c.cC i) = b.fresh.bias i
  grav : c.gravDone = true → ∀ i < b.dof, c.G i = b.fresh.gravitySpec i
  crba : c.crbaDone = true → ∃ Ic0, c.A = (b.fresh.crba Ic0).2 ∧ c.Ic = (b.fresh.crba Ic0).1
  inv : c.invDone = true → IsA b.fresh c.Afact
  aba : c.abaDone = true → b.fresh.AbaOK c.aba
  abaInv : c.abaInvDone = true → ∃ done k A0, (done = true → b.fresh.AbaOK k) ∧
    c.abaInv = (b.fresh.inertiaInverseAba (fun i => b.sub.getD i []) done k A0).1
  opsInv : c.ops.lambdaInvDone = true → c.ops.J.cols = b.dof ∧ ∃ A, IsA b.fresh A ∧
    c.ops.AinvJT = ainvJT E b.dof A c.ops.J ∧ c.ops.LambdaInv = c.ops.J.mul c.ops.AinvJT
  opsLam : c.ops.lambdaDone = true → c.ops.lambdaInvDone = true ∧
    c.ops.Lambda = (E.pinvOf c.ops.LambdaInv c.ops.eps).1 ∧
    c.ops.singular = (E.pinvOf c.ops.LambdaInv c.ops.eps).2
  opsJbar : c.ops.jbarDone = true → c.ops.lambdaInvDone = true ∧
    ∃ e, c.ops.Jbar = c.ops.AinvJT.mul (E.pinvOf c.ops.LambdaInv e).1
  opsAbaInv : c.opsAba.lambdaInvDone = true → (∀ k, b.load k = none) ∧ c.opsAba.idx < b.dof ∧
    ∃ done k, (done = true → b.fresh.unload.AbaOK k) ∧
      c.opsAba.LambdaInv = lambdaInvAba b done k c.opsAba.idx
  opsAbaLam : c.opsAba.lambdaDone = true → c.opsAba.lambdaInvDone = true ∧
    c.opsAba.Lambda = E.pinv6 c.opsAba.LambdaInv c.opsAba.eps

/-- The invariant of reachable bodies. -/
structure Inv (E : Ext) (b : Body) : Prop where
  tree : b.Tree
  rigid : b.Rigid
  coh : CohC E b b.c

theorem CohC.frame {E : Ext} {c : Cache} (h : CohC E b c) (c' : Cache) :
    CohC E { b with c := c' } c :=
  ⟨h.tp, h.tw, h.vel, h.jac, h.cc, h.cC, h.grav, h.crba, h.inv, h.aba, h.abaInv, h.opsInv, h.opsLam,
    h.opsJbar, h.opsAbaInv, h.opsAbaLam⟩

/-- A call that only rewrites the cache, coherently. -/
def Step (E : Ext) (b b' : Body) : Prop := ∃ c', b' = { b with c := c' } ∧ CohC E b c'

theorem Step.same {E : Ext} {b b' : Body} (h : Step E b b') : b.Same b' := by
  obtain ⟨c', rfl, -⟩ := h; rfl

theorem Inv.step {E : Ext} {b b' : Body} (h : Inv E b) (hs : Step E b b') : Inv E b' := by
  obtain ⟨c', rfl, hc⟩ := hs
  exact ⟨⟨h.tree.lq, h.tree.ldq, h.tree.lanc, h.tree.lsub, h.tree.ids, h.tree.anc_mem,
    h.tree.anc_sorted, h.tree.sub_mem, h.tree.sub_sorted⟩, ⟨h.rigid.base, h.rigid.link⟩, hc.frame c'⟩

theorem Step.refl {E : Ext} (h : Inv E b) : Step E b b := ⟨b.c, rfl, h.coh⟩

theorem Step.trans {E : Ext} {b1 b2 b3 : Body} (h1 : Step E b1 b2) (h2 : Step E b2 b3) :
    Step E b1 b3 := by
  obtain ⟨c', rfl, hc⟩ := h1
  obtain ⟨c'', rfl, hc'⟩ := h2
  exact ⟨c'', rfl, hc'.frame b1.c⟩

variable {E : Ext}

theorem Inv.wf (h : Inv E b) : b.fresh.WF := h.rigid.wf h.tree

theorem Inv.viewTp (h : Inv E b) (i : ℕ) (hi : i < b.dof) : b.viewTp i = b.freshTp i := by
  unfold Body.viewTp
  split
  · next hd => exact h.coh.tp hd i hi
  · rw [Sys.fwdLoop_spec' (fun _ _ _ _ _ _ => rfl) _ i hi]; rfl

theorem Inv.viewTw (h : Inv E b) (i : ℕ) (hi : i < b.dof) : b.viewTw i = b.freshTw i := by
  unfold Body.viewTw
  split
  · next hd => exact h.coh.tw hd i hi
  · exact worldLoop_congr h.tree.parLt _ _ _ h.viewTp i hi

/-- In a reachable state the algorithms read the values determined by the observable state. -/
theorem Inv.view (h : Inv E b) : b.view = b.fresh := sysWith_congr h.viewTp h.viewTw

/-! ## Transform caches -/

theorem touchTp_shape (h : Inv E b) : ∃ T1, b.touchTp =
    { b with c := { b.c with tpDone := true, Tp := T1 } } ∧ ∀ i < b.dof, T1 i = b.freshTp i :=
  ⟨_, rfl, h.viewTp⟩

theorem touchTp_step (h : Inv E b) : Step E b b.touchTp := by
  obtain ⟨T1, e, h1⟩ := touchTp_shape h
  rw [e]
  exact ⟨_, rfl, { h.coh with tp := fun _ => h1 }⟩

theorem touchTw_step (h : Inv E b) : Step E b b.touchTw := by
  unfold touchTw
  split
  · exact Step.refl h
  · exact ⟨_, rfl, { h.coh with tp := fun _ => h.viewTp, tw := fun _ => h.viewTw }⟩

theorem touch_step (h : Inv E b) (tp tw : Bool) : Step E b (b.touch tp tw) := by
  unfold touch
  cases tw <;> cases tp <;> simp only [Bool.false_eq_true, if_true, if_false]
  · exact Step.refl h
  · exact touchTp_step h
  · exact touchTw_step h
  · exact (touchTw_step h).trans (touchTp_step (h.step (touchTw_step h)))

/-- `touch` changes only the transform part of the cache. -/
theorem touch_shape (h : Inv E b) (tp tw : Bool) : ∃ d1 T1 d2 T2, b.touch tp tw =
      { b with c := { b.c with tpDone := d1, Tp := T1, twDone := d2, Tw := T2 } } ∧
    (d1 = true → ∀ i < b.dof, T1 i = b.freshTp i) ∧
    (d2 = true → ∀ i < b.dof, T2 i = b.freshTw i) := by
  have key : ∃ d1 T1 d2 T2, b.touch tp tw =
      { b with c := { b.c with tpDone := d1, Tp := T1, twDone := d2, Tw := T2 } } := by
    unfold touch touchTw touchTp
    cases tw <;> cases tp <;> simp only [Bool.false_eq_true, if_true, if_false] <;>
      (try split) <;> exact ⟨_, _, _, _, rfl⟩
  obtain ⟨d1, T1, d2, T2, e⟩ := key
  obtain ⟨c', e', hc⟩ := touch_step h tp tw
  rw [e] at e'
  have e2 : ({ b.c with tpDone := d1, Tp := T1, twDone := d2, Tw := T2 } : Cache) = c' :=
    congrArg Body.c e'
  subst e2
  exact ⟨d1, T1, d2, T2, e, hc.tp, hc.tw⟩

end Body
end SpatialDyn
