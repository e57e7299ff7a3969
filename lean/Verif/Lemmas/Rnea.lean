import Verif.Lemmas.World

/-! The recursive algorithms compute the world-frame sums. -/

namespace SpatialDyn
open Finset

theorem Sys.ext_getD (σ : Sys) (fext : FExt) (i : ℕ) (f : Force) :
    σ.subExt fext i f = f - (σ.Tw i).inv.actF ((fext i).getD 0) := by
  unfold subExt
  cases fext i <;> simp

namespace Sys
variable {σ : Sys}

theorem velStep_congr (d : ℝ) (a b : ℕ → VAF) (i : ℕ) (hw : ParLt σ.n σ.par) (hi : i < σ.n)
    (h : ∀ j < i, a j = b j) : σ.velStep d a i = σ.velStep d b i := by
  unfold velStep
  cases hpar : σ.par i with
  | none => rfl
  | some p => simp only; rw [h p (hw i hi p hpar)]

/-- A forward step need only be causal below `n`. -/
theorem fwdLoop_spec' {α : Type*} {n : ℕ} {f : (ℕ → α) → ℕ → α → α}
    (hf : ∀ i < n, ∀ a b o, (∀ j < i, a j = b j) → f a i o = f b i o) (a0 : ℕ → α) (i : ℕ)
    (h : i < n) : fwdLoop n f a0 i = f (fwdLoop n f a0) i (a0 i) := by
  set g : (ℕ → α) → ℕ → α → α := fun a i o => if i < n then f a i o else o with hg
  have hc : Causal g := by
    intro a b i o hab
    by_cases hi : i < n
    · simp only [hg, hi, if_true]; exact hf i hi a b o hab
    · simp [hg, hi]
  have hloop : ∀ m ≤ n, fwdLoop m f a0 = fwdLoop m g a0 := by
    intro m hm
    induction m with
    | zero => rfl
    | succ m ih =>
      rw [fwdLoop_succ, fwdLoop_succ, ih (by omega)]
      have : m < n := by omega
      simp [hg, this]
  rw [hloop n le_rfl, fwdLoop_spec hc n a0 i h]
  simp [hg, h]

theorem rneaStep_causal (hw : ParLt σ.n σ.par) (ddq : ℕ → ℝ) (fext : FExt) (o : IDOpts)
    (vd : Bool) : ∀ i < σ.n, ∀ a b old, (∀ j < i, a j = b j) →
      σ.rneaStep ddq fext o vd a i old = σ.rneaStep ddq fext o vd b i old := by
  intro i hi a b old hab
  unfold rneaStep
  rw [velStep_congr _ a b i hw hi hab]
  cases hpar : σ.par i with
  | none => rfl
  | some p => simp only; rw [hab p (hw i hi p hpar)]

theorem ccStep_causal (hw : ParLt σ.n σ.par) (vd : Bool) :
    ∀ i < σ.n, ∀ a b old, (∀ j < i, a j = b j) →
      σ.ccStep vd a i old = σ.ccStep vd b i old := by
  intro i hi a b old hab
  unfold ccStep
  rw [velStep_congr _ a b i hw hi hab]
  cases hpar : σ.par i with
  | none => rfl
  | some p => simp only; rw [hab p (hw i hi p hpar)]

/-- The stored velocities are right: in the world frame they are the body velocities. -/
def VelOK (σ : Sys) (v : ℕ → Motion) : Prop :=
  ∀ i < σ.n, (σ.Tw i).actM (v i) = σ.V σ.dq i

theorem sum_if_smul_V (u : ℕ → ℝ) (i : ℕ) :
    (open Classical in ∑ j ∈ range σ.n, if Anc σ.par j i then (σ.Tw j).actM (u j • σ.S j) else 0)
      = σ.V u i := by
  classical
  unfold V Jw axis
  apply sum_congr rfl
  intro j _
  split
  · simp [Iso.actM_smul]
  · simp

/-- Velocities computed by the recursion are the body velocities. -/
theorem WF.velOK_of_rec (hw : σ.WF) (arr : ℕ → VAF)
    (h : ∀ i < σ.n, (arr i).v = σ.velStep (σ.dq i) arr i) : σ.VelOK fun i => (arr i).v := by
  intro i hi
  show (σ.Tw i).actM (arr i).v = _
  rw [← sum_if_smul_V]
  refine hw.motion_sum (fun i => (arr i).v) (fun i => σ.dq i • σ.S i) ?_ i hi
  intro i hi
  rw [h i hi]
  unfold velStep
  cases σ.par i with
  | none => rfl
  | some p => simp only; rw [add_comm]

theorem WF.bias_term (hw : σ.WF) {v : ℕ → Motion} (hv : σ.VelOK v) {i : ℕ} (hi : i < σ.n) :
    (σ.Tw i).actM ((v i).crossM (σ.dq i • σ.S i)) =
      σ.dq i • (σ.V σ.dq i).crossM (σ.axis i) := by
  rw [(hw.Tw_valid i hi).actM_crossM, hv i hi, Iso.actM_smul, Motion.crossM_smul]
  rfl

theorem sum_if_bias (i : ℕ) :
    (open Classical in ∑ j ∈ range σ.n,
      if Anc σ.par j i then σ.dq j • (σ.V σ.dq j).crossM (σ.axis j) else 0) = σ.bias i := by
  classical
  unfold bias Jw
  apply sum_congr rfl
  intro j _
  split <;> simp

/-- For a root body the bias term of its own axis vanishes. -/
theorem WF.bias_root (hw : σ.WF) {i : ℕ} (hi : i < σ.n) (h : σ.par i = none) :
    σ.dq i • (σ.V σ.dq i).crossM (σ.axis i) = 0 := by
  classical
  have : σ.V σ.dq i = σ.dq i • σ.axis i := by
    rw [← sum_if_smul_V, sum_anc_root hi h, Iso.actM_smul]; rfl
  rw [this, Motion.smul_crossM, Motion.crossM_self, smul_zero, smul_zero]

section rnea
variable (ddq : ℕ → ℝ) (fext : FExt) (o : IDOpts) (vd : Bool) (arr0 : ℕ → VAF)

/-- Stored velocities after the forward pass are right, when the option asks for them. -/
theorem WF.rnea_vel (hw : σ.WF) (h0 : vd = true → σ.VelOK fun i => (arr0 i).v) (hcc : o.cc = true) :
    σ.VelOK fun i => (σ.rneaForward ddq fext o vd arr0 i).v := by
  cases vd with
  | true =>
    intro i hi
    have := fwdLoop_spec' (rneaStep_causal hw.par_lt ddq fext o true) arr0 i hi
    show (σ.Tw i).actM (σ.rneaForward ddq fext o true arr0 i).v = _
    unfold rneaForward
    rw [this]
    simpa [rneaStep] using h0 rfl i hi
  | false =>
    apply hw.velOK_of_rec
    intro i hi
    have := fwdLoop_spec' (rneaStep_causal hw.par_lt ddq fext o false) arr0 i hi
    unfold rneaForward
    rw [this]
    simp [rneaStep, hcc]

/-- World-frame acceleration after the forward pass. -/
theorem WF.rnea_acc (hw : σ.WF) (h0 : vd = true → σ.VelOK fun i => (arr0 i).v) (i : ℕ)
    (hi : i < σ.n) :
    (σ.Tw i).actM (σ.rneaForward ddq fext o vd arr0 i).a =
      σ.V ddq i + (if o.cc then σ.bias i else 0) - (if o.gravity then σ.g else 0) := by
  classical
  set r := σ.rneaForward ddq fext o vd arr0 with hr
  have hspec : ∀ i < σ.n, r i = σ.rneaStep ddq fext o vd r i (arr0 i) :=
    fwdLoop_spec' (rneaStep_causal hw.par_lt ddq fext o vd) arr0
  set G : Motion := if o.gravity then σ.g else 0 with hG
  have hv : ∀ i < σ.n, (if o.cc then (σ.Tw i).actM ((r i).v.crossM (σ.dq i • σ.S i)) else 0) =
      (if o.cc then σ.dq i • (σ.V σ.dq i).crossM (σ.axis i) else 0) := by
    intro i hi
    split
    · next hcc => exact hw.bias_term (hw.rnea_vel ddq fext o vd arr0 h0 hcc) hi
    · rfl
  have key : (σ.Tw i).actM ((r i).a + (σ.Tw i).inv.actM G) =
      ∑ j ∈ range σ.n, if Anc σ.par j i then (σ.Tw j).actM (ddq j • σ.S j +
        (if o.cc then (r j).v.crossM (σ.dq j • σ.S j) else 0)) else 0 := by
    refine hw.motion_sum (fun i => (r i).a + (σ.Tw i).inv.actM G)
      (fun j => ddq j • σ.S j + (if o.cc then (r j).v.crossM (σ.dq j • σ.S j) else 0)) ?_ i hi
    intro i hi
    have h := hspec i hi
    have hvi : (r i).v = (σ.rneaStep ddq fext o vd r i (arr0 i)).v := congrArg VAF.v h
    have hai : (r i).a = (σ.rneaStep ddq fext o vd r i (arr0 i)).a := congrArg VAF.a h
    rw [hai]
    simp only [rneaStep] at hvi ⊢
    rw [← hvi]
    cases hpar : σ.par i with
    | none =>
      simp only
      by_cases hg : o.gravity = true <;> by_cases hcc : o.cc = true <;>
        simp [hG, hg, hcc] <;> abel
    | some p =>
      simp only
      rw [← hw.inv_actM_rec hi hpar, Iso.actM_add]
      by_cases hcc : o.cc = true <;> simp [hcc] <;> abel
  rw [Iso.actM_add, (hw.Tw_valid i hi).actM_inv] at key
  rw [eq_sub_iff_add_eq, key]
  have split1 : ∀ j ∈ range σ.n, (if Anc σ.par j i then (σ.Tw j).actM (ddq j • σ.S j +
        (if o.cc then (r j).v.crossM (σ.dq j • σ.S j) else 0)) else 0) =
      (if Anc σ.par j i then (σ.Tw j).actM (ddq j • σ.S j) else 0) +
      (if o.cc then (if Anc σ.par j i then σ.dq j • (σ.V σ.dq j).crossM (σ.axis j) else 0)
        else 0) := by
    intro j hj
    have := hv j (mem_range.1 hj)
    by_cases hcc : o.cc = true
    · simp only [hcc, if_true] at this ⊢
      split
      · rw [Iso.actM_add, this]
      · simp
    · simp [hcc]
  rw [sum_congr rfl split1, sum_add_distrib, sum_if_smul_V]
  congr 1
  by_cases hcc : o.cc = true
  · simp only [hcc, if_true]; exact sum_if_bias i
  · simp [hcc]

/-- World-frame body force after the forward pass. -/
theorem WF.rnea_force (hw : σ.WF) (h0 : vd = true → σ.VelOK fun i => (arr0 i).v) (i : ℕ)
    (hi : i < σ.n) :
    (σ.Tw i).actF (σ.rneaForward ddq fext o vd arr0 i).f =
      σ.Iw i (σ.V ddq i)
      + (if o.cc then σ.Iw i (σ.bias i) + (σ.V σ.dq i).crossF (σ.Iw i (σ.V σ.dq i)) else 0)
      + (if o.gravity then σ.Iw i (-σ.g) else 0) - (fext i).getD 0 := by
  have hacc := hw.rnea_acc ddq fext o vd arr0 h0 i hi
  have hvel := hw.rnea_vel ddq fext o vd arr0 h0
  set r := σ.rneaForward ddq fext o vd arr0 with hr
  have hspec : r i = σ.rneaStep ddq fext o vd r i (arr0 i) :=
    fwdLoop_spec' (rneaStep_causal hw.par_lt ddq fext o vd) arr0 i hi
  have hf : (r i).f = σ.subExt fext i (if !o.cc then (σ.Itot i).app (r i).a
      else (σ.Itot i).app (r i).a + (r i).v.crossF ((σ.Itot i).app (r i).v)) := by
    have hfi := congrArg VAF.f hspec
    have hvi := congrArg VAF.v hspec
    have hai := congrArg VAF.a hspec
    rw [hfi, hvi, hai]
    rfl
  rw [hf, ext_getD, Iso.actF_sub, (hw.Tw_valid i hi).actF_inv]
  congr 1
  have e1 : (σ.Tw i).actF ((σ.Itot i).app (r i).a) = σ.Iw i ((σ.Tw i).actM (r i).a) :=
    (hw.Iw_actM hi _).symm
  by_cases hcc : o.cc = true
  · have hvi := hvel hcc i hi
    simp only [hcc, Bool.not_true, Bool.false_eq_true, if_false, if_true] at hacc ⊢
    rw [Iso.actF_add, e1, hacc, (hw.Tw_valid i hi).actF_crossF, ← hw.Iw_actM hi, hvi, Iw_sub,
      Iw_add]
    by_cases hg : o.gravity = true
    · simp only [hg, if_true, Iw_neg]; abel
    · simp only [hg]; simp; abel
  · simp only [hcc] at hacc ⊢
    simp only [Bool.not_false, Bool.false_eq_true, if_true, if_false] at hacc ⊢
    rw [e1, hacc, Iw_sub, Iw_add]
    by_cases hg : o.gravity = true
    · simp only [hg, if_true, Iw_neg, Iw_zero]; abel
    · simp only [hg]; simp

/-- The recursive path of `InverseDynamics` without friction computes the world-frame sum. -/
theorem WF.rnea_spec (hw : σ.WF) (h0 : vd = true → σ.VelOK fun i => (arr0 i).v)
    (hfr : o.friction = false) (i : ℕ) (hi : i < σ.n) :
    (σ.rnea ddq fext o vd arr0).1 i = σ.idSpec ddq fext o.cc o.gravity i := by
  unfold rnea
  simp only [addFriction, hfr, Bool.false_eq_true, if_false]
  rw [hw.backward_genForce _ _ i hi]
  rw [genForce_congr (fun k hk => hw.rnea_force ddq fext o vd arr0 h0 k hk)]
  rw [genForce_sub, genForce_add, genForce_add, genForce_Iw_V]
  unfold idSpec extSpec
  rw [sub_eq_add_neg]
  congr 2
  · congr 1
    by_cases hcc : o.cc = true
    · simp only [hcc, if_true]; rfl
    · simp [hcc, genForce]
  · by_cases hg : o.gravity = true
    · simp only [hg, if_true]; rfl
    · simp [hg, genForce]

end rnea

section cc
variable (vd : Bool) (arr0 : ℕ → VAF)

theorem WF.cc_vel (hw : σ.WF) (h0 : vd = true → σ.VelOK fun i => (arr0 i).v) :
    σ.VelOK fun i => (σ.ccForward vd arr0 i).v := by
  cases vd with
  | true =>
    intro i hi
    have := fwdLoop_spec' (ccStep_causal hw.par_lt true) arr0 i hi
    show (σ.Tw i).actM (σ.ccForward true arr0 i).v = _
    unfold ccForward
    rw [this]
    simpa [ccStep] using h0 rfl i hi
  | false =>
    apply hw.velOK_of_rec
    intro i hi
    have := fwdLoop_spec' (ccStep_causal hw.par_lt false) arr0 i hi
    unfold ccForward
    rw [this]
    simp [ccStep]

theorem WF.cc_acc (hw : σ.WF) (h0 : vd = true → σ.VelOK fun i => (arr0 i).v) (i : ℕ)
    (hi : i < σ.n) : (σ.Tw i).actM (σ.ccForward vd arr0 i).a = σ.bias i := by
  classical
  have hvel := hw.cc_vel vd arr0 h0
  set r := σ.ccForward vd arr0 with hr
  have hspec : ∀ i < σ.n, r i = σ.ccStep vd r i (arr0 i) :=
    fwdLoop_spec' (ccStep_causal hw.par_lt vd) arr0
  rw [hw.motion_sum (fun i => (r i).a)
    (fun j => if (σ.par j).isNone then 0 else (r j).v.crossM (σ.dq j • σ.S j)) ?_ i hi]
  · rw [← sum_if_bias]
    apply sum_congr rfl
    intro j hj
    have hj' := mem_range.1 hj
    split
    · cases hpar : σ.par j with
      | none => simp [hw.bias_root hj' hpar]
      | some p => simpa using hw.bias_term hvel hj'
    · rfl
  · intro i hi
    have hvi := congrArg VAF.v (hspec i hi)
    have hai := congrArg VAF.a (hspec i hi)
    rw [hai]
    simp only [ccStep] at hvi ⊢
    rw [← hvi]
    cases hpar : σ.par i <;> simp

theorem WF.cc_force (hw : σ.WF) (h0 : vd = true → σ.VelOK fun i => (arr0 i).v) (i : ℕ)
    (hi : i < σ.n) : (σ.Tw i).actF (σ.ccForward vd arr0 i).f =
      σ.Iw i (σ.bias i) + (σ.V σ.dq i).crossF (σ.Iw i (σ.V σ.dq i)) := by
  have hvel := hw.cc_vel vd arr0 h0 i hi
  have hacc := hw.cc_acc vd arr0 h0 i hi
  set r := σ.ccForward vd arr0 with hr
  have hspec : r i = σ.ccStep vd r i (arr0 i) :=
    fwdLoop_spec' (ccStep_causal hw.par_lt vd) arr0 i hi
  have hf : (r i).f = (σ.Itot i).app (r i).a + (r i).v.crossF ((σ.Itot i).app (r i).v) := by
    rw [congrArg VAF.f hspec, congrArg VAF.v hspec, congrArg VAF.a hspec]
    rfl
  have hvel' : (σ.Tw i).actM (r i).v = σ.V σ.dq i := hvel
  rw [hf, Iso.actF_add, (hw.Tw_valid i hi).actF_crossF, ← hw.Iw_actM hi, ← hw.Iw_actM hi, hacc,
    hvel']

theorem WF.coriolis_spec (hw : σ.WF) (h0 : vd = true → σ.VelOK fun i => (arr0 i).v)
    (C0 : ℕ → ℝ) (i : ℕ) (hi : i < σ.n) : (σ.coriolis vd arr0 C0).1 i = σ.coriolisSpec i := by
  unfold coriolis
  simp only
  rw [hw.backward_genForce _ _ i hi]
  exact genForce_congr (fun k hk => hw.cc_force vd arr0 h0 k hk) i

end cc

theorem WF.gravity_spec (hw : σ.WF) (f0 : ℕ → Force) (G0 : ℕ → ℝ) (i : ℕ) (hi : i < σ.n) :
    (σ.gravity f0 G0).1 i = σ.gravitySpec i := by
  unfold gravity
  simp only
  rw [hw.backward_genForce _ _ i hi]
  refine genForce_congr (fun k hk => ?_) i
  unfold gravForward
  rw [fwdLoop_spec' (fun _ _ _ _ _ _ => rfl) f0 k hk]
  rfl

theorem WF.ext_spec (hw : σ.WF) (fext : FExt) (f0 : ℕ → Force) (i : ℕ) (hi : i < σ.n) :
    (σ.extTorques fext f0).1 i = σ.extSpec fext i := by
  unfold extTorques extSpec
  simp only
  rw [hw.backward_genForce _ _ i hi, ← genForce_neg]
  refine genForce_congr (fun k hk => ?_) i
  unfold extForward
  rw [fwdLoop_spec' (fun _ _ _ _ _ _ => rfl) f0 k hk]
  cases fext k with
  | none => simp
  | some fe => simp only [Option.getD_some]; rw [(hw.Tw_valid k hk).actF_inv]

end Sys
end SpatialDyn
