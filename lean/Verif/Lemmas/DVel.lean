import Verif.Lemmas.Transparent
import Verif.Lemmas.Mechanics

/-! What `InverseDynamicsVelocityDerivative` computes, and how inverse dynamics depends on one joint
velocity. -/

namespace SpatialDyn
open Finset

namespace Sys
variable {σ : Sys}

/-- Change of the velocity-product acceleration of body `k` with the rate of joint `m`. -/
noncomputable def dbias (σ : Sys) (k m : ℕ) : Motion :=
  (∑ j ∈ range σ.n, σ.dq j • (σ.Jw j m).crossM (σ.Jw k j)) + (σ.V σ.dq m).crossM (σ.Jw k m)

/-- Change of the velocity-product force on body `k`. -/
noncomputable def dforce (σ : Sys) (k m : ℕ) : Force :=
  σ.Iw k (σ.dbias k m) + (σ.Jw k m).crossF (σ.Iw k (σ.V σ.dq k)) +
    (σ.V σ.dq k).crossF (σ.Iw k (σ.Jw k m))

section
variable {v : ℕ → Motion}

/-- The columns of the forward pass satisfy the recursions without the index restrictions. -/
theorem WF.dvel_cols (hw : σ.WF) (v : ℕ → Motion) (m : ℕ) :
    let arr := fwdLoop σ.n (σ.dvelStep v) (fun _ => ⟨fun _ => 0, fun _ => 0, fun _ => 0⟩)
    (∀ i < σ.n, (arr i).dv m = match σ.par i with
      | none => if m = i then σ.S i else 0
      | some p => (σ.Tp i).inv.actM ((arr p).dv m) + if m = i then σ.S i else 0) ∧
    (∀ i < σ.n, (arr i).da m = match σ.par i with
      | none => ((arr i).dv m).crossM (σ.dq i • σ.S i) + if m = i then (v i).crossM (σ.S i) else 0
      | some p => (σ.Tp i).inv.actM ((arr p).da m) + (((arr i).dv m).crossM (σ.dq i • σ.S i) +
          if m = i then (v i).crossM (σ.S i) else 0)) ∧
    ∀ i < σ.n, (arr i).df m = (σ.Itot i).app ((arr i).da m) +
      ((arr i).dv m).crossF ((σ.Itot i).app (v i)) + (v i).crossF ((σ.Itot i).app ((arr i).dv m)) := by
  intro arr
  have hspec : ∀ i < σ.n, arr i = σ.dvelStep v arr i _ :=
    fwdLoop_spec' (dvelStep_causal hw.par_lt v) _
  have z1 : ∀ i < σ.n, i < m → (arr i).dv m = 0 := by
    intro i hi him
    have := hspec i hi
    rw [this]
    simp only [dvelStep]
    rw [if_neg (by omega), if_neg (by omega)]
  have z2 : ∀ i < σ.n, i < m → (arr i).da m = 0 := by
    intro i hi him
    have := hspec i hi
    rw [this]
    simp only [dvelStep]
    rw [if_neg (by omega)]
  refine ⟨fun i hi => ?_, fun i hi => ?_, fun i hi => ?_⟩
  · rcases Nat.lt_trichotomy m i with h | h | h
    · have := hspec i hi
      rw [this]
      simp only [dvelStep]
      rw [if_neg (by omega), if_pos h]
      cases hp : σ.par i <;> simp [show m ≠ i by omega]
    · have e : (arr i).dv m = σ.S i := by
        have := hspec i hi
        rw [this]
        simp only [dvelStep]
        rw [if_pos h]
      rw [e]
      cases hp : σ.par i with
      | none => simp [h]
      | some p =>
        have := hw.par_lt i hi p hp
        simp only
        rw [z1 p (by omega) (by omega), if_pos h]
        simp
    · rw [z1 i hi h]
      cases hp : σ.par i with
      | none => simp [show m ≠ i by omega]
      | some p =>
        have := hw.par_lt i hi p hp
        simp only
        rw [z1 p (by omega) (by omega), if_neg (by omega)]
        simp
  · rcases Nat.lt_or_ge i m with h | h
    · rw [z2 i hi h, z1 i hi h]
      cases hp : σ.par i with
      | none => simp [show m ≠ i by omega]
      | some p =>
        have := hw.par_lt i hi p hp
        simp only
        rw [z2 p (by omega) (by omega), if_neg (by omega)]
        simp
    · have e := hspec i hi
      have e1 : (arr i).da m = match σ.par i with
          | none => (if m = i then ((arr i).dv m).crossM (σ.dq i • σ.S i) + (v i).crossM (σ.S i)
              else ((arr i).dv m).crossM (σ.dq i • σ.S i))
          | some p => (if m = i then ((arr i).dv m).crossM (σ.dq i • σ.S i) + (v i).crossM (σ.S i)
              else ((arr i).dv m).crossM (σ.dq i • σ.S i)) + (σ.Tp i).inv.actM ((arr p).da m) := by
        rw [e]
        simp only [dvelStep]
        rw [if_pos h]
        cases σ.par i <;> rfl
      rw [e1]
      cases hp : σ.par i with
      | none => simp only; split <;> simp
      | some p =>
        simp only
        split
        · abel
        · rw [add_zero]; abel
  · rcases Nat.lt_or_ge i m with h | h
    · have e : (arr i).df m = 0 := by
        have := hspec i hi
        rw [this]
        simp only [dvelStep]
        rw [if_neg (by omega)]
      rw [e, z2 i hi h, z1 i hi h]
      simp
    · have e := hspec i hi
      rw [e]
      simp only [dvelStep]
      rw [if_pos h]

/-- **`InverseDynamicsVelocityDerivative` in world coordinates.** -/
theorem WF.dvel_spec (hw : σ.WF) (hv : σ.VelOK v) (i m : ℕ) (hi : i < σ.n) (hm : m < σ.n) :
    σ.dvel v i m = σ.genForce (fun k => σ.dforce k m) i := by
  classical
  obtain ⟨h1, h2, h3⟩ := hw.dvel_cols v m
  unfold dvel dvelBackward
  set arr := fwdLoop σ.n (σ.dvelStep v) (fun _ => ⟨fun _ => 0, fun _ => 0, fun _ => 0⟩) with harr
  rw [bwdLoop_eq _ hw.par_lt]
  simp only [hi, if_true]
  set acc := accLoop (fun a b j => a j + b j) σ.n σ.par (fun i (F : ℕ → Force) j => (σ.Tp i).actF (F j))
    (fun i => (arr i).df) with hacc
  have hF : ∀ i < σ.n, acc i m = (arr i).df m + ∑ j ∈ range σ.n,
      if σ.par j = some i then (σ.Tp j).actF (acc j m) else 0 := by
    intro i _
    have := congrFun (accLoop_spec (β := ℕ → Force) hw.par_lt
      (fun i (F : ℕ → Force) j => (σ.Tp i).actF (F j)) (fun i => (arr i).df) i) m
    refine this.trans ?_
    rw [Pi.add_apply, Finset.sum_apply]
    congr 1
    refine sum_congr rfl fun j _ => ?_
    split <;> rfl
  have hsum := hw.force_sum (fun i => (arr i).df m) (fun i => acc i m) hF i hi
  have hJ : ∀ k < σ.n, (σ.Tw k).actM ((arr k).dv m) = σ.Jw k m := by
    intro k hk
    rw [hw.motion_sum (fun i => (arr i).dv m) (fun i => if m = i then σ.S i else 0) h1 k hk,
      sum_eq_single m]
    · simp only [if_true]
      rfl
    · intro j _ hj
      rw [if_neg (Ne.symm hj), Iso.actM_zero, ite_self]
    · intro h; exact absurd (mem_range.2 hm) h
  have hA : ∀ k < σ.n, (σ.Tw k).actM ((arr k).da m) = σ.dbias k m := by
    intro k hk
    rw [hw.motion_sum (fun i => (arr i).da m) (fun i => ((arr i).dv m).crossM (σ.dq i • σ.S i) +
      if m = i then (v i).crossM (σ.S i) else 0) h2 k hk]
    unfold dbias
    have e : ∀ j ∈ range σ.n, (if Anc σ.par j k then (σ.Tw j).actM (((arr j).dv m).crossM (σ.dq j • σ.S j) +
        if m = j then (v j).crossM (σ.S j) else 0) else 0) =
        σ.dq j • (σ.Jw j m).crossM (σ.Jw k j) +
          if m = j then (σ.V σ.dq m).crossM (σ.Jw k m) else 0 := by
      intro j hj
      have hj := mem_range.1 hj
      unfold Jw
      split
      · rw [Iso.actM_add, (hw.Tw_valid j hj).actM_crossM, hJ j hj, Iso.actM_smul, Motion.crossM_smul]
        congr 1
        split
        · next hmj =>
          subst hmj
          rw [(hw.Tw_valid m hm).actM_crossM, hv m hm, if_pos ‹_›]
          rfl
        · rw [Iso.actM_zero]
      · rw [Motion.crossM_zero, smul_zero, zero_add]
        split
        · next hmj => subst hmj; rw [if_neg ‹_›, Motion.crossM_zero]
        · rfl
    rw [sum_congr rfl e, sum_add_distrib, sum_ite_eq, if_pos (mem_range.2 hm)]
  have hdf : ∀ k < σ.n, (σ.Tw k).actF ((arr k).df m) = σ.dforce k m := by
    intro k hk
    rw [h3 k hk, Iso.actF_add, Iso.actF_add, (hw.Tw_valid k hk).actF_crossF,
      (hw.Tw_valid k hk).actF_crossF, ← hw.Iw_actM hk, ← hw.Iw_actM hk, ← hw.Iw_actM hk, hA k hk, hJ k hk,
      hv k hk]
    rfl
  have e2 : (σ.S i).dot (acc i m) = (σ.axis i).dot ((σ.Tw i).actF (acc i m)) := by
    unfold axis
    rw [(hw.Tw_valid i hi).dot_act]
  rw [e2, hsum, Motion.dot_sum]
  unfold genForce
  refine sum_congr rfl fun k hk => ?_
  have hk := mem_range.1 hk
  unfold Jw
  split
  · rw [hdf k hk]
  · simp

end

/-- The same system with another rate of joint `m`. -/
noncomputable def withRate (σ : Sys) (m : ℕ) (t : ℝ) : Sys := { σ with dq := Function.update σ.dq m t }

theorem V_withRate (m : ℕ) (hm : m < σ.n) (t : ℝ) (k : ℕ) :
    (σ.withRate m t).V (σ.withRate m t).dq k = σ.V σ.dq k + (t - σ.dq m) • σ.Jw k m := by
  show ∑ j ∈ range σ.n, Function.update σ.dq m t j • σ.Jw k j = _
  unfold V
  rw [← add_sum_erase _ _ (mem_range.2 hm), ← add_sum_erase (range σ.n) (fun j => σ.dq j • σ.Jw k j) (mem_range.2 hm),
    Function.update_self, sub_smul]
  rw [sum_congr rfl (fun j hj => by rw [Function.update_of_ne (ne_of_mem_erase hj)])]
  abel

theorem bias_withRate (m : ℕ) (hm : m < σ.n) (t : ℝ) (k : ℕ) :
    (σ.withRate m t).bias k = σ.bias k + (t - σ.dq m) • σ.dbias k m +
      ((t - σ.dq m) * (t - σ.dq m)) • (σ.Jw m m).crossM (σ.Jw k m) := by
  show ∑ j ∈ range σ.n, Function.update σ.dq m t j •
    ((σ.withRate m t).V (σ.withRate m t).dq j).crossM (σ.Jw k j) = _
  set s := t - σ.dq m with hs
  have h1 : ∀ j ∈ range σ.n, Function.update σ.dq m t j •
      ((σ.withRate m t).V (σ.withRate m t).dq j).crossM (σ.Jw k j) =
      σ.dq j • (σ.V σ.dq j).crossM (σ.Jw k j) + s • (σ.dq j • (σ.Jw j m).crossM (σ.Jw k j)) +
      (if m = j then s • (σ.V σ.dq m).crossM (σ.Jw k m) + (s * s) • (σ.Jw m m).crossM (σ.Jw k m)
        else 0) := by
    intro j _
    rw [V_withRate m hm, Motion.add_crossM, Motion.smul_crossM, ← hs]
    by_cases hj : m = j
    · subst hj
      rw [Function.update_self, if_pos rfl, show t = σ.dq m + s by rw [hs]; ring]
      simp only [smul_add, add_smul, mul_smul]
      rw [smul_comm (σ.dq m) s]
      abel
    · rw [Function.update_of_ne (Ne.symm hj), if_neg hj, smul_add, add_zero,
        smul_comm (σ.dq j) s]
  rw [sum_congr rfl h1, sum_add_distrib, sum_add_distrib, sum_ite_eq, if_pos (mem_range.2 hm),
    ← smul_sum]
  unfold bias dbias
  rw [smul_add]
  abel

/-- Inverse dynamics is a quadratic polynomial in each joint rate, whose linear coefficient is what
the derivative computes. -/
theorem coriolisSpec_withRate (m : ℕ) (hm : m < σ.n) (i : ℕ) : ∃ Q : ℝ, ∀ t,
    (σ.withRate m t).coriolisSpec i = σ.coriolisSpec i +
      (t - σ.dq m) * σ.genForce (fun k => σ.dforce k m) i + (t - σ.dq m) * (t - σ.dq m) * Q := by
  refine ⟨σ.genForce (fun k => σ.Iw k ((σ.Jw m m).crossM (σ.Jw k m)) +
    (σ.Jw k m).crossF (σ.Iw k (σ.Jw k m))) i, fun t => ?_⟩
  have hsm : ∀ (c : ℝ) (F : ℕ → Force), c * σ.genForce F i = σ.genForce (fun k => c • F k) i := by
    intro c F
    unfold genForce
    rw [mul_sum]
    exact sum_congr rfl fun k _ => by rw [Motion.dot_smul]
  unfold coriolisSpec
  rw [hsm, hsm, ← genForce_add, ← genForce_add]
  show σ.genForce (fun k => σ.Iw k ((σ.withRate m t).bias k) +
    ((σ.withRate m t).V (σ.withRate m t).dq k).crossF
      (σ.Iw k ((σ.withRate m t).V (σ.withRate m t).dq k))) i = _
  congr 1
  funext k
  rw [bias_withRate m hm, V_withRate m hm]
  unfold dforce
  simp only [Iw_add, Iw_smul, Motion.add_crossF, Motion.crossF_add, Motion.smul_crossF,
    Motion.crossF_smul, smul_add, mul_smul]
  abel

end Sys
end SpatialDyn
