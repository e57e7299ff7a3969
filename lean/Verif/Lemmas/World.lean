import Verif.Spec.World

/-! From local recursions to world-frame sums. -/

namespace SpatialDyn

open Finset

section anc
variable {n : ℕ} {par : ℕ → Option ℕ}

theorem Anc.trans {j k i : ℕ} (h1 : Anc par j k) (h2 : Anc par k i) : Anc par j i := by
  induction h2 with
  | refl => exact h1
  | step hp _ ih => exact .step hp ih

theorem Anc.le (hp : ParLt n par) {j i : ℕ} (h : Anc par j i) (hi : i < n) : j ≤ i := by
  induction h with
  | refl => exact le_rfl
  | step hpar _ ih =>
    have := hp _ hi _ hpar
    have := ih (by omega)
    omega

theorem anc_root {j i : ℕ} (h : par i = none) : Anc par j i ↔ j = i := by
  constructor
  · intro h'
    cases h' with
    | refl => rfl
    | step hp _ => rw [h] at hp; cases hp
  · rintro rfl; exact .refl

theorem anc_step {j i p : ℕ} (h : par i = some p) : Anc par j i ↔ j = i ∨ Anc par j p := by
  constructor
  · intro h'
    cases h' with
    | refl => exact .inl rfl
    | step hp ha => rw [h] at hp; cases hp; exact .inr ha
  · rintro (rfl | h')
    · exact .refl
    · exact .step h h'

theorem Anc.antisymm (hp : ParLt n par) {j i : ℕ} (h : Anc par j i) (h' : Anc par i j)
    (hi : i < n) : j = i := by
  have h1 := h.le hp hi
  have h2 := h'.le hp (by omega)
  omega

/-- Two ancestors of the same body are related. -/
theorem Anc.total {i j k : ℕ} (h1 : Anc par i k) (h2 : Anc par j k) :
    Anc par i j ∨ Anc par j i := by
  induction h1 with
  | refl => exact .inr h2
  | step hp _ ih =>
    rcases (anc_step hp).1 h2 with rfl | h
    · left; exact .step hp ‹_›
    · exact ih h

open Classical in
theorem sum_anc_root {α : Type*} [AddCommMonoid α] {i : ℕ} (hi : i < n) (h : par i = none)
    (c : ℕ → α) : (∑ j ∈ range n, if Anc par j i then c j else 0) = c i := by
  simp only [anc_root h]
  rw [Finset.sum_ite_eq' (range n) i c]
  simp [hi]

open Classical in
theorem sum_anc_step {α : Type*} [AddCommMonoid α] (hp : ParLt n par) {i p : ℕ} (hi : i < n)
    (h : par i = some p) (c : ℕ → α) :
    (∑ j ∈ range n, if Anc par j i then c j else 0) =
      (∑ j ∈ range n, if Anc par j p then c j else 0) + c i := by
  have hlt := hp i hi p h
  have : ∀ j, (if Anc par j i then c j else 0) =
      (if Anc par j p then c j else 0) + (if j = i then c j else 0) := by
    intro j
    rw [anc_step h]
    by_cases h1 : j = i
    · subst h1
      have : ¬ Anc par j p := fun h' => by have := h'.le hp (by omega); omega
      simp [this]
    · simp [h1]
  simp only [this, sum_add_distrib]
  congr 1
  rw [Finset.sum_ite_eq' (range n) i c]
  simp [hi]

open Classical in
/-- Descendants of `i`: itself and the descendants of its children. -/
theorem child_sum {α : Type*} [AddCommMonoid α] (hp : ParLt n par) {i k : ℕ} (hk : k < n)
    (x : α) :
    (if Anc par i k then x else 0) =
      (if k = i then x else 0) +
        ∑ j ∈ range n, if par j = some i then (if Anc par j k then x else 0) else 0 := by
  induction k using Nat.strong_induction_on with
  | _ k ih =>
    cases hpar : par k with
    | none =>
      simp only [anc_root hpar]
      have : ∀ j ∈ range n, (if par j = some i then (if j = k then x else 0) else 0) = 0 := by
        intro j _
        split
        · next h => split
                    · next h' => subst h'; rw [hpar] at h; cases h
                    · rfl
        · rfl
      rw [sum_eq_zero this, add_zero]
      by_cases h : i = k
      · subst h; simp
      · simp [h, Ne.symm h]
    | some p =>
      have hlt := hp k hk p hpar
      have ihp := ih p hlt (by omega)
      have split1 : ∀ j ∈ range n, (if par j = some i then (if Anc par j k then x else 0) else 0) =
          (if par j = some i then (if Anc par j p then x else 0) else 0) +
          (if j = k then (if par k = some i then x else 0) else 0) := by
        intro j _
        rw [anc_step hpar]
        by_cases h1 : j = k
        · subst h1
          have : ¬ Anc par j p := fun h' => by have := h'.le hp (by omega); omega
          simp [this]
        · simp [h1]
      rw [sum_congr rfl split1, sum_add_distrib, sum_ite_eq']
      simp only [mem_range, hk, if_true, hpar, Option.some.injEq]
      rw [anc_step hpar]
      by_cases h1 : i = k
      · subst h1
        have h0 : ¬ Anc par i p := fun h' => by have := h'.le hp (by omega); omega
        have : ¬ p = i := by omega
        simp only [h0, if_false] at ihp
        simp only [true_or, if_true, this, if_false, add_zero]
        simp only [this, if_false, zero_add] at ihp
        rw [← ihp, add_zero]
      · have : ¬ k = i := fun h => h1 h.symm
        simp only [h1, false_or, this, if_false, zero_add]
        rw [ihp, add_comm]

end anc

namespace Sys
variable {σ : Sys}

theorem WF.Tw_inv (hw : σ.WF) {i p : ℕ} (hi : i < σ.n) (h : σ.par i = some p) :
    (σ.Tw i).inv = (σ.Tp i).inv * (σ.Tw p).inv := by
  have hlt := hw.par_lt i hi p h
  rw [hw.Tw_rec i hi p h, Iso.inv_mul_rev (hw.Tw_valid p (by omega)) (hw.Tp_valid i hi)]

theorem WF.actM_rec (hw : σ.WF) {i p : ℕ} (hi : i < σ.n) (h : σ.par i = some p) (m : Motion) :
    (σ.Tw i).actM ((σ.Tp i).inv.actM m) = (σ.Tw p).actM m := by
  have hlt := hw.par_lt i hi p h
  rw [hw.Tw_rec i hi p h, Iso.actM_mul _ _ (hw.Tw_valid p (by omega)),
    (hw.Tp_valid i hi).actM_inv]

theorem WF.actF_rec (hw : σ.WF) {i p : ℕ} (hi : i < σ.n) (h : σ.par i = some p) (f : Force) :
    (σ.Tw p).actF ((σ.Tp i).actF f) = (σ.Tw i).actF f := by
  have hlt := hw.par_lt i hi p h
  rw [hw.Tw_rec i hi p h, Iso.actF_mul _ _ (hw.Tw_valid p (by omega))]

theorem WF.inv_actM_rec (hw : σ.WF) {i p : ℕ} (hi : i < σ.n) (h : σ.par i = some p)
    (m : Motion) : (σ.Tp i).inv.actM ((σ.Tw p).inv.actM m) = (σ.Tw i).inv.actM m := by
  rw [hw.Tw_inv hi h, Iso.actM_mul _ _ (hw.Tp_valid i hi).inv]

open Classical in
/-- A motion field given by the parent's plus an own term is, in the world frame, the sum of the own
terms of all ancestors. -/
theorem WF.motion_sum (hw : σ.WF) (m c : ℕ → Motion)
    (hm : ∀ i < σ.n, m i = match σ.par i with
      | none => c i
      | some p => (σ.Tp i).inv.actM (m p) + c i) (i : ℕ) (hi : i < σ.n) :
    (σ.Tw i).actM (m i) =
      ∑ j ∈ range σ.n, if Anc σ.par j i then (σ.Tw j).actM (c j) else 0 := by
  induction i using Nat.strong_induction_on with
  | _ i ih =>
    have h := hm i hi
    cases hpar : σ.par i with
    | none =>
      rw [hpar] at h
      rw [sum_anc_root hi hpar, h]
    | some p =>
      rw [hpar] at h
      have hlt := hw.par_lt i hi p hpar
      rw [sum_anc_step hw.par_lt hi hpar, ← ih p hlt (by omega), h, Iso.actM_add,
        hw.actM_rec hi hpar]

open Classical in
/-- Forces accumulated towards the root are, in the world frame, the sum over all descendants. -/
theorem WF.force_sum (hw : σ.WF) (f F : ℕ → Force)
    (hF : ∀ i < σ.n, F i = f i + ∑ j ∈ range σ.n,
      if σ.par j = some i then (σ.Tp j).actF (F j) else 0) (i : ℕ) (hi : i < σ.n) :
    (σ.Tw i).actF (F i) =
      ∑ k ∈ range σ.n, if Anc σ.par i k then (σ.Tw k).actF (f k) else 0 := by
  refine tree_eq_unique hw.par_lt (fun _ x => x) (fun i => (σ.Tw i).actF (f i))
    (fun i => (σ.Tw i).actF (F i)) (fun i => ∑ k ∈ range σ.n, if Anc σ.par i k then (σ.Tw k).actF (f k) else 0) ?_ ?_ i hi
  · intro i hi
    show (σ.Tw i).actF (F i) = _
    rw [hF i hi, Iso.actF_add, Iso.actF_sum]
    congr 1
    apply sum_congr rfl
    intro j hj
    split
    · next h => rw [hw.actF_rec (mem_range.1 hj) h]
    · simp
  · intro i hi
    show (∑ k ∈ range σ.n, if Anc σ.par i k then (σ.Tw k).actF (f k) else 0) = _
    have h1 : ∀ k ∈ range σ.n, (if Anc σ.par i k then (σ.Tw k).actF (f k) else 0) =
        (if k = i then (σ.Tw k).actF (f k) else 0) + ∑ j ∈ range σ.n, if σ.par j = some i then
          (if Anc σ.par j k then (σ.Tw k).actF (f k) else 0) else 0 :=
      fun k hk => child_sum hw.par_lt (mem_range.1 hk) _
    rw [sum_congr rfl h1, sum_add_distrib, sum_ite_eq']
    simp only [mem_range, hi, if_true]
    congr 1
    rw [sum_comm]
    apply sum_congr rfl
    intro j _
    split
    · rfl
    · simp

/-- The accumulated forces of the backward pass. -/
noncomputable def accF (σ : Sys) (f : ℕ → Force) : ℕ → Force :=
  accLoop (· + ·) σ.n σ.par (fun i F => (σ.Tp i).actF F) f

theorem WF.backward_eq (hw : σ.WF) (f : ℕ → Force) (t0 : ℕ → ℝ) :
    σ.backward f t0 =
      (σ.accF f, fun i => if i < σ.n then (σ.S i).dot (σ.accF f i) else t0 i) := by
  unfold backward
  rw [bwdLoop_eq _ hw.par_lt]
  refine Prod.ext ?_ rfl
  funext i
  show (if i < σ.n then σ.accF f i else f i) = σ.accF f i
  split
  · rfl
  · next h => exact (accLoop_ge _ hw.par_lt _ _ i (by omega)).symm

open Classical in
theorem WF.accF_world (hw : σ.WF) (f : ℕ → Force) (i : ℕ) (hi : i < σ.n) :
    (σ.Tw i).actF (σ.accF f i) =
      ∑ k ∈ range σ.n, if Anc σ.par i k then (σ.Tw k).actF (f k) else 0 :=
  hw.force_sum f _ (fun i _ => accLoop_spec hw.par_lt _ _ i) i hi

/-- The backward pass computes the generalised force of the body forces. -/
theorem WF.dot_accF (hw : σ.WF) (f : ℕ → Force) (i : ℕ) (hi : i < σ.n) :
    (σ.S i).dot (σ.accF f i) = σ.genForce (fun k => (σ.Tw k).actF (f k)) i := by
  classical
  rw [← (hw.Tw_valid i hi).dot_act, hw.accF_world f i hi, Motion.dot_sum]
  unfold genForce Jw axis
  apply sum_congr rfl
  intro k _
  split <;> simp

theorem WF.backward_genForce (hw : σ.WF) (f : ℕ → Force) (t0 : ℕ → ℝ) (i : ℕ) (hi : i < σ.n) :
    (σ.backward f t0).2 i = σ.genForce (fun k => (σ.Tw k).actF (f k)) i := by
  rw [hw.backward_eq, ← hw.dot_accF f i hi]
  simp [hi]

/-! Linearity of the generalised force. -/

theorem genForce_add (F G : ℕ → Force) (i : ℕ) :
    σ.genForce (fun k => F k + G k) i = σ.genForce F i + σ.genForce G i := by
  simp [genForce, Motion.dot_add, sum_add_distrib]

theorem genForce_sub (F G : ℕ → Force) (i : ℕ) :
    σ.genForce (fun k => F k - G k) i = σ.genForce F i - σ.genForce G i := by
  simp [genForce, Motion.dot_sub, sum_sub_distrib]

theorem genForce_neg (F : ℕ → Force) (i : ℕ) :
    σ.genForce (fun k => -F k) i = -σ.genForce F i := by
  simp [genForce, Motion.dot_neg]

theorem genForce_congr {F G : ℕ → Force} (h : ∀ k < σ.n, F k = G k) (i : ℕ) :
    σ.genForce F i = σ.genForce G i := by
  unfold genForce
  apply sum_congr rfl
  intro k hk
  rw [h k (mem_range.1 hk)]

theorem Iw_add (k : ℕ) (a b : Motion) : σ.Iw k (a + b) = σ.Iw k a + σ.Iw k b := by
  simp [Iw, Iso.actM_add, Inertia.app_add, Iso.actF_add]
theorem Iw_sub (k : ℕ) (a b : Motion) : σ.Iw k (a - b) = σ.Iw k a - σ.Iw k b := by
  simp [Iw, Iso.actM_sub, Inertia.app_sub, Iso.actF_sub]
theorem Iw_neg (k : ℕ) (a : Motion) : σ.Iw k (-a) = -σ.Iw k a := by
  simp [Iw, Iso.actM_neg, Inertia.app_neg, Iso.actF_neg]
theorem Iw_smul (k : ℕ) (c : ℝ) (a : Motion) : σ.Iw k (c • a) = c • σ.Iw k a := by
  simp [Iw, Iso.actM_smul, Inertia.app_smul, Iso.actF_smul]
@[simp] theorem Iw_zero (k : ℕ) : σ.Iw k 0 = 0 := by simp [Iw]
theorem Iw_sum (k : ℕ) {ι : Type*} (s : Finset ι) (f : ι → Motion) :
    σ.Iw k (∑ i ∈ s, f i) = ∑ i ∈ s, σ.Iw k (f i) := by
  simp [Iw, Iso.actM_sum, Inertia.app_sum, Iso.actF_sum]

theorem WF.Iw_actM (hw : σ.WF) {k : ℕ} (hk : k < σ.n) (m : Motion) :
    σ.Iw k ((σ.Tw k).actM m) = (σ.Tw k).actF ((σ.Itot k).app m) := by
  unfold Iw
  rw [(hw.Tw_valid k hk).inv_actM]

theorem WF.Iw_symm (hw : σ.WF) (hs : σ.SymI) {k : ℕ} (hk : k < σ.n) (a b : Motion) :
    a.dot (σ.Iw k b) = b.dot (σ.Iw k a) := by
  unfold Iw
  rw [(hw.Tw_valid k hk).dot_actF, (hw.Tw_valid k hk).dot_actF, Inertia.dot_app_symm _ (hs k hk)]

theorem genForce_Iw_V (u : ℕ → ℝ) (i : ℕ) :
    σ.genForce (fun k => σ.Iw k (σ.V u k)) i = ∑ j ∈ range σ.n, σ.massSpec i j * u j := by
  unfold genForce massSpec V
  simp only [Iw_sum, Iw_smul, Motion.dot_sum, Motion.dot_smul]
  rw [sum_comm]
  apply sum_congr rfl
  intro j _
  rw [sum_mul]
  apply sum_congr rfl
  intro k _
  ring

/-- Virtual work: joint rates times generalised forces is the power of the body forces. -/
theorem genForce_power (u : ℕ → ℝ) (F : ℕ → Force) :
    ∑ i ∈ range σ.n, u i * σ.genForce F i = ∑ k ∈ range σ.n, (σ.V u k).dot (F k) := by
  unfold genForce V
  simp only [mul_sum, Motion.sum_dot, Motion.smul_dot]
  rw [sum_comm]

end Sys
end SpatialDyn
