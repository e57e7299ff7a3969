import Verif.Lemmas.Aba
import Verif.Lemmas.Crba
import Mathlib.LinearAlgebra.Matrix.ToLinearEquiv

/-! Kinetic energy, positivity of the articulated joint inertias, and solvability. -/

namespace SpatialDyn
open Finset

namespace Sys
variable {σ : Sys}

/-- Twice the kinetic energy of the joint rates `u`. -/
noncomputable def energy2 (σ : Sys) (u : ℕ → ℝ) : ℝ :=
  ∑ k ∈ range σ.n, (σ.V u k).dot (σ.Iw k (σ.V u k))

/-- The kinetic energy of every nonzero vector of joint rates is positive. -/
def MassPD (σ : Sys) : Prop := ∀ u : ℕ → ℝ, (∃ i < σ.n, u i ≠ 0) → 0 < σ.energy2 u

theorem energy2_eq (u : ℕ → ℝ) :
    σ.energy2 u = ∑ i ∈ range σ.n, u i * ∑ j ∈ range σ.n, σ.massSpec i j * u j := by
  unfold energy2
  rw [← genForce_power]
  exact sum_congr rfl fun i _ => by rw [genForce_Iw_V]

theorem energy2_body (hw : σ.WF) {k : ℕ} (hk : k < σ.n) (m : Motion) :
    m.dot (σ.Iw k m) =
      ((σ.Tw k).inv.actM m).dot ((σ.Itot k).app ((σ.Tw k).inv.actM m)) := by
  unfold Iw
  rw [(hw.Tw_valid k hk).dot_actF]

/-- Motion of the bodies when joint `i` moves at unit rate, everything not below it is locked, and
the joints below it move so as to be free of torque. -/
noncomputable def freeMotion (σ : Sys) (i : ℕ) : ℕ → Motion :=
  fwdLoop σ.n (fun a k _ => if k = i then σ.S i else match σ.par k with
    | none => 0
    | some p => (σ.Tp k).inv.actM (a p) -
        (((σ.Tp k).inv.actM (a p)).dot (σ.artH k) / σ.artD k) • σ.S k) (fun _ => 0)

/-- Joint rates of `freeMotion`. -/
noncomputable def freeRate (σ : Sys) (i k : ℕ) : ℝ :=
  if k = i then 1 else match σ.par k with
    | none => 0
    | some p => -(((σ.Tp k).inv.actM (σ.freeMotion i p)).dot (σ.artH k) / σ.artD k)

theorem WF.freeMotion_eq (hw : σ.WF) (i k : ℕ) (hk : k < σ.n) : σ.freeMotion i k =
    if k = i then σ.S i else match σ.par k with
    | none => 0
    | some p => (σ.Tp k).inv.actM (σ.freeMotion i p) -
        (((σ.Tp k).inv.actM (σ.freeMotion i p)).dot (σ.artH k) / σ.artD k) • σ.S k := by
  conv_lhs => unfold freeMotion
  rw [fwdLoop_spec' ?_ _ k hk]
  · rfl
  · intro k hk a b o hab
    split
    · rfl
    · cases hpar : σ.par k with
      | none => rfl
      | some p => simp only; rw [hab p (hw.par_lt k hk p hpar)]

theorem WF.freeMotion_zero (hw : σ.WF) (i k : ℕ) (hk : k < σ.n) (h : ¬ Anc σ.par i k) :
    σ.freeMotion i k = 0 := by
  induction k using Nat.strong_induction_on with
  | _ k ih =>
    rw [hw.freeMotion_eq i k hk]
    have hki : k ≠ i := fun e => h (e ▸ .refl)
    rw [if_neg hki]
    cases hpar : σ.par k with
    | none => rfl
    | some p =>
      have hlt := hw.par_lt k hk p hpar
      simp only
      rw [ih p hlt (by omega) (fun h' => h (.step hpar h'))]
      simp

theorem WF.freeRate_zero (hw : σ.WF) (i k : ℕ) (hk : k < σ.n) (h : ¬ Anc σ.par i k) :
    σ.freeRate i k = 0 := by
  unfold freeRate
  have hki : k ≠ i := fun e => h (e ▸ .refl)
  rw [if_neg hki]
  cases hpar : σ.par k with
  | none => rfl
  | some p =>
    have hlt := hw.par_lt k hk p hpar
    simp only
    rw [hw.freeMotion_zero i p (by omega) (fun h' => h (.step hpar h'))]
    simp

theorem WF.freeMotion_rec (hw : σ.WF) (i k : ℕ) (hi : i < σ.n) (hk : k < σ.n) :
    σ.freeMotion i k = match σ.par k with
      | none => σ.freeRate i k • σ.S k
      | some p => (σ.Tp k).inv.actM (σ.freeMotion i p) + σ.freeRate i k • σ.S k := by
  by_cases hki : k = i
  · subst hki
    have h1 : σ.freeRate k k = 1 := by simp [freeRate]
    have h2 : σ.freeMotion k k = σ.S k := by rw [hw.freeMotion_eq k k hk]; simp
    rw [h1, h2, one_smul]
    cases hpar : σ.par k with
    | none => rfl
    | some p =>
      have hlt := hw.par_lt k hk p hpar
      simp only
      rw [hw.freeMotion_zero k p (by omega)
        (fun h' => by have := h'.le hw.par_lt (by omega); omega)]
      simp
  · rw [hw.freeMotion_eq i k hk, if_neg hki]
    unfold freeRate
    rw [if_neg hki]
    cases hpar : σ.par k with
    | none => simp
    | some p => simp only; rw [neg_smul, sub_eq_add_neg]

theorem WF.freeMotion_world (hw : σ.WF) (i k : ℕ) (hi : i < σ.n) (hk : k < σ.n) :
    (σ.Tw k).actM (σ.freeMotion i k) = σ.V (σ.freeRate i) k := by
  rw [← sum_if_smul_V]
  exact hw.motion_sum (σ.freeMotion i) (fun k => σ.freeRate i k • σ.S k)
    (fun k hk => hw.freeMotion_rec i k hi hk) k hk

/-- Twice the kinetic energy of `freeMotion i` is the articulated inertia of joint `i`. -/
theorem WF.energy_free (hw : σ.WF) (hs : σ.SymI) (i : ℕ) (hi : i < σ.n)
    (hd : ∀ j < σ.n, i < j → σ.artD j ≠ 0) : σ.energy2 (σ.freeRate i) = σ.artD i := by
  classical
  set a := σ.freeMotion i with ha
  set u := σ.freeRate i with hu
  set F : ℕ → Force := fun k => (σ.artI k).app (a k) with hF
  set G : ℕ → Force := σ.accF (fun k => (σ.Itot k).app (a k)) with hG
  have hGeq : ∀ k, G k = (σ.Itot k).app (a k) + ∑ j ∈ range σ.n,
      if σ.par j = some k then (σ.Tp j).actF (G j) else 0 := fun k =>
    accLoop_spec hw.par_lt _ _ k
  have hredb : ∀ j p, σ.par j = some p → ∀ m, (σ.artRed j (σ.artI j)).app m =
      (σ.artI j).app m - (m.dot (σ.artH j) / σ.artD j) • σ.artH j := by
    intro j p hpar m
    rw [artRed_some hpar, Mat6.sub_app, Mat6.outerDiv_app]
    rfl
  -- a joint below `i` transmits the reduced articulated inertia
  have hFj : ∀ j < σ.n, j ≠ i → ∀ p, σ.par j = some p →
      F j = (σ.artRed j (σ.artI j)).app ((σ.Tp j).inv.actM (a p)) := by
    intro j hj hji p hpar
    have h1 := hw.freeMotion_eq i j hj
    rw [if_neg hji, hpar] at h1
    simp only at h1
    show (σ.artI j).app (σ.freeMotion i j) = _
    rw [h1, hredb j p hpar, sub_eq_add_neg, ← neg_smul, Mat6.app_add, Mat6.app_smul, neg_smul,
      ← sub_eq_add_neg]
    rfl
  have hFG : ∀ k < σ.n, i ≤ k → F k = G k := by
    intro k hk hik
    induction hm : σ.n - k using Nat.strong_induction_on generalizing k with
    | _ m ih =>
      rw [hGeq k]
      show (σ.artI k).app (a k) = _
      rw [artI_eq hw.par_lt k, Mat6.add_app, Inertia.matrix_app _ (hs k hk), Mat6.sum_app]
      congr 1
      apply sum_congr rfl
      intro j hj
      have hj' := mem_range.1 hj
      split
      · next hpar =>
        have hlt := hw.par_lt j hj' k hpar
        rw [Mat6.actMat_app _ (hw.Tp_valid j hj'), ← hFj j hj' (by omega) k hpar,
          ih (σ.n - j) (by omega) j hj' (by omega) rfl]
      · simp
  -- component of the transmitted force along each joint
  have hS : ∀ j < σ.n, j ≠ i → u j * (σ.S j).dot (G j) = 0 := by
    intro j hj hji
    by_cases hanc : Anc σ.par i j
    · have hle := hanc.le hw.par_lt hj
      cases hpar : σ.par j with
      | none => exact absurd ((anc_root hpar).1 hanc).symm hji
      | some p =>
        rw [← hFG j hj hle, hFj j hj hji p hpar, hredb j p hpar, Motion.dot_sub, Motion.dot_smul,
          hw.artI_sym hs j hj]
        have hdj := hd j hj (by omega)
        have e1 : (σ.S j).dot (σ.artH j) = σ.artD j := rfl
        have e2 : ((σ.Tp j).inv.actM (a p)).dot ((σ.artI j).app (σ.S j)) =
            ((σ.Tp j).inv.actM (a p)).dot (σ.artH j) := rfl
        rw [e1, e2]
        field_simp
        ring
    · rw [hu, hw.freeRate_zero i j hj hanc, zero_mul]
  have hSi : u i * (σ.S i).dot (G i) = σ.artD i := by
    rw [← hFG i hi le_rfl]
    have h1 : u i = 1 := by simp [hu, freeRate]
    have h2 : a i = σ.S i := by rw [ha, hw.freeMotion_eq i i hi]; simp
    rw [h1, one_mul]
    show (σ.S i).dot ((σ.artI i).app (a i)) = _
    rw [h2]; rfl
  have hE : σ.energy2 u = ∑ j ∈ range σ.n, u j * (σ.S j).dot (G j) := by
    rw [energy2_eq]
    apply sum_congr rfl
    intro j hj
    have hj' := mem_range.1 hj
    rw [hw.dot_accF _ j hj', ← genForce_Iw_V]
    congr 1
    refine genForce_congr (fun k hk => ?_) j
    rw [← hw.Iw_actM hk, hw.freeMotion_world i k hi hk]
  rw [hE, sum_eq_single i]
  · exact hSi
  · intro j hj hji
    exact hS j (mem_range.1 hj) hji
  · intro h; exact absurd (mem_range.2 hi) h

/-- A positive definite kinetic energy makes every divisor of the articulated body algorithm
positive. -/
theorem WF.artD_pos (hw : σ.WF) (hs : σ.SymI) (hpd : σ.MassPD) (i : ℕ) (hi : i < σ.n) :
    0 < σ.artD i := by
  induction hm : σ.n - i using Nat.strong_induction_on generalizing i with
  | _ m ih =>
    rw [← hw.energy_free hs i hi fun j hj hij => (ih (σ.n - j) (by omega) j hj rfl).ne']
    exact hpd _ ⟨i, hi, by simp [freeRate]⟩

/-- Physical bodies: mass and rotational inertia are positive definite. -/
def PhysPD (σ : Sys) : Prop := ∀ i < σ.n, 0 < (σ.Itot i).mass ∧ (σ.Itot i).Icom.IsSymm ∧
  ∀ v : Vec3, v ≠ 0 → 0 < v.dot ((σ.Itot i).Icom.mulVec v)

theorem V_rec (hw : σ.WF) (u : ℕ → ℝ) {i : ℕ} (hi : i < σ.n) : σ.V u i =
    (match σ.par i with | none => 0 | some p => σ.V u p) + u i • σ.axis i := by
  classical
  rw [← sum_if_smul_V]
  cases hpar : σ.par i with
  | none =>
    rw [sum_anc_root hi hpar, Iso.actM_smul]
    simp [axis]
  | some p =>
    rw [sum_anc_step hw.par_lt hi hpar, sum_if_smul_V, Iso.actM_smul]
    rfl

theorem inertia_pos_of (I : Inertia) (h0 : 0 < I.mass)
    (h : ∀ v : Vec3, v ≠ 0 → 0 < v.dot (I.Icom.mulVec v)) (m : Motion) (hm : m ≠ 0) :
    0 < m.dot (I.app m) := by
  rw [Inertia.dot_app_self]
  by_cases ha : m.ang = 0
  · have hl : m.lin ≠ 0 := fun h => hm (Motion.ext h ha)
    rw [ha]
    have : 0 < m.lin.dot m.lin := by
      rcases eq_or_lt_of_le (Vec3.dot_self_nonneg m.lin) with h | h
      · exfalso; apply hl
        simp only [Vec3.dot] at h
        have hx : m.lin.x = 0 := by nlinarith [mul_self_nonneg m.lin.x, mul_self_nonneg m.lin.y, mul_self_nonneg m.lin.z]
        have hy : m.lin.y = 0 := by nlinarith [mul_self_nonneg m.lin.x, mul_self_nonneg m.lin.y, mul_self_nonneg m.lin.z]
        have hz : m.lin.z = 0 := by nlinarith [mul_self_nonneg m.lin.x, mul_self_nonneg m.lin.y, mul_self_nonneg m.lin.z]
        exact Vec3.ext hx hy hz
      · exact h
    simp only [Vec3.zero_cross, Mat3.mulVec_zero, Vec3.dot, Vec3.zero_x, Vec3.zero_y, Vec3.zero_z] at this ⊢
    simp only [add_zero, mul_zero] at this ⊢
    simpa using mul_pos h0 this
  · have h1 := h m.ang ha
    have h2 := Vec3.dot_self_nonneg (m.lin + m.ang.cross I.com)
    positivity

theorem WF.massPD (hw : σ.WF) (hp : σ.PhysPD) (hS : ∀ i < σ.n, σ.S i ≠ 0) : σ.MassPD := by
  intro u hu
  by_contra hneg
  have hterm : ∀ k ∈ range σ.n, 0 ≤ (σ.V u k).dot (σ.Iw k (σ.V u k)) := by
    intro k hk
    have hk' := mem_range.1 hk
    rw [energy2_body hw hk']
    by_cases h0 : (σ.Tw k).inv.actM (σ.V u k) = 0
    · rw [h0]; simp
    · exact (inertia_pos_of _ (hp k hk').1 (hp k hk').2.2 _ h0).le
  have hz : σ.energy2 u = 0 := le_antisymm (not_lt.1 hneg) (sum_nonneg hterm)
  have hV : ∀ k < σ.n, σ.V u k = 0 := by
    intro k hk
    have h1 := (sum_eq_zero_iff_of_nonneg hterm).1 hz k (mem_range.2 hk)
    rw [energy2_body hw hk] at h1
    by_contra hne
    have h0 : (σ.Tw k).inv.actM (σ.V u k) ≠ 0 := fun h => hne (by
      have := congrArg (σ.Tw k).actM h
      rwa [(hw.Tw_valid k hk).actM_inv, Iso.actM_zero] at this)
    exact (inertia_pos_of _ (hp k hk).1 (hp k hk).2.2 _ h0).ne' h1
  obtain ⟨i, hi, hui⟩ := hu
  have h1 := V_rec hw u hi
  rw [hV i hi] at h1
  have h2 : u i • σ.axis i = 0 := by
    cases hpar : σ.par i with
    | none => rw [hpar] at h1; simpa using h1.symm
    | some p =>
      rw [hpar] at h1
      simp only at h1
      rw [hV p (by have := hw.par_lt i hi p hpar; omega)] at h1
      simpa using h1.symm
  have h3 : σ.axis i = 0 := (smul_eq_zero.1 h2).resolve_left hui
  have h4 := congrArg (σ.Tw i).inv.actM h3
  unfold axis at h4
  rw [(hw.Tw_valid i hi).inv_actM, Iso.actM_zero] at h4
  exact hS i hi h4

theorem PhysPD.symI (h : σ.PhysPD) : σ.SymI := fun i hi => (h i hi).2.1

theorem PhysPD.posMass (h : σ.PhysPD) : σ.PosMass := by
  classical
  refine ⟨fun i hi => (h i hi).1.le, fun i hi _ => ?_⟩
  unfold subMass
  refine sum_pos' (fun k hk => ?_) ⟨i, mem_range.2 hi, ?_⟩
  · split
    · exact (h k (mem_range.1 hk)).1.le
    · exact le_rfl
  · rw [if_pos .refl]; exact (h i hi).1

/-! ## Linear systems -/

theorem sum_fin_range (n : ℕ) (f : ℕ → ℝ) : ∑ j : Fin n, f j = ∑ j ∈ range n, f j :=
  Fin.sum_univ_eq_sum_range f n

theorem toMat_mulVec (n : ℕ) (A : ℕ → ℕ → ℝ) (x : ℕ → ℝ) (i : Fin n) :
    (toMat n A).mulVec (fun j => x j) i = ∑ j ∈ range n, A i j * x j := by
  rw [← sum_fin_range n fun j => A i j * x j]
  rfl

theorem toMat_congr {n : ℕ} {A B : ℕ → ℕ → ℝ} (h : ∀ i < n, ∀ j < n, A i j = B i j) :
    toMat n A = toMat n B := by
  ext i j
  exact h i i.2 j j.2

theorem _root_.SpatialDyn.PosMat.det_ne {n : ℕ} {M : Matrix (Fin n) (Fin n) ℝ} (h : PosMat M) : M.det ≠ 0 := by
  intro h0
  obtain ⟨v, hv, hMv⟩ := Matrix.exists_mulVec_eq_zero_iff.2 h0
  have := h v hv
  rw [hMv, dotProduct_zero] at this
  exact lt_irrefl _ this

/-- When the solver returns, the result solves the system. -/
theorem ldltSolve_sound {n : ℕ} {A : ℕ → ℕ → ℝ} {b x : ℕ → ℝ} (h : ldltSolve n A b = some x)
    (i : ℕ) (hi : i < n) : ∑ j ∈ range n, A i j * x j = b i := by
  unfold ldltSolve at h
  split at h
  · next hpos =>
    simp only [Option.some.injEq] at h
    have hu : IsUnit (toMat n A).det := isUnit_iff_ne_zero.2 hpos.det_ne
    rw [← toMat_mulVec n A x ⟨i, hi⟩]
    have hx : (fun j : Fin n => x j) = (toMat n A)⁻¹.mulVec fun j => b j := by
      funext j
      rw [← h]
      simp
    rw [hx, Matrix.mulVec_mulVec, Matrix.mul_nonsing_inv _ hu, Matrix.one_mulVec]
  · cases h

/-- A nonsingular system has a solution. -/
theorem solve_exists {n : ℕ} {A : ℕ → ℕ → ℝ} (hdet : (toMat n A).det ≠ 0) (b : ℕ → ℝ) :
    ∃ x : ℕ → ℝ, ∀ i < n, ∑ j ∈ range n, A i j * x j = b i := by
  have hu : IsUnit (toMat n A).det := isUnit_iff_ne_zero.2 hdet
  refine ⟨fun i => if h : i < n then ((toMat n A)⁻¹.mulVec fun j => b j) ⟨i, h⟩ else 0, fun i hi => ?_⟩
  rw [← toMat_mulVec n A _ ⟨i, hi⟩]
  have hx : (fun j : Fin n => if h : (j : ℕ) < n then ((toMat n A)⁻¹.mulVec fun j => b j) ⟨j, h⟩ else 0) =
      (toMat n A)⁻¹.mulVec fun j => b j := by funext j; simp
  rw [hx, Matrix.mulVec_mulVec, Matrix.mul_nonsing_inv _ hu, Matrix.one_mulVec]

/-- A nonsingular system has one solution. -/
theorem solve_unique {n : ℕ} {A : ℕ → ℕ → ℝ} {x y : ℕ → ℝ} (hdet : (toMat n A).det ≠ 0)
    (h : ∀ i < n, ∑ j ∈ range n, A i j * x j = ∑ j ∈ range n, A i j * y j) (i : ℕ) (hi : i < n) :
    x i = y i := by
  have hu : IsUnit (toMat n A).det := isUnit_iff_ne_zero.2 hdet
  have e : (toMat n A).mulVec (fun j => x j) = (toMat n A).mulVec fun j => y j := by
    funext k
    rw [toMat_mulVec, toMat_mulVec, h k k.2]
  have e1 := congrArg ((toMat n A)⁻¹.mulVec ·) e
  simp only [Matrix.mulVec_mulVec, Matrix.nonsing_inv_mul _ hu, Matrix.one_mulVec] at e1
  exact congrFun e1 ⟨i, hi⟩

/-- A positive form, in numbers and as a matrix. -/
theorem posMat_of {n : ℕ} {A : ℕ → ℕ → ℝ} (h : ∀ u : ℕ → ℝ, (∃ i < n, u i ≠ 0) →
    0 < ∑ i ∈ range n, u i * ∑ j ∈ range n, A i j * u j) : PosMat (toMat n A) := by
  intro v hv
  set u : ℕ → ℝ := fun i => if h : i < n then v ⟨i, h⟩ else 0 with hu
  have huv : (fun j : Fin n => u j) = v := by funext j; simp [hu]
  obtain ⟨k, hk⟩ := Function.ne_iff.1 hv
  have := h u ⟨k, k.2, by rw [show u k = v k from congrFun huv k]; exact hk⟩
  rw [← sum_fin_range n fun i => u i * ∑ j ∈ range n, A i j * u j] at this
  refine this.trans_eq (sum_congr rfl fun i _ => ?_)
  rw [← toMat_mulVec n A u i, huv, ← huv]

theorem MassPD.mat (hpd : σ.MassPD) : PosMat (toMat σ.n σ.massSpec) :=
  posMat_of fun u hu => by rw [← energy2_eq]; exact hpd u hu

theorem MassPD.det_ne (hpd : σ.MassPD) : (toMat σ.n σ.massSpec).det ≠ 0 := hpd.mat.det_ne

end Sys
end SpatialDyn
