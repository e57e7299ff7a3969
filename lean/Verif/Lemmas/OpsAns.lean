import Verif.Lemmas.Tasks

/-! Answers of the operational-space functions as functions of the observable state. -/

namespace SpatialDyn
open Body

namespace DMat
variable {A B A' B' : DMat}

theorem Eqv.symm (h : A.Eqv B) : B.Eqv A :=
  ⟨h.1.symm, h.2.1.symm, fun i hi j hj =>
    (h.2.2 i (by rw [h.1]; exact hi) j (by rw [h.2.1]; exact hj)).symm⟩

theorem Eqv.trans {C : DMat} (h : A.Eqv B) (h' : B.Eqv C) : A.Eqv C :=
  ⟨h.1.trans h'.1, h.2.1.trans h'.2.1, fun i hi j hj =>
    (h.2.2 i hi j hj).trans (h'.2.2 i (by rw [← h.1]; exact hi) j (by rw [← h.2.1]; exact hj))⟩

theorem Eqv.trunc (h : A.Eqv B) : A.trunc = B.trunc := by
  unfold DMat.trunc
  rw [← h.1, ← h.2.1]
  congr 1
  funext i j
  by_cases hc : i < A.rows ∧ j < A.cols
  · rw [if_pos hc, if_pos hc, h.2.2 i hc.1 j hc.2]
  · rw [if_neg hc, if_neg hc]

theorem Eqv.mul (h : A.Eqv A') (h' : B.Eqv B') (hc : A.cols = B.rows) :
    (A.mul B).Eqv (A'.mul B') := by
  refine ⟨h.1, h'.2.1, fun i hi j hj => ?_⟩
  show ∑ k ∈ Finset.range A.cols, A.e i k * B.e k j =
    ∑ k ∈ Finset.range A'.cols, A'.e i k * B'.e k j
  rw [← h.2.1]
  refine Finset.sum_congr rfl fun k hk => ?_
  have hk := Finset.mem_range.1 hk
  rw [h.2.2 i hi k hk, h'.2.2 k (by rw [← hc]; exact hk) j hj]

end DMat

namespace Body
variable {E : Ext} {b b' : Body} {T : Set ℝ}

theorem ainvJT_eqv {n : ℕ} {A A' : ℕ → ℕ → ℝ} {J J' : DMat}
    (hA : ∀ i < n, ∀ j < n, A i j = A' i j) (hJ : J.Eqv J') (hc : J.cols = n) :
    (ainvJT E n A J).Eqv (ainvJT E n A' J') := by
  refine ⟨rfl, hJ.1, fun i hi k hk => ?_⟩
  show E.solve n A (fun j => J.e k j) i = E.solve n A' (fun j => J'.e k j) i
  rw [E.solve_congr hA fun j hj => hJ.2.2 k hk j (by rw [hc]; exact hj)]

/-- `A⁻¹ Jᵀ` from the answer of `Inertia`. -/
noncomputable def ajt (E : Ext) (b : Body) (J : DMat) : DMat := ainvJT E b.dof b.inertia.1 J

/-- The cached quantities after a call. -/
theorem ops_eqv (h : Inv E b) {b1 : Body} (h1 : Step E b b1)
    (hi : b1.c.ops.lambdaInvDone = true) {J : DMat} (hJ : b1.c.ops.J.Eqv J) :
    J.cols = b.dof ∧ b1.c.ops.AinvJT.Eqv (b.ajt E J) ∧
      b1.c.ops.LambdaInv.Eqv (J.mul (b.ajt E J)) := by
  obtain ⟨hc, A, hA, h2, h3⟩ := (h.step h1).coh.opsInv hi
  rw [h1.fresh_eq] at hA
  rw [h1.dof_eq] at h2 hc
  have e := IsA.unique h.wf hA (inertia_run h).2.1
  have h4 : b1.c.ops.AinvJT.Eqv (b.ajt E J) := by
    rw [h2]; exact ainvJT_eqv e hJ hc
  refine ⟨by rw [← hJ.2.1, hc], h4, ?_⟩
  rw [h3]
  exact hJ.mul h4 (by rw [hc, h4.1]; rfl)

theorem ajt_congr (h : Inv E b) (h' : Inv E b') (ho : b.PoseEq b') (J : DMat) (hc : J.cols = b.dof) :
    (b.ajt E J).Eqv (b'.ajt E J) := by
  have hf : b'.fresh = b.fresh := ho.fresh
  have hd : b'.dof = b.dof := by unfold Body.dof; rw [ho.rbs]
  have hA := (inertia_run h').2.1
  rw [hf] at hA
  unfold ajt
  rw [hd]
  exact ainvJT_eqv (IsA.unique h.wf (inertia_run h).2.1 hA) (DMat.Eqv.refl J) hc

theorem opsSame_total (h : Inv E b) (hi : b.c.ops.lambdaInvDone = true) {J : DMat}
    (hJ : J.cols = b.dof) (hd : 0 < b.dof) : ∃ s, b.opsSame J = .ok s := by
  obtain ⟨hc, -⟩ := h.coh.opsInv hi
  unfold opsSame
  split
  · exact ⟨_, rfl⟩
  · next hsz =>
    rw [if_neg]
    · exact ⟨_, rfl⟩
    · rintro (hr | hr)
      · push Not at hsz
        unfold DMat.size at hsz
        rw [hc, hJ] at hsz
        exact hr (Nat.eq_of_mul_eq_mul_right hd hsz)
      · exact hr (hc.trans hJ.symm)

theorem opsInvCompute_total {J : DMat} (hJ : J.cols = b.dof) :
    ∃ r, b.opsInvCompute E J = .ok r := by
  unfold opsInvCompute
  rw [if_neg (not_not.2 hJ)]
  exact ⟨_, rfl⟩

theorem opsInertiaInverse_total (h : Inv E b) {J : DMat} (hJ : J.cols = b.dof) (hd : 0 < b.dof) :
    ∃ r, b.opsInertiaInverse E J = .ok r := by
  unfold opsInertiaInverse
  split
  · exact opsInvCompute_total hJ
  · next hi =>
    obtain ⟨s, hs⟩ := opsSame_total h (by simpa using hi) hJ hd
    rw [hs]
    cases s
    · exact opsInvCompute_total hJ
    · exact ⟨_, rfl⟩

theorem opsLambdaCompute_total (h : Inv E b) {J : DMat} {e : ℝ} (hJ : J.cols = b.dof)
    (hd : 0 < b.dof) : ∃ r, b.opsLambdaCompute E J e = .ok r := by
  obtain ⟨r, hr⟩ := opsInertiaInverse_total h hJ hd
  unfold opsLambdaCompute
  rw [hr]
  exact ⟨_, rfl⟩

theorem opsInertia_total (h : Inv E b) {J : DMat} {e : ℝ} (hJ : J.cols = b.dof)
    (hd : 0 < b.dof) : ∃ r, b.opsInertia E J e = .ok r := by
  unfold opsInertia
  split
  · exact opsLambdaCompute_total h hJ hd
  · next hl =>
    have hi := (h.coh.opsLam (by simpa using hl)).1
    obtain ⟨s, hs⟩ := opsSame_total h hi hJ hd
    rw [hs]
    simp only [Out.bind]
    split
    · exact ⟨_, rfl⟩
    · exact opsLambdaCompute_total h hJ hd

theorem opsJbarCompute_total (h : Inv E b) {J : DMat} {e : ℝ} (hJ : J.cols = b.dof)
    (hd : 0 < b.dof) : ∃ r, b.opsJbarCompute E J e = .ok r := by
  obtain ⟨r, hr⟩ := opsInertia_total (e := e) h hJ hd
  unfold opsJbarCompute
  rw [hr]
  exact ⟨_, rfl⟩

theorem opsJbar_total (h : Inv E b) {J : DMat} {e : ℝ} (hJ : J.cols = b.dof)
    (hd : 0 < b.dof) : ∃ r, b.opsJbar E J e = .ok r := by
  unfold opsJbar
  split
  · exact opsJbarCompute_total h hJ hd
  · next hl =>
    have hi := (h.coh.opsJbar (by simpa using hl)).1
    obtain ⟨s, hs⟩ := opsSame_total h hi hJ hd
    rw [hs]
    simp only [Out.bind]
    split
    · exact ⟨_, rfl⟩
    · exact opsJbarCompute_total h hJ hd

theorem opsInertiaInverse_ans (h : Inv E b) {J : DMat} {r : DMat × Body}
    (hr : b.opsInertiaInverse E J = .ok r) : J.cols = b.dof ∧ r.1.trunc = (J.mul (b.ajt E J)).trunc := by
  obtain ⟨h1, h2, h3, h4⟩ := opsInertiaInverse_run h hr
  obtain ⟨hc, -, h5⟩ := ops_eqv h h1 h2 h3
  rw [h4]
  exact ⟨hc, h5.trunc⟩

theorem opsInertia_ans (h : Inv E b) {J : DMat} {e : ℝ} {r : DMat × Body}
    (hr : b.opsInertia E J e = .ok r) : J.cols = b.dof ∧
      r.1 = (E.pinvOf (J.mul (b.ajt E J)) e).1 ∧
      r.2.c.ops.singular = (E.pinvOf (J.mul (b.ajt E J)) e).2 := by
  obtain ⟨h1, h2, h3, h4, h5⟩ := opsInertia_run h hr
  obtain ⟨h6, h7, h8⟩ := (h.step h1).coh.opsLam h2
  obtain ⟨hc, -, h9⟩ := ops_eqv h h1 h6 h3
  rw [h5, h7, h8, h4]
  unfold Ext.pinvOf
  rw [h9.trunc]
  exact ⟨hc, rfl, rfl⟩

/-- `JacobianDynamicInverse` for one of the tolerances in use. -/
theorem opsJbar_ans (h : Inv E b) (ht : TolC E T b.c.ops) {J : DMat} {e : ℝ} (he : e ∈ T)
    {r : DMat × Body} (hr : b.opsJbar E J e = .ok r) : J.cols = b.dof ∧ ∃ e' ∈ T, ∃ X : DMat,
      X.Eqv (b.ajt E J) ∧ r.1 = X.mul (E.pinvOf (J.mul (b.ajt E J)) e').1 := by
  have h1 := opsJbar_tol h ht he hr
  obtain ⟨h2, h3, h4, h5⟩ := opsJbar_run h hr
  obtain ⟨e', he', h6⟩ := h1 h3
  obtain ⟨h7, -⟩ := (h.step h2).coh.opsJbar h3
  obtain ⟨hc, h8, h9⟩ := ops_eqv h h2 h7 h4
  refine ⟨hc, e', he', _, h8, ?_⟩
  rw [h5, h6]
  unfold Ext.pinvOf
  rw [h9.trunc]

end Body
end SpatialDyn
