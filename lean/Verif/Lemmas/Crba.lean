import Verif.Lemmas.Rnea

/-! The composite rigid body algorithm computes the kinetic-energy form. -/

namespace SpatialDyn
open Finset

theorem setMat_apply (A : ℕ → ℕ → ℝ) (i j : ℕ) (x : ℝ) (a b : ℕ) :
    Sys.setMat A i j x a b = if a = i ∧ b = j then x else A a b := by
  unfold Sys.setMat
  by_cases ha : a = i
  · subst ha
    rw [Function.update_self]
    by_cases hb : b = j
    · subst hb; simp
    · rw [Function.update_of_ne hb]; simp [hb]
  · rw [Function.update_of_ne ha]; simp [ha]

namespace Sys
variable {σ : Sys}

open Classical in
/-- Mass of the subtree of body `i`, loads included. -/
noncomputable def subMass (σ : Sys) (i : ℕ) : ℝ :=
  ∑ k ∈ range σ.n, if Anc σ.par i k then (σ.Itot k).mass else 0

/-- No negative mass, and every subtree hanging from another body has some mass.  Otherwise the
centre of mass of a sum of inertias is a division by zero in the C++. -/
structure PosMass (σ : Sys) : Prop where
  nonneg : ∀ i < σ.n, 0 ≤ (σ.Itot i).mass
  sub_pos : ∀ i < σ.n, (σ.par i).isSome → 0 < σ.subMass i

/-- Composite inertias after the backward pass. -/
noncomputable def accI (n : ℕ) (σ : Sys) (B0 : ℕ → Inertia) : ℕ → Inertia :=
  accLoop Inertia.add n σ.par (fun i I => (σ.Tp i).actI I) B0

/-- Conjugation of an inertia operator by a transform. -/
noncomputable def conj (T : Iso) (φ : Motion → Force) : Motion → Force :=
  fun m => T.actF (φ (T.inv.actM m))

theorem accI_app (n : ℕ) (hp : ParLt n σ.par) (hT : ∀ i < n, (σ.Tp i).Valid) (B0 : ℕ → Inertia)
    (hnn : ∀ i < n, 0 ≤ (B0 i).mass)
    (hpos : ∀ i < n, (σ.par i).isSome →
      0 < accLoop (· + ·) n σ.par (fun _ x => x) (fun i => (B0 i).mass) i) :
    (∀ i, (accI n σ B0 i).mass = accLoop (· + ·) n σ.par (fun _ x => x) (fun i => (B0 i).mass) i) ∧
    (∀ i, (accI n σ B0 i).app =
      accLoop (· + ·) n σ.par (fun i φ => conj (σ.Tp i) φ) (fun i => (B0 i).app) i) := by
  induction n generalizing B0 with
  | zero => exact ⟨fun _ => rfl, fun _ => rfl⟩
  | succ n ih =>
    have hB := accLoop_ge (· + ·) hp (fun _ x => x) (fun i => (B0 i).mass) n le_rfl
    unfold accI at ih ⊢
    simp only [accLoop_succ] at hpos ⊢
    cases hpar : σ.par n with
    | none =>
      rw [hpar] at hpos
      exact ih hp.mono (fun i hi => hT i (by omega)) B0 (fun i hi => hnn i (by omega))
        (fun i hi h => hpos i (by omega) h)
    | some p =>
      have hlt := hp n (by omega) p hpar
      have hn : 0 < (B0 n).mass := by
        have := hpos n (by omega) (by simp [hpar])
        rw [hpar] at this
        have h2 := accLoop_ge (· + ·) hp.mono (fun _ x => x)
          (accum (· + ·) (fun i => (B0 i).mass) p (B0 n).mass) n (by omega)
        simp only at this h2
        rw [h2] at this
        simpa [accum, Function.update_of_ne (show n ≠ p by omega)] using this
      have hp0 : 0 ≤ (B0 p).mass := hnn p (by omega)
      have hdef : (B0 p).AddDefined ((σ.Tp n).actI (B0 n)) := by
        show (B0 p).mass + (B0 n).mass ≠ 0
        positivity
      set B1 := accum Inertia.add B0 p ((σ.Tp n).actI (B0 n)) with hB1
      have e1 : (fun i => (B1 i).mass) =
          accum (· + ·) (fun i => (B0 i).mass) p (B0 n).mass := by
        funext i
        by_cases hip : i = p
        · subst hip; simp [hB1, accum, Inertia.add, Iso.actI]
        · simp [hB1, accum, Function.update_of_ne hip]
      have e2 : (fun i => (B1 i).app) =
          accum (· + ·) (fun i => (B0 i).app) p (conj (σ.Tp n) (B0 n).app) := by
        funext i
        by_cases hip : i = p
        · subst hip
          funext m
          simp only [hB1, accum, Function.update_self, Pi.add_apply]
          rw [Inertia.add_app _ _ hdef, Inertia.actI_app' _ (hT n (by omega))]
          rfl
        · simp [hB1, accum, Function.update_of_ne hip]
      rw [hpar] at hpos
      simp only at hpos
      rw [← e1] at hpos
      have := ih hp.mono (fun i hi => hT i (by omega)) B1 ?_ (fun i hi h => hpos i (by omega) h)
      · rw [e1, e2] at this
        exact this
      · intro i hi
        have := congrFun e1 i
        rw [this]
        by_cases hip : i = p
        · subst hip; simp [accum]; linarith
        · simpa [accum, Function.update_of_ne hip] using hnn i (by omega)

theorem ParLt.accMass (hp : ParLt σ.n σ.par) (i : ℕ) (hi : i < σ.n) (c : ℕ → ℝ) :
    (open Classical in ∑ k ∈ range σ.n, if Anc σ.par i k then c k else 0) =
      accLoop (· + ·) σ.n σ.par (fun _ x => x) c i := by
  classical
  refine tree_eq_unique hp (fun _ x => x) c
    (fun i => ∑ k ∈ range σ.n, if Anc σ.par i k then c k else 0)
    (accLoop (· + ·) σ.n σ.par (fun _ x => x) c) ?_ ?_ i hi
  · intro i hi
    show (∑ k ∈ range σ.n, if Anc σ.par i k then c k else 0) = _
    rw [sum_congr rfl (fun k hk => child_sum hp (mem_range.1 hk) (c k)), sum_add_distrib,
      sum_ite_eq']
    simp only [mem_range, hi, if_true]
    congr 1
    rw [sum_comm]
    apply sum_congr rfl
    intro j _
    split
    · rfl
    · simp
  · intro i hi
    exact accLoop_spec hp _ _ i

open Classical in
/-- In the world frame the composite inertia of body `i` is the sum of the inertias of its
subtree. -/
theorem WF.accI_world (hw : σ.WF) (hm : σ.PosMass) (B0 : ℕ → Inertia)
    (hB : ∀ i < σ.n, B0 i = σ.Itot i) (i : ℕ) (hi : i < σ.n) (m : Motion) :
    (σ.Tw i).actF ((accI σ.n σ B0 i).app ((σ.Tw i).inv.actM m)) =
      ∑ k ∈ range σ.n, if Anc σ.par i k then σ.Iw k m else 0 := by
  have hnn : ∀ i < σ.n, 0 ≤ (B0 i).mass := fun i hi => by rw [hB i hi]; exact hm.nonneg i hi
  have hpos : ∀ i < σ.n, (σ.par i).isSome →
      0 < accLoop (· + ·) σ.n σ.par (fun _ x => x) (fun i => (B0 i).mass) i := by
    intro i hi h
    rw [← ParLt.accMass hw.par_lt i hi]
    have := hm.sub_pos i hi h
    unfold subMass at this
    refine lt_of_lt_of_eq this (sum_congr rfl fun k hk => ?_)
    rw [hB k (mem_range.1 hk)]
  have happ := (accI_app σ.n hw.par_lt hw.Tp_valid B0 hnn hpos).2
  have key := hw.force_sum (fun k => (σ.Itot k).app ((σ.Tw k).inv.actM m))
    (fun k => (accI σ.n σ B0 k).app ((σ.Tw k).inv.actM m)) ?_ i hi
  · rw [key]
    rfl
  · intro i hi
    have h1 := accLoop_spec hw.par_lt (fun i φ => conj (σ.Tp i) φ) (fun i => (B0 i).app) i
    simp only [happ]
    rw [h1]
    simp only [Pi.add_apply, Finset.sum_apply, hB i hi]
    congr 1
    apply sum_congr rfl
    intro j hj
    split
    · next h =>
      unfold conj
      rw [hw.inv_actM_rec (mem_range.1 hj) h]
    · rfl

open Classical in
/-- Effect of the walk up the tree: row and column `i` get the components along the axes of the
strict ancestors of `c`. -/
theorem WF.crbaWalk_apply (hw : σ.WF) (i : ℕ) (hi : i < σ.n) (k : ℕ) :
    ∀ (c : ℕ) (f : Force) (A : ℕ → ℕ → ℝ), c ≤ k → Anc σ.par c i →
    ∀ a b, σ.crbaWalk i k (σ.par c) c f A a b =
      if a = i ∧ b ≠ c ∧ Anc σ.par b c then (σ.axis b).dot ((σ.Tw c).actF f)
      else if b = i ∧ a ≠ c ∧ Anc σ.par a c then (σ.axis a).dot ((σ.Tw c).actF f)
      else A a b := by
  induction k with
  | zero =>
    intro c f A hc hci a b
    have hc0 : c = 0 := by omega
    subst hc0
    have hn : σ.par 0 = none := by
      cases h : σ.par 0 with
      | none => rfl
      | some p => have := hw.par_lt 0 (by omega) p h; omega
    simp only [anc_root hn]
    rw [if_neg (by tauto), if_neg (by tauto)]
    rfl
  | succ k ih =>
    intro c f A hc hci a b
    have hcn : c < σ.n := lt_of_le_of_lt (hci.le hw.par_lt hi) hi
    cases hpar : σ.par c with
    | none =>
      simp only [anc_root hpar]
      rw [if_neg (by tauto), if_neg (by tauto)]
      rfl
    | some j =>
      have hj := hw.par_lt c hcn j hpar
      have hjn : j < σ.n := by omega
      have hji : Anc σ.par j i := (Anc.step hpar .refl).trans hci
      have hjle : j < i := by have := hci.le hw.par_lt hi; omega
      show σ.crbaWalk i k (σ.par j) j _ _ a b = _
      rw [ih j _ _ (by omega) hji, hw.actF_rec hcn hpar]
      have hval : ((σ.Tp c).actF f).dot (σ.S j) = (σ.axis j).dot ((σ.Tw c).actF f) := by
        rw [Force.dot_eq, ← (hw.Tw_valid j hjn).dot_act, hw.actF_rec hcn hpar]
        rfl
      have hst : ∀ b, (b ≠ c ∧ Anc σ.par b c) ↔ (b = j ∨ (b ≠ j ∧ Anc σ.par b j)) := by
        intro b
        rw [anc_step hpar]
        constructor
        · rintro ⟨h1, h2⟩
          by_cases hb : b = j
          · exact .inl hb
          · rcases h2 with h2 | h2
            · exact absurd h2 h1
            · exact .inr ⟨hb, h2⟩
        · rintro (rfl | ⟨h1, h2⟩)
          · exact ⟨by omega, .inr .refl⟩
          · have := h2.le hw.par_lt hjn
            exact ⟨by omega, .inr h2⟩
      simp only [hst, setMat_apply, hval]
      have hlt : ∀ b, (b = j ∨ (b ≠ j ∧ Anc σ.par b j)) → b < i := by
        rintro b (rfl | ⟨_, h⟩)
        · exact hjle
        · have := h.le hw.par_lt hjn; omega
      by_cases h1 : a = i ∧ b = j
      · obtain ⟨rfl, rfl⟩ := h1
        have : ¬ (b ≠ b ∧ Anc σ.par b b) := by simp
        have h3 : a ≠ b := by omega
        have h4 : b ≠ a := by omega
        simp [h3, h4]
      · by_cases h2 : b = i ∧ a = j
        · obtain ⟨rfl, rfl⟩ := h2
          have h3 : a ≠ b := by omega
          have h4 : b ≠ a := by omega
          simp [h3]
        · have e1 : (a = i ∧ (b = j ∨ (b ≠ j ∧ Anc σ.par b j))) ↔
              (a = i ∧ b ≠ j ∧ Anc σ.par b j) := by
            constructor
            · rintro ⟨h, h' | h'⟩
              · exact absurd ⟨h, h'⟩ h1
              · exact ⟨h, h'⟩
            · rintro ⟨h, h'⟩; exact ⟨h, .inr h'⟩
          have e2 : (b = i ∧ (a = j ∨ (a ≠ j ∧ Anc σ.par a j))) ↔
              (b = i ∧ a ≠ j ∧ Anc σ.par a j) := by
            constructor
            · rintro ⟨h, h' | h'⟩
              · exact absurd ⟨h, h'⟩ h2
              · exact ⟨h, h'⟩
            · rintro ⟨h, h'⟩; exact ⟨h, .inr h'⟩
          have h2' : ¬ (a = j ∧ b = i) := fun h => h2 ⟨h.2, h.1⟩
          simp only [e1, e2, h1, h2', if_false]

open Classical in
theorem WF.crba_fold (hw : σ.WF) (m : ℕ) (hm : m ≤ σ.n) :
    ∀ (B : ℕ → Inertia) (A : ℕ → ℕ → ℝ),
    (List.range m).reverse.foldl σ.crbaStep (B, A) =
      (accI m σ B, fun a b =>
        if a < m ∧ Anc σ.par b a then
          (σ.axis b).dot ((σ.Tw a).actF ((accI m σ B a).app (σ.S a)))
        else if b < m ∧ Anc σ.par a b then
          (σ.axis a).dot ((σ.Tw b).actF ((accI m σ B b).app (σ.S b)))
        else A a b) := by
  induction m with
  | zero => intro B A; simp [accI, accLoop]
  | succ m ih =>
    intro B A
    have hmn : m < σ.n := by omega
    have hpm : ParLt (m + 1) σ.par := fun i hi p hp => hw.par_lt i (by omega) p hp
    rw [List.range_succ, List.reverse_append]
    simp only [List.reverse_cons, List.reverse_nil, List.nil_append, List.cons_append,
      List.foldl_cons]
    set B' := match σ.par m with
      | none => B
      | some p => accum Inertia.add B p ((σ.Tp m).actI (B m)) with hB'
    have hB'm : B' m = B m := by
      rw [hB']
      cases hpar : σ.par m with
      | none => rfl
      | some p =>
        have := hw.par_lt m hmn p hpar
        simp [accum, Function.update_of_ne (show m ≠ p by omega)]
    have hstep : σ.crbaStep (B, A) m = (B', σ.crbaWalk m σ.n (σ.par m) m ((B' m).app (σ.S m))
        (setMat A m m (((B' m).app (σ.S m)).dot (σ.S m)))) := rfl
    have hacc : accI (m + 1) σ B = accI m σ B' := accLoop_succ _ _ _ _ _
    rw [hstep, ih (by omega), hacc]
    have hIm : accI m σ B' m = B' m := accLoop_ge _ hpm.mono _ _ m (by omega)
    refine Prod.ext rfl ?_
    funext a b
    simp only
    rw [hw.crbaWalk_apply m hmn σ.n m _ _ hmn.le .refl, setMat_apply]
    have hdiag : ((B' m).app (σ.S m)).dot (σ.S m) =
        (σ.axis m).dot ((σ.Tw m).actF ((B' m).app (σ.S m))) := by
      rw [Force.dot_eq, ← (hw.Tw_valid m hmn).dot_act]; rfl
    rw [hdiag]
    by_cases ha : a < m ∧ Anc σ.par b a
    · rw [if_pos ha, if_pos ⟨by omega, ha.2⟩]
    · rw [if_neg ha]
      by_cases hb : b < m ∧ Anc σ.par a b
      · rw [if_pos hb]
        have : ¬ (a < m + 1 ∧ Anc σ.par b a) := by
          rintro ⟨h1, h2⟩
          have h3 := hb.2.le hw.par_lt (by omega)
          exact ha ⟨by omega, h2⟩
        rw [if_neg this, if_pos ⟨by omega, hb.2⟩]
      · rw [if_neg hb]
        by_cases ham : a = m
        · subst ham
          by_cases hba : Anc σ.par b a
          · rw [if_pos (show a < a + 1 ∧ Anc σ.par b a from ⟨by omega, hba⟩), hIm]
            by_cases hbe : b = a
            · subst hbe; simp
            · rw [if_pos ⟨rfl, hbe, hba⟩]
          · have h1 : b ≠ a := fun h => hba (h ▸ .refl)
            rw [if_neg (by tauto), if_neg (by tauto), if_neg (by tauto), if_neg (by tauto)]
            rw [if_neg]
            rintro ⟨h2, h3⟩
            rcases Nat.lt_succ_iff_lt_or_eq.1 h2 with h | h
            · exact hb ⟨h, h3⟩
            · exact h1 h
        · by_cases hbm : b = m
          · subst hbm
            by_cases hab : Anc σ.par a b
            · have hle := hab.le hw.par_lt hmn
              have hna : ¬ (a < b + 1 ∧ Anc σ.par b a) := by
                rintro ⟨_, h⟩
                have := h.le hw.par_lt (by omega)
                omega
              rw [if_neg (by tauto), if_pos ⟨rfl, ham, hab⟩, if_neg hna,
                if_pos ⟨by omega, hab⟩, hIm]
            · have hna : ¬ (a < b + 1 ∧ Anc σ.par b a) := by
                rintro ⟨h1, h2⟩
                have := h2.le hw.par_lt (by omega)
                omega
              rw [if_neg (by tauto), if_neg (by tauto), if_neg (by tauto), if_neg hna,
                if_neg (by tauto)]
          · rw [if_neg (by tauto), if_neg (by tauto), if_neg (by tauto), if_neg, if_neg]
            · rintro ⟨h1, h2⟩; exact hb ⟨by omega, h2⟩
            · rintro ⟨h1, h2⟩; exact ha ⟨by omega, h2⟩

theorem WF.crba_Ic (hw : σ.WF) (Ic0 : ℕ → Inertia) :
    (σ.crba Ic0).1 = accI σ.n σ (fwdLoop σ.n (fun _ i _ => σ.Itot i) Ic0) := by
  unfold crba
  simp only
  rw [hw.crba_fold σ.n le_rfl]

theorem initI_eq (Ic0 : ℕ → Inertia) (i : ℕ) (hi : i < σ.n) :
    fwdLoop σ.n (fun _ i _ => σ.Itot i) Ic0 i = σ.Itot i :=
  fwdLoop_spec' (fun _ _ _ _ _ _ => rfl) Ic0 i hi

open Classical in
/-- World-frame composite inertia: `CompositeInertia`. -/
theorem WF.crba_composite (hw : σ.WF) (hm : σ.PosMass) (Ic0 : ℕ → Inertia) (i : ℕ)
    (hi : i < σ.n) (m : Motion) :
    (σ.Tw i).actF (((σ.crba Ic0).1 i).app ((σ.Tw i).inv.actM m)) =
      ∑ k ∈ range σ.n, if Anc σ.par i k then σ.Iw k m else 0 := by
  rw [hw.crba_Ic]
  exact hw.accI_world hm _ (fun i hi => initI_eq Ic0 i hi) i hi m

/-- The composite rigid body algorithm computes the kinetic-energy form. -/
theorem WF.crba_spec (hw : σ.WF) (hs : σ.SymI) (hm : σ.PosMass) (Ic0 : ℕ → Inertia) (i j : ℕ)
    (hi : i < σ.n) (hj : j < σ.n) : (σ.crba Ic0).2 i j = σ.massSpec i j := by
  classical
  have hcol : ∀ a < σ.n, ∀ b, (σ.axis b).dot ((σ.Tw a).actF ((accI σ.n σ
      (fwdLoop σ.n (fun _ i _ => σ.Itot i) Ic0) a).app (σ.S a))) =
      ∑ k ∈ range σ.n, if Anc σ.par a k then (σ.axis b).dot (σ.Iw k (σ.axis a)) else 0 := by
    intro a ha b
    have := hw.accI_world hm _ (fun i hi => initI_eq Ic0 i hi) a ha (σ.axis a)
    rw [show (σ.Tw a).inv.actM (σ.axis a) = σ.S a from (hw.Tw_valid a ha).inv_actM _] at this
    rw [this, Motion.dot_sum]
    apply sum_congr rfl
    intro k _
    split <;> simp
  unfold crba
  simp only
  rw [hw.crba_fold σ.n le_rfl]
  simp only
  unfold massSpec Jw
  by_cases h1 : Anc σ.par j i
  · rw [if_pos ⟨hi, h1⟩, hcol i hi]
    apply sum_congr rfl
    intro k hk
    by_cases hik : Anc σ.par i k
    · simp only [hik, h1.trans hik, if_true]
      exact hw.Iw_symm hs (mem_range.1 hk) _ _
    · simp [hik]
  · rw [if_neg (by tauto)]
    by_cases h2 : Anc σ.par i j
    · rw [if_pos ⟨hj, h2⟩, hcol j hj]
      apply sum_congr rfl
      intro k hk
      by_cases hjk : Anc σ.par j k
      · simp only [hjk, h2.trans hjk, if_true]
      · simp [hjk]
    · rw [if_neg (by tauto)]
      symm
      apply sum_eq_zero
      intro k _
      by_cases hik : Anc σ.par i k
      · by_cases hjk : Anc σ.par j k
        · rcases hik.total hjk with h | h
          · exact absurd h h2
          · exact absurd h h1
        · simp [hjk]
      · simp [hik]

end Sys
end SpatialDyn
