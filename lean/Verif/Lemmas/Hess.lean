import Verif.Lemmas.Kin

/-! The Hessian loop and the derivative of the Jacobian. -/

namespace SpatialDyn
open Finset

namespace Body
variable {b : Body} {E : Ext}

theorem hessSet_foldl (i : ℕ) (v : ℕ → Motion) (l : List ℕ) (H : ℕ → ℕ → Motion) (a c : ℕ) :
    l.foldl (fun H j => hessSet H i j (v j)) H a c =
      if a = i ∧ c ∈ l then v c else if c = i ∧ a ∈ l then v a else H a c := by
  induction l generalizing H with
  | nil => simp
  | cons d l ih =>
    rw [List.foldl_cons, ih]
    by_cases h1 : a = i ∧ c ∈ l
    · rw [if_pos h1, if_pos ⟨h1.1, List.mem_cons_of_mem _ h1.2⟩]
    · rw [if_neg h1]
      by_cases h2 : c = i ∧ a ∈ l
      · rw [if_pos h2]
        by_cases h3 : a = i ∧ c ∈ d :: l
        · rw [if_pos h3, h3.1, h2.1]
        · rw [if_neg h3, if_pos ⟨h2.1, List.mem_cons_of_mem _ h2.2⟩]
      · rw [if_neg h2]
        unfold hessSet
        by_cases h4 : a = i ∧ c = d
        · rw [if_pos (Or.inl h4), if_pos ⟨h4.1, by rw [h4.2]; exact List.mem_cons_self ..⟩, h4.2]
        · by_cases h5 : a = d ∧ c = i
          · rw [if_pos (Or.inr h5)]
            by_cases h6 : a = i ∧ c ∈ d :: l
            · rw [if_pos h6]
              congr 1
              rw [h5.2, ← h6.1, h5.1]
            · rw [if_neg h6, if_pos ⟨h5.2, by rw [h5.1]; exact List.mem_cons_self ..⟩, h5.1]
          · have e1 : ¬ (a = i ∧ c ∈ d :: l) := by
              rintro ⟨h, hm⟩
              rcases List.mem_cons.1 hm with hm | hm
              · exact h4 ⟨h, hm⟩
              · exact h1 ⟨h, hm⟩
            have e2 : ¬ (c = i ∧ a ∈ d :: l) := by
              rintro ⟨h, hm⟩
              rcases List.mem_cons.1 hm with hm | hm
              · exact h5 ⟨hm, h⟩
              · exact h2 ⟨h, hm⟩
            rw [if_neg e1, if_neg e2, if_neg (by tauto)]

/-- The entry written for the pair `i ≤ j`. -/
noncomputable def hessEntry (b : Body) (Tw : ℕ → Iso) (J : ℕ → Motion) (i j : ℕ) : Motion :=
  if (b.rb i).joint.type.isPrismatic then 0
  else ⟨((Tw i).R.mulVec (b.rb i).joint.subspace.ang).cross (J j).lin,
    ((Tw i).R.mulVec (b.rb i).joint.subspace.ang).cross (J j).ang⟩

theorem hessLoop_other (Tw : ℕ → Iso) (J : ℕ → Motion) (l : List ℕ) (H : ℕ → ℕ → Motion)
    (a c : ℕ) (h : a ∉ l ∨ c ∉ l) : b.hessLoop Tw J l H a c = H a c := by
  induction l generalizing H with
  | nil => rfl
  | cons i l ih =>
    unfold hessLoop
    rw [ih _ (by simp only [List.mem_cons, not_or] at h; tauto)]
    by_cases hp : (b.rb i).joint.type.isPrismatic = true
    · simp only [hp, if_true]
    · simp only [hp]
      rw [if_neg Bool.false_ne_true, hessSet_foldl, if_neg, if_neg]
      · rintro ⟨rfl, h2⟩
        rcases h with h | h
        · exact h h2
        · exact h (List.mem_cons_self ..)
      · rintro ⟨rfl, h2⟩
        rcases h with h | h
        · exact h (List.mem_cons_self ..)
        · exact h h2

theorem hessLoop_apply (Tw : ℕ → Iso) (J : ℕ → Motion) (l : List ℕ) (hl : l.Pairwise (· < ·))
    (H : ℕ → ℕ → Motion) (hH : ∀ a c, H a c = 0 ∨ a ∉ l ∨ c ∉ l) (a c : ℕ) (ha : a ∈ l)
    (hc : c ∈ l) : b.hessLoop Tw J l H a c = b.hessEntry Tw J (min a c) (max a c) := by
  induction l generalizing H with
  | nil => cases ha
  | cons i l ih =>
    obtain ⟨hi, hl⟩ := List.pairwise_cons.1 hl
    have hil : i ∉ l := fun h => lt_irrefl _ (hi i h)
    by_cases h1 : a ∈ l ∧ c ∈ l
    · unfold hessLoop
      refine ih hl _ ?_ h1.1 h1.2
      intro x y
      by_cases hxy : x ∈ l ∧ y ∈ l
      · left
        have hx : x ≠ i := fun e => hil (e ▸ hxy.1)
        have hy : y ≠ i := fun e => hil (e ▸ hxy.2)
        have h0 : H x y = 0 := by
          rcases hH x y with h | h | h
          · exact h
          · exact absurd (List.mem_cons_of_mem _ hxy.1) h
          · exact absurd (List.mem_cons_of_mem _ hxy.2) h
        by_cases hp : (b.rb i).joint.type.isPrismatic = true
        · simp only [hp, if_true, h0]
        · simp only [hp]
          rw [if_neg Bool.false_ne_true, hessSet_foldl, if_neg (by tauto), if_neg (by tauto), h0]
      · tauto
    · have h2 : a ∉ l ∨ c ∉ l := by tauto
      unfold hessLoop
      rw [hessLoop_other _ _ _ _ _ _ h2]
      have h3 : (a = i ∧ c ∈ i :: l) ∨ (c = i ∧ a ∈ i :: l) := by
        rcases List.mem_cons.1 ha with h | h
        · exact Or.inl ⟨h, hc⟩
        · rcases List.mem_cons.1 hc with h' | h'
          · exact Or.inr ⟨h', ha⟩
          · exact absurd ⟨h, h'⟩ h1
      have hle : ∀ x ∈ i :: l, i ≤ x := by
        intro x hx
        rcases List.mem_cons.1 hx with h | h
        · exact h.ge
        · exact (hi x h).le
      have h0 : H a c = 0 := by
        rcases hH a c with h | h | h
        · exact h
        · exact absurd ha h
        · exact absurd hc h
      unfold hessEntry
      by_cases hp : (b.rb i).joint.type.isPrismatic = true
      · simp only [hp, if_true, h0]
        have : min a c = i := by
          rcases h3 with ⟨rfl, h⟩ | ⟨rfl, h⟩
          · exact min_eq_left (hle _ h)
          · exact min_eq_right (hle _ h)
        rw [this, if_pos hp]
      · simp only [hp]
        rw [if_neg Bool.false_ne_true, hessSet_foldl]
        by_cases h4 : a = i ∧ c ∈ i :: l
        · rw [if_pos h4]
          obtain ⟨rfl, h⟩ := h4
          rw [min_eq_left (hle _ h), max_eq_right (hle _ h), if_neg hp]
        · rw [if_neg h4]
          have h5 : c = i ∧ a ∈ i :: l := by tauto
          rw [if_pos h5]
          obtain ⟨rfl, h⟩ := h5
          rw [min_eq_right (hle _ h), max_eq_left (hle _ h), if_neg hp]

/-- Derivative of a Jacobian column along a motion of the joints. -/
theorem jacCol_deriv (ht : b.Tree) (hr : b.Rigid) (ha : b.AxesOK) {u : ℝ → ℕ → ℝ} {w : ℕ → ℝ}
    {s : ℝ} (hu : ∀ i < b.dof, HasDerivAt (fun s => u s i) (w i) s) (y : ℕ → ℝ) {k : ℕ}
    (hk : k < b.dof) (x : Vec3) (l : ℕ) (hl : l < b.dof) :
    HasDerivMotion (fun s => ((b.sysAt (u s) y).axis l).atPoint ((b.twAt (u s) k).app x))
      ((((b.sysAt (u s) y).V w l).crossM ((b.sysAt (u s) y).axis l)).atPoint
          ((b.twAt (u s) k).app x) +
        ⟨((b.sysAt (u s) y).axis l).ang.cross
          (((b.sysAt (u s) y).V w k).atPoint ((b.twAt (u s) k).app x)).lin, 0⟩) s := by
  have h1 := axis_deriv ht hr ha hu (fun _ => y) hl
  have h2 := (twAt_twist ht hr ha hu y k hk).app x
  constructor
  · refine (h1.lin.add (h1.ang.cross h2)).congr_deriv ?_
    simp only [Motion.atPoint, Motion.add_lin]
    ext <;> simp <;> ring
  · refine h1.ang.congr_deriv ?_
    simp [Motion.atPoint]

/-- The derivative of column `l` with respect to joint `j`, in closed form. -/
theorem jacCol_partial (ht : b.Tree) (hr : b.Rigid) (ha : b.AxesOK) {q : ℕ → ℝ} {i : ℤ} {k : ℕ}
    (hk : b.LinkIdx i k) {x : Vec3} {j l : ℕ} (hj : j < b.dof) (hl : l < b.dof)
    {Jq : ℝ → ℕ → Motion} (hJq : ∀ s, b.jacobianQ (Function.update q j s) i x = .ok (Jq s)) :
    (l ∈ b.anc.getD k [] → j ∈ b.anc.getD k [] →
      HasDerivVec (fun s => (Jq s l).lin) (((b.sysAt q 0).axis (min j l)).ang.cross
        (((b.sysAt q 0).axis (max j l)).atPoint ((b.twAt q k).app x)).lin) (q j) ∧
      HasDerivVec (fun s => (Jq s l).ang) (if j ≤ l then ((b.sysAt q 0).axis j).ang.cross
        ((b.sysAt q 0).axis l).ang else 0) (q j)) ∧
    (l ∉ b.anc.getD k [] ∨ j ∉ b.anc.getD k [] →
      HasDerivMotion (fun s => Jq s l) 0 (q j)) := by
  classical
  have hw := sysAt_wf ht hr q 0
  have hJ : ∀ s, Jq s l = if l ∈ b.anc.getD k [] then
      ((b.sysAt (Function.update q j s) 0).axis l).atPoint
        ((b.twAt (Function.update q j s) k).app x) else 0 := by
    intro s
    have h1 := hJq s
    rw [jacobianQ_val ht hk] at h1
    rw [← Out.ok.inj h1, jacLoop_apply]
    split
    · unfold Sys.axis; rw [sysAt_Tw hl]; rfl
    · rfl
  have hu : ∀ i < b.dof, HasDerivAt (fun s => Function.update q j s i)
      (if i = j then 1 else 0) (q j) := fun i _ => by
    by_cases hij : i = j
    · subst hij
      simpa using hasDerivAt_id' (q i)
    · simpa [Function.update_of_ne hij, hij] using hasDerivAt_const (q j) (q i)
  have hd := jacCol_deriv ht hr ha (u := fun s => Function.update q j s)
    (w := fun i => if i = j then 1 else 0) (s := q j) hu 0 hk.1 x l hl
  simp only [Function.update_eq_self] at hd
  have hV : ∀ m, (b.sysAt q 0).V (fun i => if i = j then 1 else 0) m = (b.sysAt q 0).Jw m j := by
    intro m
    unfold Sys.V
    rw [Finset.sum_eq_single j]
    · ext <;> simp
    · intro i _ hij; ext <;> simp [hij]
    · intro hn; exact absurd (mem_range.2 hj) hn
  rw [hV, hV] at hd
  have hm : ∀ a, a ∈ b.anc.getD k [] ↔ Anc (b.sysAt q 0).par a k := ht.anc_mem k hk.1
  constructor
  · intro hlm hjm
    have hjk := (hm j).1 hjm
    have hlk := (hm l).1 hlm
    have e : (fun s => Jq s l) = fun s => ((b.sysAt (Function.update q j s) 0).axis l).atPoint
        ((b.twAt (Function.update q j s) k).app x) := by
      funext s; rw [hJ s, if_pos hlm]
    have hjw : (b.sysAt q 0).Jw k j = (b.sysAt q 0).axis j := if_pos hjk
    rw [hjw] at hd
    rcases le_or_gt j l with hjl | hjl
    · have hanc : Anc (b.sysAt q 0).par j l := by
        rcases hjk.total hlk with h | h
        · exact h
        · have := h.le ht.parLt hj
          have : j = l := by omega
          subst this; exact .refl
      have e1 : (b.sysAt q 0).Jw l j = (b.sysAt q 0).axis j := if_pos hanc
      rw [e1] at hd
      rw [min_eq_left hjl, max_eq_right hjl, if_pos hjl]
      constructor
      · have := hd.lin
        simp only [← congrFun e] at this
        refine this.congr_deriv ?_
        simp only [Motion.atPoint, Motion.add_lin, Motion.crossM_lin, Motion.crossM_ang]
        ext <;> simp [Vec3.cross] <;> ring
      · have := hd.ang
        simp only [← congrFun e] at this
        refine this.congr_deriv ?_
        simp only [Motion.atPoint, Motion.add_ang, Motion.crossM_ang, add_zero]
    · have hanc : ¬ Anc (b.sysAt q 0).par j l := by
        intro h
        have := h.le ht.parLt hl
        omega
      have e1 : (b.sysAt q 0).Jw l j = 0 := if_neg hanc
      rw [e1] at hd
      rw [min_eq_right hjl.le, max_eq_left hjl.le, if_neg (by omega)]
      constructor
      · have := hd.lin
        simp only [← congrFun e] at this
        refine this.congr_deriv ?_
        ext <;> simp [Motion.atPoint, Vec3.cross]
      · have := hd.ang
        simp only [← congrFun e] at this
        refine this.congr_deriv ?_
        ext <;> simp [Motion.atPoint]
  · intro hn
    by_cases hlm : l ∈ b.anc.getD k []
    · have hjm : j ∉ b.anc.getD k [] := by tauto
      have hlk := (hm l).1 hlm
      have hjk : ¬ Anc (b.sysAt q 0).par j k := fun h => hjm ((hm j).2 h)
      have hjl : ¬ Anc (b.sysAt q 0).par j l := fun h => hjk (h.trans hlk)
      rw [show (b.sysAt q 0).Jw k j = 0 from if_neg hjk,
        show (b.sysAt q 0).Jw l j = 0 from if_neg hjl] at hd
      have e : (fun s => Jq s l) = fun s => ((b.sysAt (Function.update q j s) 0).axis l).atPoint
          ((b.twAt (Function.update q j s) k).app x) := by
        funext s; rw [hJ s, if_pos hlm]
      rw [e]
      refine hd.congr_deriv ?_
      ext <;> simp [Motion.atPoint, Vec3.cross]
    · have e : (fun s => Jq s l) = fun _ => 0 := by
        funext s; rw [hJ s, if_neg hlm]
      rw [e]
      exact HasDerivMotion.const 0 _

end Body
end SpatialDyn
