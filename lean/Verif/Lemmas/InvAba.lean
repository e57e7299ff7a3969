import Verif.Lemmas.AbaCache
import Verif.Model.InertiaInverseAba

/-! `InertiaInverseAba` column by column: the articulated body algorithm on unit torques. -/

namespace SpatialDyn
open Finset

namespace Sys
variable {σ : Sys}

/-- The incoming acceleration, the new entry and the new acceleration of one inner iteration. -/
noncomputable def invIn (σ : Sys) (A : ℕ → ℕ → Motion) (i j : ℕ) : Motion :=
  match σ.par i with
  | none => A i j
  | some p => A i j + (σ.Tp i).inv.actM (A p j)

noncomputable def invNew (σ : Sys) (out : ℕ → InvOut) (s : (ℕ → ℕ → Motion) × (ℕ → ℕ → ℝ))
    (i j : ℕ) : ℝ :=
  s.2 i j - (out i).h.dot (σ.invIn s.1 i j) / (out i).d

theorem invFwdInner_eq (out : ℕ → InvOut) (i : ℕ) (s : (ℕ → ℕ → Motion) × (ℕ → ℕ → ℝ)) (j : ℕ) :
    σ.invFwdInner out i s j =
      (Function.update s.1 i (Function.update (s.1 i) j
        (σ.invIn s.1 i j + σ.invNew out s i j • σ.S i)),
       if i ≠ j then setMat (setMat s.2 i j (σ.invNew out s i j)) j i (σ.invNew out s i j)
       else setMat s.2 i j (σ.invNew out s i j)) := rfl

theorem invFwdInner_foldl (hp : ∀ p, σ.par i = some p → p ≠ i) (out : ℕ → InvOut) (l : List ℕ)
    (hl : l.Nodup) (s : (ℕ → ℕ → Motion) × (ℕ → ℕ → ℝ)) :
    let r := l.foldl (σ.invFwdInner out i) s
    (∀ a c, r.1 a c = if a = i ∧ c ∈ l then σ.invIn s.1 i c + σ.invNew out s i c • σ.S i
      else s.1 a c) ∧
    (∀ a c, r.2 a c = if a = i ∧ c ∈ l then σ.invNew out s i c
      else if c = i ∧ a ∈ l then σ.invNew out s i a else s.2 a c) := by
  induction l generalizing s with
  | nil => simp
  | cons j l ih =>
    intro r
    obtain ⟨hj, hl⟩ := List.nodup_cons.1 hl
    obtain ⟨h1, h2⟩ := ih hl (σ.invFwdInner out i s j)
    set s1 := σ.invFwdInner out i s j with hs1
    have e1 : ∀ a c, s1.1 a c = if a = i ∧ c = j then σ.invIn s.1 i c + σ.invNew out s i c • σ.S i
        else s.1 a c := by
      intro a c
      rw [hs1, invFwdInner_eq]
      simp only [Function.update_apply]
      by_cases ha : a = i
      · subst ha
        by_cases hc : c = j
        · subst hc; simp
        · simp [hc]
      · simp [ha]
    have e2 : ∀ a c, s1.2 a c = if a = i ∧ c = j then σ.invNew out s i c
        else if c = i ∧ a = j then σ.invNew out s i a else s.2 a c := by
      intro a c
      rw [hs1, invFwdInner_eq]
      simp only [setMat]
      by_cases hij : i = j
      · subst hij
        simp only [ne_eq, not_true, if_false]
        by_cases ha : a = i <;> by_cases hc : c = i <;> simp [ha, hc]
      · simp only [ne_eq, hij, not_false_iff, if_true]
        by_cases ha : a = i
        · subst ha
          by_cases hc : c = j
          · subst hc; simp [hij]
          · simp [hc, hij]
        · by_cases hb : a = j
          · subst hb
            by_cases hc : c = i
            · subst hc; simp [hij, ha]
            · simp [hc, ha]
          · simp [ha, hb]
    have f1 : ∀ c, c ≠ j → σ.invIn s1.1 i c = σ.invIn s.1 i c := by
      intro c hc
      unfold invIn
      cases hpar : σ.par i with
      | none => simp [e1, hc]
      | some p => simp [e1, hc]
    have f2 : ∀ c, c ≠ j → σ.invNew out s1 i c = σ.invNew out s i c := by
      intro c hc
      unfold invNew
      rw [f1 c hc, e2 i c]
      by_cases hij : i = j
      · subst hij; simp [hc]
      · simp [hc, hij]
    refine ⟨fun a c => ?_, fun a c => ?_⟩
    · show (l.foldl (σ.invFwdInner out i) s1).1 a c = _
      rw [h1 a c]
      by_cases hal : a = i ∧ c ∈ l
      · have hcj : c ≠ j := fun h => hj (h ▸ hal.2)
        rw [if_pos hal, if_pos ⟨hal.1, List.mem_cons_of_mem _ hal.2⟩, f1 c hcj, f2 c hcj]
      · rw [if_neg hal, e1]
        by_cases hc : a = i ∧ c = j
        · rw [if_pos hc, if_pos ⟨hc.1, hc.2 ▸ List.mem_cons_self ..⟩]
        · rw [if_neg hc, if_neg]
          rintro ⟨ha, hm⟩
          rcases List.mem_cons.1 hm with h | h
          · exact hc ⟨ha, h⟩
          · exact hal ⟨ha, h⟩
    · show (l.foldl (σ.invFwdInner out i) s1).2 a c = _
      rw [h2 a c]
      by_cases hal : a = i ∧ c ∈ l
      · have hcj : c ≠ j := fun h => hj (h ▸ hal.2)
        rw [if_pos hal, if_pos ⟨hal.1, List.mem_cons_of_mem _ hal.2⟩, f2 c hcj]
      · rw [if_neg hal]
        by_cases hcl : c = i ∧ a ∈ l
        · have haj : a ≠ j := fun h => hj (h ▸ hcl.2)
          rw [if_pos hcl, f2 a haj]
          rw [if_neg, if_pos ⟨hcl.1, List.mem_cons_of_mem _ hcl.2⟩]
          rintro ⟨ha, hm⟩
          rcases List.mem_cons.1 hm with h | h
          · have : a = j := by rw [ha, ← hcl.1, h]
            exact haj this
          · exact hal ⟨ha, h⟩
        · rw [if_neg hcl, e2]
          by_cases hc : a = i ∧ c = j
          · rw [if_pos hc, if_pos ⟨hc.1, hc.2 ▸ List.mem_cons_self ..⟩]
          · rw [if_neg hc, if_neg (fun h : a = i ∧ c ∈ j :: l => by
              rcases List.mem_cons.1 h.2 with h' | h'
              · exact hc ⟨h.1, h'⟩
              · exact hal ⟨h.1, h'⟩)]
            by_cases hd : c = i ∧ a = j
            · rw [if_pos hd, if_pos ⟨hd.1, hd.2 ▸ List.mem_cons_self ..⟩]
            · rw [if_neg hd, if_neg]
              rintro ⟨h, hm⟩
              rcases List.mem_cons.1 hm with h' | h'
              · exact hd ⟨h, h'⟩
              · exact hcl ⟨h, h'⟩

/-- What the loops over `subtree(i)` need from the subtree lists. -/
structure SubOK (σ : Sys) (sub : ℕ → List ℕ) : Prop where
  mem : ∀ i < σ.n, ∀ j, j ∈ sub i ↔ j < σ.n ∧ Anc σ.par i j
  nodup : ∀ i < σ.n, (sub i).Nodup

/-- The last pass, given the accelerations `a j i` and entries `x j i` that each column should
have. -/
theorem invForward_eq (hw : σ.WF) {sub : ℕ → List ℕ} (hsub : σ.SubOK sub) (out : ℕ → InvOut)
    (a : ℕ → ℕ → Motion) (x : ℕ → ℕ → ℝ)
    (ha : ∀ i < σ.n, ∀ j ∈ sub i, a j i = (match σ.par i with
      | none => 0
      | some q => (σ.Tp i).inv.actM (a j q)) + x j i • σ.S i)
    (hx : ∀ i < σ.n, ∀ j ∈ sub i, x j i = (out i).row j -
      (out i).h.dot (match σ.par i with
        | none => 0
        | some q => (σ.Tp i).inv.actM (a j q)) / (out i).d) (n' : ℕ) (hn : n' ≤ σ.n) :
    let s := (List.range n').foldl (fun s i => (sub i).foldl (σ.invFwdInner out i) s)
      (fun _ _ => (0 : Motion), fun i => (out i).row)
    (∀ r c, s.1 r c = if r < n' ∧ c ∈ sub r then a c r else 0) ∧
    (∀ r c, s.2 r c = if r < n' ∧ c ∈ sub r then x c r
      else if c < n' ∧ r ∈ sub c then x r c else (out r).row c) := by
  induction n' with
  | zero => simp
  | succ i ih =>
    intro s
    obtain ⟨h1, h2⟩ := ih (by omega)
    have hi : i < σ.n := by omega
    set s0 := (List.range i).foldl (fun s i => (sub i).foldl (σ.invFwdInner out i) s)
      (fun _ _ => (0 : Motion), fun i => (out i).row) with hs0
    have hs : s = (sub i).foldl (σ.invFwdInner out i) s0 := by
      simp only [s, List.range_succ, List.foldl_append, List.foldl_cons, List.foldl_nil]
      rfl
    obtain ⟨g1, g2⟩ := invFwdInner_foldl (fun p h => (hw.par_lt i hi p h).ne) out (sub i)
      (hsub.nodup i hi) s0
    have hin : ∀ j ∈ sub i, σ.invIn s0.1 i j = (match σ.par i with
        | none => 0
        | some q => (σ.Tp i).inv.actM (a j q)) := by
      intro j hj
      unfold invIn
      cases hpar : σ.par i with
      | none => simp [h1]
      | some q =>
        have hq := hw.par_lt i hi q hpar
        have hjq : j ∈ sub q := by
          rw [hsub.mem q (by omega)]
          obtain ⟨hj1, hj2⟩ := (hsub.mem i hi j).1 hj
          exact ⟨hj1, (Anc.step hpar Anc.refl).trans hj2⟩
        simp [h1, hq, hjq]
    have hnew : ∀ j ∈ sub i, σ.invNew out s0 i j = x j i := by
      intro j hj
      unfold invNew
      rw [hin j hj, hx i hi j hj, h2, if_neg (by omega), if_neg]
      rintro ⟨hji, -⟩
      obtain ⟨hj1, hj2⟩ := (hsub.mem i hi j).1 hj
      have := hj2.le hw.par_lt hj1
      omega
    have hlt : ∀ j, j ∈ sub i → i ≤ j := by
      intro j hj
      obtain ⟨hj1, hj2⟩ := (hsub.mem i hi j).1 hj
      exact hj2.le hw.par_lt hj1
    refine ⟨fun r c => ?_, fun r c => ?_⟩
    · rw [hs, g1 r c]
      by_cases hr : r = i
      · subst hr
        by_cases hc : c ∈ sub r
        · rw [if_pos ⟨rfl, hc⟩, if_pos ⟨by omega, hc⟩, hin c hc, hnew c hc, ← ha r hi c hc]
        · rw [if_neg (fun h => hc h.2), if_neg (fun h => hc h.2), h1, if_neg (fun h => hc h.2)]
      · rw [if_neg (fun h => hr h.1), h1]
        have : r < i + 1 ↔ r < i := by omega
        simp only [this]
    · rw [hs, g2 r c]
      by_cases h : r = i ∧ c ∈ sub i
      · rw [if_pos h, hnew c h.2, if_pos ⟨by omega, h.1 ▸ h.2⟩, h.1]
      · rw [if_neg h]
        by_cases h' : c = i ∧ r ∈ sub i
        · rw [if_pos h', hnew r h'.2]
          have hrc := hlt r h'.2
          have hne : r ≠ i := by
            rintro rfl
            exact h ⟨rfl, h'.1 ▸ h'.2⟩
          rw [if_neg (by omega), if_pos ⟨by omega, h'.1 ▸ h'.2⟩, h'.1]
        · rw [if_neg h', h2]
          by_cases k1 : r < i ∧ c ∈ sub r
          · rw [if_pos k1, if_pos ⟨by omega, k1.2⟩]
          · have k1' : ¬(r < i + 1 ∧ c ∈ sub r) := by
              rintro ⟨h3, h4⟩
              rcases Nat.lt_succ_iff_lt_or_eq.1 h3 with h5 | h5
              · exact k1 ⟨h5, h4⟩
              · exact h ⟨h5, h5 ▸ h4⟩
            rw [if_neg k1, if_neg k1']
            by_cases k2 : c < i ∧ r ∈ sub c
            · rw [if_pos k2, if_pos ⟨by omega, k2.2⟩]
            · rw [if_neg k2, if_neg]
              rintro ⟨h3, h4⟩
              rcases Nat.lt_succ_iff_lt_or_eq.1 h3 with h5 | h5
              · exact k2 ⟨h5, h4⟩
              · exact h' ⟨h5, h5 ▸ h4⟩

/-- `InertiaInverseAba`: entries between a body and its descendants are the articulated-body
responses to unit torques; the other entries keep their old contents. -/
theorem WF.inv_entries (hw : σ.WF) {sub : ℕ → List ℕ} (hsub : σ.SubOK sub) (done : Bool)
    (k : AbaCache) (A0 : ℕ → ℕ → ℝ) (hk : done = true → σ.AbaOK k) (x : ℕ → ℕ → ℝ)
    (hx : ∀ j, ∃ p u a, AbaEqs σ (fun _ => 0) (fun _ => 0) (fun i => if i = j then 1 else 0)
      p u a (x j)) (i j : ℕ) (hi : i < σ.n) (hj : j < σ.n) :
    (σ.inertiaInverseAba sub done k A0).1 i j =
      if j ∈ sub i then x j i else if i ∈ sub j then x i j else A0 i j := by
  choose p u a heq using hx
  set contrib : ℕ → Mat6 × (ℕ → Force) → Mat6 × (ℕ → Force) := fun i b =>
    (σ.abaContribI done k i b.1, fun j => if j ∈ sub i then
        (σ.Tp i).actF (b.2 j + σ.invEntry (σ.abaD done k i b.1) b.2 i j • σ.abaH done k i b.1)
      else 0) with hcontrib
  set pre := accLoop (· + ·) σ.n σ.par contrib (fun i => (σ.abaInit done k i, fun _ => 0)) with hpre
  have hart := artPre hw.par_lt done k hk (fun i (b : Mat6 × (ℕ → Force)) j => if j ∈ sub i then
        (σ.Tp i).actF (b.2 j + σ.invEntry (σ.abaD done k i b.1) b.2 i j • σ.abaH done k i b.1)
      else 0) (fun _ _ => 0)
  change ∀ i < σ.n, σ.abaRed done k i (pre i).1 = _ ∧ σ.abaH done k i (pre i).1 = _ ∧
    σ.abaD done k i (pre i).1 = _ at hart
  have hrec : ∀ i < σ.n, ∀ j, (pre i).2 j = ∑ m ∈ range σ.n, if σ.par m = some i then
      (if j ∈ sub m then (σ.Tp m).actF ((pre m).2 j +
        (((if m = j then 1 else 0) - (σ.S m).dot ((pre m).2 j)) / σ.artD m) • σ.artH m) else 0)
      else 0 := by
    intro i hi j
    have := accLoop_spec hw.par_lt contrib (fun i => (σ.abaInit done k i, fun _ => 0)) i
    rw [← hpre] at this
    rw [this, Prod.snd_add, Prod.snd_sum, Pi.add_apply, Finset.sum_apply, zero_add]
    refine sum_congr rfl fun m hm => ?_
    obtain ⟨-, e2, e3⟩ := hart m (mem_range.1 hm)
    split
    · simp only [hcontrib, invEntry, e2, e3]
    · rfl
  -- columns vanish off the path to the root
  have hzero : ∀ i < σ.n, ∀ j, j ∉ sub i → (pre i).2 j = 0 := by
    intro i hi j hji
    rw [hrec i hi j]
    refine sum_eq_zero fun m hm => ?_
    have hm := mem_range.1 hm
    split
    · next hpar =>
      rw [if_neg]
      intro hjm
      apply hji
      obtain ⟨h1, h2⟩ := (hsub.mem m hm j).1 hjm
      exact (hsub.mem i hi j).2 ⟨h1, (Anc.step hpar Anc.refl).trans h2⟩
    · rfl
  have hp : ∀ j < σ.n, ∀ i < σ.n, (pre i).2 j = p j i := by
    intro j hj
    refine tree_eq_unique hw.par_lt (fun m F => (σ.Tp m).actF (F +
        (((if m = j then 1 else 0) - (σ.S m).dot F) / σ.artD m) • σ.artH m)) (fun _ => 0)
        (fun i => (pre i).2 j) (p j) ?_ ?_
    · intro i hi
      show (pre i).2 j = _
      rw [hrec i hi j, zero_add]
      refine sum_congr rfl fun m hm => ?_
      have hm := mem_range.1 hm
      split
      · by_cases hjm : j ∈ sub m
        · rw [if_pos hjm]
        · rw [if_neg hjm, hzero m hm j hjm, if_neg]
          · simp
          · rintro rfl
            exact hjm ((hsub.mem m hm m).2 ⟨hm, Anc.refl⟩)
      · rfl
    · intro i hi
      rw [(heq j).p_eq i hi]
      congr 1
      refine sum_congr rfl fun m hm => ?_
      split
      · rw [(heq j).u_eq m (mem_range.1 hm), Mat6.app_zero, add_zero]
      · rfl
  unfold Sys.inertiaInverseAba
  simp only
  set out := (σ.invBackward sub done k A0).2 with hout
  have hout' : ∀ i < σ.n, out i = ⟨σ.artH i, σ.artD i, fun j => if j ∈ sub i then
      ((if i = j then 1 else 0) - (σ.S i).dot ((pre i).2 j)) / σ.artD i else A0 i j⟩ := by
    intro i hi
    rw [hout]
    unfold invBackward
    rw [bwdLoop_eq _ hw.par_lt]
    simp only [hi, if_true]
    obtain ⟨-, e2, e3⟩ := hart i hi
    show InvOut.mk (σ.abaH done k i (pre i).1) (σ.abaD done k i (pre i).1)
      (fun j => if j ∈ sub i then σ.invEntry (σ.abaD done k i (pre i).1) (pre i).2 i j
        else A0 i j) = _
    rw [e2, e3]
    rfl
  have hm : ∀ i < σ.n, ∀ j ∈ sub i, j < σ.n := fun i hi j hj => ((hsub.mem i hi j).1 hj).1
  have hin : ∀ j, ∀ i < σ.n, (match σ.par i with
      | none => 0
      | some q => (σ.Tp i).inv.actM (a j q)) = a j i - x j i • σ.S i := by
    intro j i hi
    rw [(heq j).a_eq i hi]
    cases σ.par i <;> simp
  obtain ⟨-, h2⟩ := invForward_eq hw hsub out (fun j i => a j i) x
    (fun i hi j hj => by rw [hin j i hi]; simp)
    (fun i hi j hj => by
      rw [hin j i hi, hout' i hi]
      simp only [hj, if_true]
      rw [hp j (hm i hi j hj) i hi]
      have := (heq j).ddq_eq i hi
      rw [(heq j).u_eq i hi] at this
      exact this) σ.n le_rfl
  unfold invForward
  rw [h2 i j]
  simp only [hi, hj, true_and]
  by_cases h3 : j ∈ sub i
  · simp [h3]
  · by_cases h4 : i ∈ sub j
    · simp [h3, h4]
    · simp [h3, h4, hout' i hi]

/-- The response to unit torques at rest without gravity: solutions of the articulated-body
equations that are columns of the inverse of the mass matrix. -/
theorem WF.unit_response (hw : σ.WF) (hs : σ.SymI) (hd : ∀ i < σ.n, σ.artD i ≠ 0) :
    ∃ x : ℕ → ℕ → ℝ, (∀ j, ∃ p u a, AbaEqs σ (fun _ => 0) (fun _ => 0)
      (fun i => if i = j then 1 else 0) p u a (x j)) ∧
      ∀ j, ∀ i < σ.n, ∑ k ∈ range σ.n, σ.massSpec i k * x j k = if i = j then 1 else 0 := by
  classical
  set o : FDOpts := ⟨false, false, false, 0⟩ with ho
  set arr0 : ℕ → VAF := fun _ => ⟨0, 0, 0⟩
  set c : AbaCache := ⟨fun _ => 0, fun _ => 0, fun _ => 0⟩
  set arr := σ.abaForward (fun _ => none) o false arr0 with harr
  have hz : ∀ i < σ.n, (arr i).a = 0 ∧ (arr i).f = 0 := by
    intro i hi
    have h := fwdLoop_spec' (abaStep_causal hw.par_lt (fun _ => none) o false) arr0 i hi
    have hv := hw.aba_vel_zero (fun _ => none) o false arr0 rfl i hi
    change arr i = σ.abaStep (fun _ => none) o false arr i (arr0 i) at h
    have ev := congrArg VAF.v h
    have ea := congrArg VAF.a h
    have ef := congrArg VAF.f h
    simp only [abaStep] at ev ea ef
    rw [← ev, hv] at ea ef
    refine ⟨?_, ?_⟩
    · rw [ea]; cases σ.par i <;> simp [ho]
    · rw [ef]; simp [subExt]
  refine ⟨fun j => (σ.aba (fun i => if i = j then 1 else 0) (fun _ => none) o false false arr0 c).ddq,
    fun j => ?_, fun j i hi => ?_⟩
  · obtain ⟨p, u, a, h⟩ := hw.aba_eqs (fun i => if i = j then 1 else 0) (fun _ => none) o false false
      arr0 c (fun h => by cases h) rfl
    have hc : ∀ i < σ.n, σ.abaC o.gravity arr i = 0 := by
      intro i hi
      unfold abaC
      cases σ.par i with
      | none => rfl
      | some p => exact (hz i hi).1
    refine ⟨p, u, a, fun i hi => ?_, h.u_eq, h.ddq_eq, fun i hi => ?_⟩
    · rw [h.p_eq i hi]
      show (arr i).f + _ = _
      rw [(hz i hi).2]
      congr 1
      refine sum_congr rfl fun m hm => ?_
      rw [← harr, hc m (mem_range.1 hm)]
    · rw [h.a_eq i hi, ← harr, hc i hi]
  · have := hw.aba_sound hs hd (fun i => if i = j then 1 else 0) (fun _ => none) o false false arr0 c
      (fun h => by cases h) (fun h => by cases h) rfl (fun h => by cases h) i hi
    rw [← this]
    simp [idSpec, ho, extSpec, genForce]

end Sys
end SpatialDyn
