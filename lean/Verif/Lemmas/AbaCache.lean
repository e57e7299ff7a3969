import Verif.Lemmas.Positive
import Verif.Model.Opspace

/-! The articulated-inertia cache: correct after every pass, and results do not depend on it. -/

namespace SpatialDyn

open Finset

namespace Sys
variable {σ : Sys}

theorem abaInit_true (c : AbaCache) (i : ℕ) (hi : i < σ.n) : σ.abaInit true c i = c.Ia i := by
  unfold abaInit
  rw [fwdLoop_spec' (fun _ _ _ _ _ _ => rfl) _ i hi]
  simp

theorem abaInit_false (c : AbaCache) (i : ℕ) (hi : i < σ.n) :
    σ.abaInit false c i = (σ.Itot i).matrix := by
  unfold abaInit
  rw [fwdLoop_spec' (fun _ _ _ _ _ _ => rfl) _ i hi]
  simp

/-- Articulated inertias in any backward pass that carries a second accumulated quantity. -/
theorem artPre {β : Type*} [AddCommMonoid β] (hp : ParLt σ.n σ.par) (done : Bool) (c : AbaCache)
    (hc : done = true → σ.AbaOK c) (g : ℕ → Mat6 × β → β) (f : ℕ → β) (i : ℕ) (hi : i < σ.n) :
    let pre := accLoop (· + ·) σ.n σ.par (fun i b => (σ.abaContribI done c i b.1, g i b))
      (fun i => (σ.abaInit done c i, f i))
    σ.abaRed done c i (pre i).1 = σ.artRed i (σ.artI i) ∧
      σ.abaH done c i (pre i).1 = σ.artH i ∧ σ.abaD done c i (pre i).1 = σ.artD i := by
  intro pre
  set contrib : ℕ → Mat6 × β → Mat6 × β := fun i b => (σ.abaContribI done c i b.1, g i b)
    with hcontrib
  have hpre : ∀ i, pre i = (σ.abaInit done c i, f i) +
      ∑ j ∈ range σ.n, if σ.par j = some i then contrib j (pre j) else 0 :=
    fun i => accLoop_spec hp contrib _ i
  cases done with
  | true =>
    obtain ⟨e1, e2, e3⟩ := hc rfl i hi
    have : (pre i).1 = c.Ia i := by
      rw [hpre i, Prod.fst_add, Prod.fst_sum, abaInit_true c i hi]
      have : ∀ j ∈ range σ.n, (if σ.par j = some i then contrib j (pre j) else 0).1 = 0 := by
        intro j _
        split <;> simp [contrib, abaContribI]
      rw [sum_congr rfl this]
      simp
    refine ⟨?_, ?_, ?_⟩
    · simp [abaRed, this, e1]
    · simp [abaH, e2]
    · simp [abaD, e3]
  | false =>
    have hart : ∀ i < σ.n, (pre i).1 = σ.artI i := by
      refine tree_eq_unique hp (fun i M => (σ.Tp i).actMat (σ.artRed i M))
        (fun i => (σ.Itot i).matrix) (fun i => (pre i).1) σ.artI ?_
        (fun i _ => artI_eq hp i)
      intro i hi
      show (pre i).1 = _
      rw [hpre i, Prod.fst_add, Prod.fst_sum, abaInit_false c i hi]
      congr 1
      apply sum_congr rfl
      intro j _
      split
      · simp only [contrib, abaContribI, Bool.false_eq_true, if_false]
        congr 1
      · rfl
    rw [hart i hi]
    refine ⟨?_, ?_, ?_⟩
    · simp only [abaRed, artRed, abaH, abaD]
      cases σ.par i <;> simp
    · simp [abaH, artH]
    · simp [abaD, artD, artH]

/-- The cache left by a backward pass is right. -/
theorem abaBackward_ok (hp : ParLt σ.n σ.par) (tau : ℕ → ℝ) (o : FDOpts) (done : Bool)
    (c : AbaCache) (hc : done = true → σ.AbaOK c) (a : ℕ → Motion) (f : ℕ → Force)
    (C0 : ℕ → AbaOut) :
    let r := σ.abaBackward tau o done c a (fun i => (σ.abaInit done c i, f i)) C0
    σ.AbaOK ⟨fun i => (r.1 i).1, fun i => (r.2 i).h, fun i => (r.2 i).d⟩ := by
  intro r i hi
  have := artPre hp done c hc (fun i b => (σ.Tp i).actF (b.2 + (σ.abaRed done c i b.1).app (a i)
        + (σ.abaDdq tau o i (σ.abaD done c i b.1) b.2) • σ.abaH done c i b.1)) f i hi
  simp only [r, abaBackward]
  rw [bwdLoop_eq _ hp]
  simp only [hi, if_true]
  exact this

theorem aba_cache_ok (hp : ParLt σ.n σ.par) (tau : ℕ → ℝ) (fext : FExt) (o : FDOpts)
    (vd done : Bool) (arr0 : ℕ → VAF) (c : AbaCache) (hc : done = true → σ.AbaOK c) :
    σ.AbaOK (σ.aba tau fext o vd done arr0 c).cache :=
  abaBackward_ok hp tau o done c hc _ _ _

theorem inv_cache_ok (hp : ParLt σ.n σ.par) (sub : ℕ → List ℕ) (done : Bool) (c : AbaCache)
    (A0 : ℕ → ℕ → ℝ) (hc : done = true → σ.AbaOK c) :
    σ.AbaOK (σ.inertiaInverseAba sub done c A0).2 := by
  intro i hi
  have := artPre hp done c hc (fun i (b : Mat6 × (ℕ → Force)) j => if j ∈ sub i then
        (σ.Tp i).actF (b.2 j + σ.invEntry (σ.abaD done c i b.1) b.2 i j • σ.abaH done c i b.1)
      else 0) (fun _ _ => 0) i hi
  simp only [inertiaInverseAba, invBackward]
  rw [bwdLoop_eq _ hp]
  simp only [hi, if_true]
  exact this

/-- A backward pass does not depend on whether the articulated inertias were cached. -/
theorem abaBackward_unique (hp : ParLt σ.n σ.par) (tau : ℕ → ℝ) (o : FDOpts)
    {d1 d2 : Bool} {c1 c2 : AbaCache} (h1 : d1 = true → σ.AbaOK c1) (h2 : d2 = true → σ.AbaOK c2)
    {a1 a2 : ℕ → Motion} {f1 f2 : ℕ → Force} (ha : ∀ i < σ.n, a1 i = a2 i)
    (hf : ∀ i < σ.n, f1 i = f2 i) (C1 C2 : ℕ → AbaOut) (i : ℕ) (hi : i < σ.n) :
    (σ.abaBackward tau o d1 c1 a1 (fun i => (σ.abaInit d1 c1 i, f1 i)) C1).2 i =
    (σ.abaBackward tau o d2 c2 a2 (fun i => (σ.abaInit d2 c2 i, f2 i)) C2).2 i := by
  set g : Bool → AbaCache → (ℕ → Motion) → ℕ → Mat6 × Force → Force := fun done c a i b =>
    (σ.Tp i).actF (b.2 + (σ.abaRed done c i b.1).app (a i)
        + (σ.abaDdq tau o i (σ.abaD done c i b.1) b.2) • σ.abaH done c i b.1) with hg
  set pre1 := accLoop (· + ·) σ.n σ.par (fun i b => (σ.abaContribI d1 c1 i b.1, g d1 c1 a1 i b))
      (fun i => (σ.abaInit d1 c1 i, f1 i)) with hpre1
  set pre2 := accLoop (· + ·) σ.n σ.par (fun i b => (σ.abaContribI d2 c2 i b.1, g d2 c2 a2 i b))
      (fun i => (σ.abaInit d2 c2 i, f2 i)) with hpre2
  have e1 := artPre hp d1 c1 h1 (g d1 c1 a1) f1
  have e2 := artPre hp d2 c2 h2 (g d2 c2 a2) f2
  simp only [← hpre1] at e1
  simp only [← hpre2] at e2
  have hs : ∀ i < σ.n, (pre1 i).2 = (pre2 i).2 := by
    refine tree_eq_unique hp (fun i F => (σ.Tp i).actF (F + (σ.artRed i (σ.artI i)).app (a2 i)
        + (σ.abaDdq tau o i (σ.artD i) F) • σ.artH i)) f2 (fun i => (pre1 i).2)
        (fun i => (pre2 i).2) ?_ ?_
    · intro i hi
      have := accLoop_spec hp (fun i b => (σ.abaContribI d1 c1 i b.1, g d1 c1 a1 i b))
        (fun i => (σ.abaInit d1 c1 i, f1 i)) i
      rw [← hpre1] at this
      show (pre1 i).2 = _
      rw [this, Prod.snd_add, Prod.snd_sum, hf i hi]
      congr 1
      apply sum_congr rfl
      intro j hj
      obtain ⟨x1, x2, x3⟩ := e1 j (mem_range.1 hj)
      split
      · simp only [hg, x1, x2, x3, ha j (mem_range.1 hj)]
      · rfl
    · intro i hi
      have := accLoop_spec hp (fun i b => (σ.abaContribI d2 c2 i b.1, g d2 c2 a2 i b))
        (fun i => (σ.abaInit d2 c2 i, f2 i)) i
      rw [← hpre2] at this
      show (pre2 i).2 = _
      rw [this, Prod.snd_add, Prod.snd_sum]
      congr 1
      apply sum_congr rfl
      intro j hj
      obtain ⟨x1, x2, x3⟩ := e2 j (mem_range.1 hj)
      split
      · simp only [hg, x1, x2, x3]
      · rfl
  obtain ⟨-, x2, x3⟩ := e1 i hi
  obtain ⟨-, y2, y3⟩ := e2 i hi
  unfold abaBackward
  rw [bwdLoop_eq _ hp, bwdLoop_eq _ hp]
  simp only [hi, if_true]
  show AbaOut.mk (σ.abaH d1 c1 i (pre1 i).1) (σ.abaD d1 c1 i (pre1 i).1)
      (σ.abaDdq tau o i (σ.abaD d1 c1 i (pre1 i).1) (pre1 i).2) =
    AbaOut.mk (σ.abaH d2 c2 i (pre2 i).1) (σ.abaD d2 c2 i (pre2 i).1)
      (σ.abaDdq tau o i (σ.abaD d2 c2 i (pre2 i).1) (pre2 i).2)
  rw [x2, x3, y2, y3, hs i hi]

theorem WF.velOK_unique (hw : σ.WF) {v1 v2 : ℕ → Motion} (h1 : σ.VelOK v1) (h2 : σ.VelOK v2)
    (i : ℕ) (hi : i < σ.n) : v1 i = v2 i := by
  have := (h1 i hi).trans (h2 i hi).symm
  rw [← (hw.Tw_valid i hi).inv_actM (v1 i), this, (hw.Tw_valid i hi).inv_actM]

/-- `ForwardDynamicsAba` does not depend on the cache contents. -/
theorem WF.aba_unique (hw : σ.WF) (tau : ℕ → ℝ) (fext : FExt) (o : FDOpts)
    {vd1 vd2 d1 d2 : Bool} {arr1 arr2 : ℕ → VAF} {c1 c2 : AbaCache}
    (hv1 : vd1 = true → σ.VelOK fun i => (arr1 i).v) (hv2 : vd2 = true → σ.VelOK fun i => (arr2 i).v)
    (h1 : d1 = true → σ.AbaOK c1) (h2 : d2 = true → σ.AbaOK c2) (i : ℕ) (hi : i < σ.n) :
    (σ.aba tau fext o vd1 d1 arr1 c1).ddq i = (σ.aba tau fext o vd2 d2 arr2 c2).ddq i := by
  set A1 := σ.abaForward fext o vd1 arr1 with hA1
  set A2 := σ.abaForward fext o vd2 arr2 with hA2
  have hv : ∀ i < σ.n, (A1 i).v = (A2 i).v := by
    intro i hi
    cases hcc : o.cc with
    | true =>
      exact hw.velOK_unique (hw.aba_vel fext o vd1 arr1 hv1 hcc)
        (hw.aba_vel fext o vd2 arr2 hv2 hcc) i hi
    | false =>
      rw [hA1, hA2, hw.aba_vel_zero fext o vd1 arr1 hcc i hi,
        hw.aba_vel_zero fext o vd2 arr2 hcc i hi]
  have hA : ∀ i < σ.n, (A1 i).a = (A2 i).a ∧ (A1 i).f = (A2 i).f := by
    intro i hi
    have s1 := fwdLoop_spec' (abaStep_causal hw.par_lt fext o vd1) arr1 i hi
    have s2 := fwdLoop_spec' (abaStep_causal hw.par_lt fext o vd2) arr2 i hi
    change A1 i = σ.abaStep fext o vd1 A1 i (arr1 i) at s1
    change A2 i = σ.abaStep fext o vd2 A2 i (arr2 i) at s2
    have w1 := congrArg VAF.v s1
    have w2 := congrArg VAF.v s2
    have z1 := congrArg VAF.a s1
    have z2 := congrArg VAF.a s2
    have y1 := congrArg VAF.f s1
    have y2 := congrArg VAF.f s2
    simp only [abaStep] at w1 w2 z1 z2 y1 y2
    rw [← w1] at z1 y1
    rw [← w2] at z2 y2
    rw [z1, z2, y1, y2, hv i hi]
    exact ⟨rfl, rfl⟩
  have hb := abaBackward_unique hw.par_lt tau o h1 h2 (fun i hi => (hA i hi).1)
    (fun i hi => (hA i hi).2) (fun i => ⟨c1.h i, c1.d i, 0⟩) (fun i => ⟨c2.h i, c2.d i, 0⟩)
  set b1 := σ.abaBackward tau o d1 c1 (fun i => (A1 i).a) (fun i => (σ.abaInit d1 c1 i, (A1 i).f))
    (fun i => ⟨c1.h i, c1.d i, 0⟩) with hb1
  set b2 := σ.abaBackward tau o d2 c2 (fun i => (A2 i).a) (fun i => (σ.abaInit d2 c2 i, (A2 i).f))
    (fun i => ⟨c2.h i, c2.d i, 0⟩) with hb2
  have hl : ∀ i < σ.n,
      fwdLoop σ.n (σ.abaLastStep o.gravity b1.2) (fun i => ((A1 i).a, (b1.2 i).ddq)) i =
      fwdLoop σ.n (σ.abaLastStep o.gravity b2.2) (fun i => ((A2 i).a, (b2.2 i).ddq)) i := by
    intro i
    induction i using Nat.strong_induction_on with
    | _ i ih =>
      intro hi
      rw [fwdLoop_spec' (abaLastStep_causal hw.par_lt o.gravity b1.2) _ i hi,
        fwdLoop_spec' (abaLastStep_causal hw.par_lt o.gravity b2.2) _ i hi]
      have hbi : b1.2 i = b2.2 i := hb i hi
      unfold abaLastStep
      cases hpar : σ.par i with
      | none => simp only [hbi]
      | some p =>
        have hlt := hw.par_lt i hi p hpar
        have hp := ih p hlt (by omega)
        unfold abaLastStep at hp
        simp only [hbi, (hA i hi).1]
        rw [hp]
  exact congrArg Prod.snd (hl i hi)

end Sys
end SpatialDyn
