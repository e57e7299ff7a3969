import Verif.Model.ForwardDynamics
import Verif.Lemmas.Crba

/-! The articulated body algorithm solves the equations of motion. -/

namespace SpatialDyn
open Finset

namespace Mat6

/-- Symmetric as a bilinear form. -/
def Sym (A : Mat6) : Prop := ∀ m n : Motion, m.dot (A.app n) = n.dot (A.app m)

@[simp] theorem zero_app (m : Motion) : (0 : Mat6).app m = 0 := by
  show (Mat6.mk 0 0 0 0).app m = 0
  ext <;> simp [app, Mat3.mulVec]

theorem sum_app {ι : Type*} (s : Finset ι) (f : ι → Mat6) (m : Motion) :
    (∑ i ∈ s, f i).app m = ∑ i ∈ s, (f i).app m := by
  classical
  induction s using Finset.induction_on with
  | empty => simp
  | insert a s ha ih => rw [sum_insert ha, sum_insert ha, add_app, ih]

theorem Sym.zero : (0 : Mat6).Sym := fun m n => by simp
theorem Sym.add {A B : Mat6} (hA : A.Sym) (hB : B.Sym) : (A + B).Sym := fun m n => by
  rw [add_app, add_app, Motion.dot_add, Motion.dot_add, hA m n, hB m n]
theorem Sym.sum {ι : Type*} {s : Finset ι} {f : ι → Mat6} (h : ∀ i ∈ s, (f i).Sym) :
    (∑ i ∈ s, f i).Sym := fun m n => by
  rw [sum_app, sum_app, Motion.dot_sum, Motion.dot_sum]
  exact sum_congr rfl fun i hi => h i hi m n
theorem Sym.outer (h : Force) (d : ℝ) : (outerDiv h d).Sym := fun m n => by
  rw [outerDiv_app, outerDiv_app, Motion.dot_smul, Motion.dot_smul]; ring
theorem Sym.sub {A B : Mat6} (hA : A.Sym) (hB : B.Sym) : (A - B).Sym := fun m n => by
  rw [sub_app, sub_app, Motion.dot_sub, Motion.dot_sub, hA m n, hB m n]
theorem Sym.act {A : Mat6} {T : Iso} (hT : T.Valid) (hA : A.Sym) : (T.actMat A).Sym := fun m n => by
  rw [actMat_app _ hT, actMat_app _ hT, hT.dot_actF, hT.dot_actF, hA]
theorem Sym.of_inertia {I : Inertia} (h : I.Icom.IsSymm) : I.matrix.Sym := fun m n => by
  rw [Inertia.matrix_app _ h, Inertia.matrix_app _ h, Inertia.dot_app_symm _ h]

end Mat6

namespace Sys
variable {σ : Sys}

/-- Rank-one update of an articulated inertia (not at a root). -/
noncomputable def artRed (σ : Sys) (i : ℕ) (M : Mat6) : Mat6 :=
  match σ.par i with
  | none => M
  | some _ => M - Mat6.outerDiv (M.app (σ.S i)) ((σ.S i).dot (M.app (σ.S i)))

/-- Articulated inertias before the rank-one update. -/
noncomputable def artI (σ : Sys) : ℕ → Mat6 :=
  accLoop (· + ·) σ.n σ.par (fun i M => (σ.Tp i).actMat (σ.artRed i M))
    (fun i => (σ.Itot i).matrix)

noncomputable def artH (σ : Sys) (i : ℕ) : Force := (σ.artI i).app (σ.S i)
noncomputable def artD (σ : Sys) (i : ℕ) : ℝ := (σ.S i).dot (σ.artH i)

/-- The cached articulated inertias are the ones a fresh computation would give. -/
def AbaOK (σ : Sys) (c : AbaCache) : Prop :=
  ∀ i < σ.n, c.Ia i = σ.artRed i (σ.artI i) ∧ c.h i = σ.artH i ∧ c.d i = σ.artD i

theorem artRed_some {i p : ℕ} (h : σ.par i = some p) (M : Mat6) :
    σ.artRed i M = M - Mat6.outerDiv (M.app (σ.S i)) ((σ.S i).dot (M.app (σ.S i))) := by
  simp [artRed, h]

theorem artI_eq (hp : ParLt σ.n σ.par) (i : ℕ) : σ.artI i = (σ.Itot i).matrix +
    ∑ j ∈ range σ.n, if σ.par j = some i then (σ.Tp j).actMat (σ.artRed j (σ.artI j)) else 0 :=
  accLoop_spec hp _ _ i

theorem WF.artI_sym (hw : σ.WF) (hs : σ.SymI) (i : ℕ) (hi : i < σ.n) : (σ.artI i).Sym := by
  induction hk : σ.n - i using Nat.strong_induction_on generalizing i with
  | _ k ih =>
    rw [artI_eq hw.par_lt]
    refine (Mat6.Sym.of_inertia (hs i hi)).add (Mat6.Sym.sum fun j hj => ?_)
    have hj' := mem_range.1 hj
    split
    · next h =>
      have := hw.par_lt j hj' i h
      have hj2 := ih (σ.n - j) (by omega) j hj' rfl
      rw [artRed_some h]
      exact Mat6.Sym.act (hw.Tp_valid j hj') (hj2.sub (Mat6.Sym.outer _ _))
    · exact Mat6.Sym.zero

/-- What the three passes of the articulated body algorithm establish, body by body: bias forces
`p`, reduced accelerations `u`, accelerations `a` and `ddq`, for net body forces `f` and bias
accelerations `c` (`c` of a root is its whole incoming acceleration). -/
structure AbaEqs (σ : Sys) (f : ℕ → Force) (c : ℕ → Motion) (tau : ℕ → ℝ)
    (p : ℕ → Force) (u : ℕ → ℝ) (a : ℕ → Motion) (ddq : ℕ → ℝ) : Prop where
  p_eq : ∀ i < σ.n, p i = f i + ∑ j ∈ range σ.n, if σ.par j = some i then
    (σ.Tp j).actF (p j + (σ.artRed j (σ.artI j)).app (c j) + u j • σ.artH j) else 0
  u_eq : ∀ i < σ.n, u i = (tau i - (σ.S i).dot (p i)) / σ.artD i
  ddq_eq : ∀ i < σ.n, ddq i = u i - (σ.artH i).dot (a i - ddq i • σ.S i) / σ.artD i
  a_eq : ∀ i < σ.n, a i = (match σ.par i with
    | none => c i
    | some q => c i + (σ.Tp i).inv.actM (a q)) + ddq i • σ.S i

/-- A solution of the articulated-body equations satisfies the equations of motion: the accumulated
body forces have component `tau i` along joint `i`. -/
theorem AbaEqs.sound (hw : σ.WF) (hs : σ.SymI) (hd : ∀ i < σ.n, σ.artD i ≠ 0)
    {f : ℕ → Force} {c : ℕ → Motion} {tau : ℕ → ℝ} {p : ℕ → Force} {u : ℕ → ℝ} {a : ℕ → Motion}
    {ddq : ℕ → ℝ} (h : AbaEqs σ f c tau p u a ddq) (i : ℕ) (hi : i < σ.n) :
    σ.genForce (fun k => (σ.Tw k).actF ((σ.Itot k).app (a k) + f k)) i = tau i := by
  -- force transmitted across joint `i`
  set F : ℕ → Force := fun i => (σ.artI i).app (a i) + p i with hF
  have htree : ∀ i < σ.n, F i = ((σ.Itot i).app (a i) + f i) + ∑ j ∈ range σ.n,
      if σ.par j = some i then (σ.Tp j).actF (F j) else 0 := by
    intro i hi
    have h1 := artI_eq (σ := σ) hw.par_lt i
    have h2 := h.p_eq i hi
    have hchild : ∀ j ∈ range σ.n, (if σ.par j = some i then (σ.Tp j).actF (F j) else 0) =
        (if σ.par j = some i then (σ.Tp j).actMat (σ.artRed j (σ.artI j)) else 0).app (a i) +
        (if σ.par j = some i then
          (σ.Tp j).actF (p j + (σ.artRed j (σ.artI j)).app (c j) + u j • σ.artH j) else 0) := by
      intro j hj
      have hj' := mem_range.1 hj
      split
      · next hpar =>
        rw [Mat6.actMat_app _ (hw.Tp_valid j hj'), ← Iso.actF_add]
        congr 1
        have ha := h.a_eq j hj'
        rw [hpar] at ha
        simp only at ha
        set b := c j + (σ.Tp j).inv.actM (a i) with hb
        have hab : a j - ddq j • σ.S j = b := by rw [ha]; abel
        have hdq := h.ddq_eq j hj'
        rw [hab] at hdq
        have hredb : ∀ m, (σ.artRed j (σ.artI j)).app m =
            (σ.artI j).app m - (m.dot (σ.artH j) / σ.artD j) • σ.artH j := by
          intro m
          rw [artRed_some hpar, Mat6.sub_app, Mat6.outerDiv_app]
          rfl
        have e1 : (σ.artRed j (σ.artI j)).app ((σ.Tp j).inv.actM (a i)) +
            (σ.artRed j (σ.artI j)).app (c j) = (σ.artRed j (σ.artI j)).app b := by
          rw [hb, Mat6.app_add, add_comm]
        show (σ.artI j).app (a j) + p j = _
        rw [ha, Mat6.app_add, Mat6.app_smul]
        have e2 : ddq j • (σ.artI j).app (σ.S j) =
            u j • σ.artH j - (b.dot (σ.artH j) / σ.artD j) • σ.artH j := by
          rw [← sub_smul]
          show ddq j • σ.artH j = _
          congr 1
          rw [hdq, Force.dot_eq]
        rw [e2]
        have e3 := hredb b
        rw [← e1] at e3
        have e4 : (σ.artI j).app b = (σ.artRed j (σ.artI j)).app ((σ.Tp j).inv.actM (a i)) +
            (σ.artRed j (σ.artI j)).app (c j) + (b.dot (σ.artH j) / σ.artD j) • σ.artH j := by
          rw [e3]; abel
        rw [e4]
        abel
      · simp
    rw [sum_congr rfl hchild, sum_add_distrib, ← Mat6.sum_app]
    show (σ.artI i).app (a i) + p i = _
    have hmat := Inertia.matrix_app _ (hs i hi) (a i)
    have h1' : (σ.artI i).app (a i) = (σ.Itot i).app (a i) + (∑ j ∈ range σ.n,
        if σ.par j = some i then (σ.Tp j).actMat (σ.artRed j (σ.artI j)) else 0).app (a i) := by
      conv_lhs => rw [h1]
      rw [Mat6.add_app, hmat]
    rw [h1', h2]
    abel
  have hacc : ∀ i < σ.n, F i = σ.accF (fun k => (σ.Itot k).app (a k) + f k) i := by
    intro i hi
    refine tree_eq_unique hw.par_lt (fun i F => (σ.Tp i).actF F)
      (fun k => (σ.Itot k).app (a k) + f k) F _ htree ?_ i hi
    intro i _
    exact accLoop_spec hw.par_lt _ _ i
  rw [← hw.dot_accF _ i hi, ← hacc i hi]
  -- component along the joint
  show (σ.S i).dot ((σ.artI i).app (a i) + p i) = tau i
  set b := a i - ddq i • σ.S i with hb
  have hab : a i = b + ddq i • σ.S i := by rw [hb]; abel
  have hdq := h.ddq_eq i hi
  rw [← hb] at hdq
  have hu := h.u_eq i hi
  have hdi := hd i hi
  rw [Motion.dot_add, hab, Mat6.app_add, Mat6.app_smul, Motion.dot_add, Motion.dot_smul,
    hw.artI_sym hs i hi (σ.S i) b]
  have e1 : (σ.S i).dot ((σ.artI i).app (σ.S i)) = σ.artD i := rfl
  have e2 : b.dot ((σ.artI i).app (σ.S i)) = (σ.artH i).dot b := by rw [Force.dot_eq]; rfl
  rw [e1, e2, hdq, hu]
  field_simp
  ring

/-- Accumulation of the articulated inertias in the backward pass. -/
theorem WF.abaPre (hw : σ.WF) (tau : ℕ → ℝ) (o : FDOpts) (done : Bool) (c : AbaCache)
    (hc : done = true → σ.AbaOK c) (a : ℕ → Motion) (f : ℕ → Force) :
    let contrib : ℕ → Mat6 × Force → Mat6 × Force := fun i b => (σ.abaContribI done c i b.1,
      (σ.Tp i).actF (b.2 + (σ.abaRed done c i b.1).app (a i)
        + (σ.abaDdq tau o i (σ.abaD done c i b.1) b.2) • σ.abaH done c i b.1))
    let pre := accLoop (· + ·) σ.n σ.par contrib (fun i => (σ.abaInit done c i, f i))
    (∀ i < σ.n, σ.abaRed done c i (pre i).1 = σ.artRed i (σ.artI i) ∧
      σ.abaH done c i (pre i).1 = σ.artH i ∧ σ.abaD done c i (pre i).1 = σ.artD i) ∧
    (∀ i < σ.n, (pre i).2 = f i + ∑ j ∈ range σ.n, if σ.par j = some i then
      (σ.Tp j).actF ((pre j).2 + (σ.artRed j (σ.artI j)).app (a j)
        + (σ.abaDdq tau o j (σ.artD j) (pre j).2) • σ.artH j) else 0) := by
  intro contrib pre
  have hpre : ∀ i, pre i = (σ.abaInit done c i, f i) +
      ∑ j ∈ range σ.n, if σ.par j = some i then contrib j (pre j) else 0 :=
    fun i => accLoop_spec hw.par_lt contrib _ i
  have h1 : ∀ i < σ.n, σ.abaRed done c i (pre i).1 = σ.artRed i (σ.artI i) ∧
      σ.abaH done c i (pre i).1 = σ.artH i ∧ σ.abaD done c i (pre i).1 = σ.artD i := by
    cases done with
    | true =>
      intro i hi
      obtain ⟨e1, e2, e3⟩ := hc rfl i hi
      have hinit : σ.abaInit true c i = c.Ia i := by
        unfold abaInit
        rw [fwdLoop_spec' (fun _ _ _ _ _ _ => rfl) _ i hi]
        simp
      have : (pre i).1 = c.Ia i := by
        rw [hpre i, Prod.fst_add, Prod.fst_sum, hinit]
        have : ∀ j ∈ range σ.n, (if σ.par j = some i then contrib j (pre j) else 0).1 = 0 := by
          intro j _
          split <;> simp [contrib, abaContribI]
        rw [sum_congr rfl this]
        simp
      refine ⟨?_, ?_, ?_⟩
      · simp [abaRed, this, e1]
      · simp [abaH, e2]
      · simp [abaD, e3]
    | false =>
      have hart : ∀ i < σ.n, (pre i).1 = σ.artI i := by
        refine tree_eq_unique hw.par_lt (fun i M => (σ.Tp i).actMat (σ.artRed i M))
          (fun i => (σ.Itot i).matrix) (fun i => (pre i).1) σ.artI ?_
          (fun i _ => artI_eq hw.par_lt i)
        intro i hi
        have hinit : σ.abaInit false c i = (σ.Itot i).matrix := by
          unfold abaInit
          rw [fwdLoop_spec' (fun _ _ _ _ _ _ => rfl) _ i hi]
          simp
        show (pre i).1 = _
        rw [hpre i, Prod.fst_add, Prod.fst_sum, hinit]
        congr 1
        apply sum_congr rfl
        intro j _
        split
        · simp only [contrib, abaContribI, Bool.false_eq_true, if_false]
          congr 1
        · rfl
      intro i hi
      rw [hart i hi]
      refine ⟨?_, ?_, ?_⟩
      · simp only [abaRed, artRed, abaH, abaD]
        cases σ.par i <;> simp
      · simp [abaH, artH]
      · simp [abaD, artD, artH]
  refine ⟨h1, ?_⟩
  intro i hi
  rw [hpre i, Prod.snd_add, Prod.snd_sum]
  congr 1
  apply sum_congr rfl
  intro j hj
  obtain ⟨e1, e2, e3⟩ := h1 j (mem_range.1 hj)
  split
  · simp only [contrib, e1, e2, e3]
  · rfl

theorem abaStep_causal (hw : ParLt σ.n σ.par) (fext : FExt) (o : FDOpts) (vd : Bool) :
    ∀ i < σ.n, ∀ a b old, (∀ j < i, a j = b j) →
      σ.abaStep fext o vd a i old = σ.abaStep fext o vd b i old := by
  intro i hi a b old hab
  unfold abaStep
  simp only
  rw [velStep_congr _ a b i hw hi hab]

theorem abaLastStep_causal (hw : ParLt σ.n σ.par) (g : Bool) (out : ℕ → AbaOut) :
    ∀ i < σ.n, ∀ a b old, (∀ j < i, a j = b j) →
      σ.abaLastStep g out a i old = σ.abaLastStep g out b i old := by
  intro i hi a b old hab
  unfold abaLastStep
  cases hpar : σ.par i with
  | none => rfl
  | some p => simp only; rw [hab p (hw i hi p hpar)]

/-- `abaDdq` without friction. -/
theorem abaDdq_nofric (tau : ℕ → ℝ) (o : FDOpts) (h : o.friction = false) (i : ℕ) (d : ℝ)
    (f : Force) : σ.abaDdq tau o i d f = (tau i - (σ.S i).dot f) / d := by
  simp [abaDdq, h]

/-- Bias acceleration used by the last pass. -/
noncomputable def abaC (σ : Sys) (gravity : Bool) (arr : ℕ → VAF) (i : ℕ) : Motion :=
  match σ.par i with
  | none => if gravity then (σ.Tp i).inv.actM (-σ.g) else 0
  | some _ => (arr i).a

/-- The algorithm establishes the articulated-body equations (whatever the flags). -/
theorem WF.aba_eqs (hw : σ.WF) (tau : ℕ → ℝ) (fext : FExt) (o : FDOpts) (vd done : Bool)
    (arr0 : ℕ → VAF) (c : AbaCache) (hc : done = true → σ.AbaOK c) (hfr : o.friction = false) :
    ∃ p u a, AbaEqs σ (fun i => (σ.abaForward fext o vd arr0 i).f)
      (σ.abaC o.gravity (σ.abaForward fext o vd arr0)) tau p u a
      (σ.aba tau fext o vd done arr0 c).ddq := by
  set arr := σ.abaForward fext o vd arr0 with harr
  have hpre := hw.abaPre tau o done c hc (fun i => (arr i).a) (fun i => (arr i).f)
  simp only at hpre
  set contrib : ℕ → Mat6 × Force → Mat6 × Force := fun i b => (σ.abaContribI done c i b.1,
      (σ.Tp i).actF (b.2 + (σ.abaRed done c i b.1).app ((fun i => (arr i).a) i)
        + (σ.abaDdq tau o i (σ.abaD done c i b.1) b.2) • σ.abaH done c i b.1)) with hcontrib
  set pre := accLoop (· + ·) σ.n σ.par contrib
    (fun i => (σ.abaInit done c i, (arr i).f)) with hpredef
  obtain ⟨h1, h2⟩ := hpre
  set b := σ.abaBackward tau o done c (fun i => (arr i).a)
    (fun i => (σ.abaInit done c i, (arr i).f)) (fun i => ⟨c.h i, c.d i, 0⟩) with hb
  have hb2 : ∀ i < σ.n, b.2 i = ⟨σ.artH i, σ.artD i,
      (tau i - (σ.S i).dot (pre i).2) / σ.artD i⟩ := by
    intro i hi
    obtain ⟨-, e2, e3⟩ := h1 i hi
    have : b.2 i = ⟨σ.abaH done c i (pre i).1, σ.abaD done c i (pre i).1,
        σ.abaDdq tau o i (σ.abaD done c i (pre i).1) (pre i).2⟩ := by
      rw [hb]
      unfold abaBackward
      rw [bwdLoop_eq _ hw.par_lt]
      simp only [hi, if_true]
      rfl
    rw [this, e2, e3, abaDdq_nofric _ _ hfr]
  set last := fwdLoop σ.n (σ.abaLastStep o.gravity b.2) (fun i => ((arr i).a, (b.2 i).ddq))
    with hlast
  have hls : ∀ i < σ.n, last i = σ.abaLastStep o.gravity b.2 last i ((arr i).a, (b.2 i).ddq) :=
    fwdLoop_spec' (abaLastStep_causal hw.par_lt o.gravity b.2) _
  refine ⟨fun i => (pre i).2, fun i => (tau i - (σ.S i).dot (pre i).2) / σ.artD i,
    fun i => (last i).1, ?_, ?_, ?_, ?_⟩
  · intro i hi
    show (pre i).2 = _
    rw [h2 i hi]
    congr 1
    apply sum_congr rfl
    intro j _
    split
    · next h =>
      have : σ.abaC o.gravity arr j = (arr j).a := by simp [abaC, h]
      rw [this, abaDdq_nofric _ _ hfr]
    · rfl
  · intro i _; rfl
  · intro i hi
    show (last i).2 = _ - (σ.artH i).dot ((last i).1 - (last i).2 • σ.S i) / σ.artD i
    have := hls i hi
    set r := σ.abaLastStep o.gravity b.2 last i ((arr i).a, (b.2 i).ddq) with hr
    have e : r.1 - r.2 • σ.S i = (match σ.par i with
        | none => if o.gravity then (σ.Tp i).inv.actM (-σ.g) else 0
        | some p => (arr i).a + (σ.Tp i).inv.actM (last p).1) := by
      rw [hr]
      simp only [abaLastStep]
      abel
    rw [this, e, hr]
    simp only [abaLastStep, hb2 i hi]
    cases σ.par i <;> rfl
  · intro i hi
    show (last i).1 = _ + (last i).2 • σ.S i
    rw [hls i hi]
    simp only [abaLastStep, abaC]
    cases σ.par i <;> rfl

theorem WF.aba_vel (hw : σ.WF) (fext : FExt) (o : FDOpts) (vd : Bool) (arr0 : ℕ → VAF)
    (h0 : vd = true → σ.VelOK fun i => (arr0 i).v) (hcc : o.cc = true) :
    σ.VelOK fun i => (σ.abaForward fext o vd arr0 i).v := by
  cases vd with
  | true =>
    intro i hi
    have := fwdLoop_spec' (abaStep_causal hw.par_lt fext o true) arr0 i hi
    show (σ.Tw i).actM (σ.abaForward fext o true arr0 i).v = _
    unfold abaForward
    rw [this]
    simpa [abaStep, hcc] using h0 rfl i hi
  | false =>
    apply hw.velOK_of_rec
    intro i hi
    have := fwdLoop_spec' (abaStep_causal hw.par_lt fext o false) arr0 i hi
    unfold abaForward
    rw [this]
    simp [abaStep, hcc]

theorem WF.aba_vel_zero (hw : σ.WF) (fext : FExt) (o : FDOpts) (vd : Bool) (arr0 : ℕ → VAF)
    (hcc : o.cc = false) (i : ℕ) (hi : i < σ.n) : (σ.abaForward fext o vd arr0 i).v = 0 := by
  induction i using Nat.strong_induction_on with
  | _ i ih =>
    have h := fwdLoop_spec' (abaStep_causal hw.par_lt fext o vd) arr0 i hi
    unfold abaForward at ih ⊢
    rw [h]
    simp only [abaStep, hcc, velStep]
    cases hpar : σ.par i with
    | none => simp
    | some p =>
      have hlt := hw.par_lt i hi p hpar
      simp [ih p hlt (by omega)]

/-- The gravity seen by the last pass at the roots is the gravity of the world. -/
def BaseGravity (σ : Sys) : Prop :=
  ∀ i < σ.n, σ.par i = none → (σ.Tp i).inv.actM σ.g = (σ.Tw i).inv.actM σ.g

/-- **The articulated body algorithm solves the equations of motion** for the gravity `G0` that its
last pass uses at the roots. -/
theorem WF.aba_sound_gravity (hw : σ.WF) (hs : σ.SymI) (hd : ∀ i < σ.n, σ.artD i ≠ 0) (tau : ℕ → ℝ)
    (fext : FExt) (o : FDOpts) (vd done : Bool) (arr0 : ℕ → VAF) (c : AbaCache)
    (h0 : vd = true → σ.VelOK fun i => (arr0 i).v) (hc : done = true → σ.AbaOK c)
    (hfr : o.friction = false) (G0 : Motion) (hg : o.gravity = true → ∀ i < σ.n, σ.par i = none →
      (σ.Tp i).inv.actM σ.g = (σ.Tw i).inv.actM G0) (i : ℕ) (hi : i < σ.n) :
    (∑ j ∈ range σ.n, σ.massSpec i j * (σ.aba tau fext o vd done arr0 c).ddq j) +
      (if o.cc then σ.coriolisSpec i else 0) +
      (if o.gravity then σ.genForce (fun k => σ.Iw k (-G0)) i else 0) + σ.extSpec fext i =
    tau i := by
  classical
  obtain ⟨p, u, a, heq⟩ := hw.aba_eqs tau fext o vd done arr0 c hc hfr
  have hsound := heq.sound hw hs hd i hi
  set arr := σ.abaForward fext o vd arr0 with harr
  set ddq := (σ.aba tau fext o vd done arr0 c).ddq with hddq
  set G : Motion := if o.gravity then G0 else 0 with hG
  have hspec : ∀ i < σ.n, arr i = σ.abaStep fext o vd arr i (arr0 i) :=
    fwdLoop_spec' (abaStep_causal hw.par_lt fext o vd) arr0
  -- world accelerations
  have hacc : ∀ k < σ.n, (σ.Tw k).actM (a k) =
      σ.V ddq k + (if o.cc then σ.bias k else 0) - G := by
    intro k hk
    have key := hw.motion_sum (fun i => a i + (σ.Tw i).inv.actM G)
      (fun j => ddq j • σ.S j + (if (σ.par j).isNone then 0 else (arr j).a)) ?_ k hk
    · rw [Iso.actM_add, (hw.Tw_valid k hk).actM_inv] at key
      rw [eq_sub_iff_add_eq, key]
      have split1 : ∀ j ∈ range σ.n, (if Anc σ.par j k then (σ.Tw j).actM (ddq j • σ.S j +
            (if (σ.par j).isNone then 0 else (arr j).a)) else 0) =
          (if Anc σ.par j k then (σ.Tw j).actM (ddq j • σ.S j) else 0) +
          (if o.cc then (if Anc σ.par j k then σ.dq j • (σ.V σ.dq j).crossM (σ.axis j) else 0)
            else 0) := by
        intro j hj
        have hj' := mem_range.1 hj
        have haj := congrArg VAF.a (hspec j hj')
        have hvj := congrArg VAF.v (hspec j hj')
        simp only [abaStep] at haj hvj
        rw [← hvj] at haj
        by_cases hA : Anc σ.par j k
        · simp only [hA, if_true]
          rw [Iso.actM_add]
          congr 1
          cases hpar : σ.par j with
          | none =>
            by_cases hcc : o.cc = true
            · simp [hcc, hw.bias_root hj' hpar]
            · simp [hcc]
          | some q =>
            rw [hpar] at haj
            simp only [Option.isNone_some, Bool.false_eq_true, if_false]
            rw [haj]
            by_cases hcc : o.cc = true
            · simp only [hcc, if_true]
              exact hw.bias_term (hw.aba_vel fext o vd arr0 h0 hcc) hj'
            · simp [hcc]
        · simp [hA]
      rw [sum_congr rfl split1, sum_add_distrib, sum_if_smul_V]
      congr 1
      by_cases hcc : o.cc = true
      · simp only [hcc, if_true]; exact sum_if_bias k
      · simp [hcc]
    · intro i hi
      rw [heq.a_eq i hi]
      simp only [abaC]
      cases hpar : σ.par i with
      | none =>
        simp only [Option.isNone_none, if_true]
        by_cases hgr : o.gravity = true
        · have := hg hgr i hi hpar
          simp only [hG, hgr, if_true]
          rw [Iso.actM_neg, this]
          abel
        · simp [hG, hgr]
      | some q =>
        simp only [Option.isNone_some, Bool.false_eq_true, if_false]
        rw [Iso.actM_add, hw.inv_actM_rec hi hpar]
        abel
  -- world forces
  have hforce : ∀ k < σ.n, (σ.Tw k).actF ((σ.Itot k).app (a k) + (arr k).f) =
      σ.Iw k (σ.V ddq k)
      + (if o.cc then σ.Iw k (σ.bias k) + (σ.V σ.dq k).crossF (σ.Iw k (σ.V σ.dq k)) else 0)
      + (if o.gravity then σ.Iw k (-G0) else 0) - (fext k).getD 0 := by
    intro k hk
    have hfk := congrArg VAF.f (hspec k hk)
    have hvk := congrArg VAF.v (hspec k hk)
    simp only [abaStep] at hfk hvk
    rw [← hvk] at hfk
    rw [hfk, ext_getD, Iso.actF_add, Iso.actF_sub, (hw.Tw_valid k hk).actF_inv,
      (hw.Tw_valid k hk).actF_crossF, ← hw.Iw_actM hk, ← hw.Iw_actM hk, hacc k hk]
    by_cases hcc : o.cc = true
    · have hv : (σ.Tw k).actM (arr k).v = σ.V σ.dq k := hw.aba_vel fext o vd arr0 h0 hcc k hk
      rw [hv]
      simp only [hcc, if_true]
      by_cases hgr : o.gravity = true
      · simp only [hG, hgr, if_true, Iw_sub, Iw_add, Iw_neg]; abel
      · simp only [hG, hgr]; simp [Iw_add]; abel
    · have hv : (arr k).v = 0 := hw.aba_vel_zero fext o vd arr0 (by simpa using hcc) k hk
      rw [hv]
      by_cases hgr : o.gravity = true
      · simp only [hcc, hG, hgr, if_true]; simp [Iw_sub, Iw_neg]; abel
      · simp [hcc, hG, hgr]; abel
  rw [genForce_congr hforce, genForce_sub, genForce_add, genForce_add, genForce_Iw_V] at hsound
  rw [← hsound]
  unfold extSpec
  rw [sub_eq_add_neg]
  congr 2
  · congr 1
    by_cases hcc : o.cc = true
    · simp only [hcc, if_true]; rfl
    · simp [hcc, genForce]
  · by_cases hgr : o.gravity = true
    · simp only [hgr, if_true]
    · simp [hgr, genForce]

/-- The articulated body algorithm solves the equations of motion: the returned accelerations,
put into the inverse dynamics, give back the torques. -/
theorem WF.aba_sound (hw : σ.WF) (hs : σ.SymI) (hd : ∀ i < σ.n, σ.artD i ≠ 0) (tau : ℕ → ℝ)
    (fext : FExt) (o : FDOpts) (vd done : Bool) (arr0 : ℕ → VAF) (c : AbaCache)
    (h0 : vd = true → σ.VelOK fun i => (arr0 i).v) (hc : done = true → σ.AbaOK c)
    (hfr : o.friction = false) (hg : o.gravity = true → σ.BaseGravity) (i : ℕ) (hi : i < σ.n) :
    σ.idSpec (σ.aba tau fext o vd done arr0 c).ddq fext o.cc o.gravity i = tau i :=
  hw.aba_sound_gravity hs hd tau fext o vd done arr0 c h0 hc hfr σ.g hg i hi

end Sys
end SpatialDyn
