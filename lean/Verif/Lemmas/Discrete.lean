import Verif.Spec.Discrete
import Verif.Lemmas.DiscreteFrame
import Verif.Lemmas.Motion
import Verif.Lemmas.Transparent

/-! The discrete inverse dynamics computes the discrete Euler–Lagrange impulse, and its cache follows
the previous configuration fixed by the history. -/

namespace SpatialDyn
namespace Body
variable {E : Ext} {b : Body}
open Finset

/-- Momentum of a link without its load. -/
noncomputable def own (b : Body) (k : ℕ) (m : Motion) : Force := (b.rb k).inertia.app m

theorem disp_rec (h : Inv E b) (u w : ℕ → ℝ) {i : ℕ} (hi : i < b.dof) : b.disp u w i =
    match b.par i with
      | none => (b.TpAt i (u i)).inv * b.TpAt i (w i)
      | some p => (b.TpAt i (u i)).inv * b.disp u w p * b.TpAt i (w i) := by
  unfold disp
  rw [twAt_rec h.tree u hi, twAt_rec h.tree w hi]
  have hu := h.rigid.TpAt hi (u i)
  cases hpar : b.par i with
  | none =>
    simp only
    rw [Iso.inv_mul_rev h.rigid.base hu, mul_assoc, ← mul_assoc _ b.T0, h.rigid.base.inv_mul,
      one_mul]
  | some p =>
    have hp : p < b.dof := lt_trans (h.tree.parLt i hi p hpar) hi
    have hv := twAt_valid h.tree h.rigid u p hp
    simp only
    rw [Iso.inv_mul_rev hv hu]
    simp only [mul_assoc]

theorem disp_valid (h : Inv E b) (u w : ℕ → ℝ) {i : ℕ} (hi : i < b.dof) : (b.disp u w i).Valid :=
  (twAt_valid h.tree h.rigid u i hi).inv.mul (twAt_valid h.tree h.rigid w i hi)

theorem disp_congr (h : Inv E b) {u u' w w' : ℕ → ℝ} (hu : ∀ i < b.dof, u i = u' i)
    (hw : ∀ i < b.dof, w i = w' i) : ∀ i < b.dof, b.disp u w i = b.disp u' w' i := by
  intro i
  induction i using Nat.strong_induction_on with
  | _ i ih =>
    intro hi
    rw [disp_rec h u w hi, disp_rec h u' w' hi, hu i hi, hw i hi]
    cases hpar : b.par i with
    | none => rfl
    | some p =>
      have hp := h.tree.parLt i hi p hpar
      simp only
      rw [ih p hp (hp.trans hi)]

theorem prevLoop_spec (h : Inv E b) (dt : ℝ) (qp : ℕ → ℝ) (Tp : ℕ → Iso)
    (hT : ∀ i < b.dof, Tp i = b.TpAt i (b.pos i)) (a0 : ℕ → Iso × Force) :
    ∀ i < b.dof, fwdLoop b.dof (b.prevStep E dt qp Tp) a0 i =
      (b.disp qp b.pos i, discMom E b.own dt i (b.disp qp b.pos i)) := by
  intro i
  induction i using Nat.strong_induction_on with
  | _ i ih =>
    intro hi
    have key : (match b.par i with
        | none => (b.TpAt i (qp i)).inv * Tp i
        | some p => (b.TpAt i (qp i)).inv *
          (fwdLoop b.dof (b.prevStep E dt qp Tp) a0 p).1 * Tp i) = b.disp qp b.pos i := by
      rw [disp_rec h qp b.pos hi, hT i hi]
      cases hpar : b.par i with
      | none => rfl
      | some p =>
        have hp := h.tree.parLt i hi p hpar
        simp only
        rw [ih p hp (hp.trans hi)]
    rw [Sys.fwdLoop_spec' (fun i hi a c o hac => by
      unfold prevStep
      cases hpar : b.par i with
      | none => rfl
      | some p => simp only; rw [hac p (h.tree.parLt i hi p hpar)]) a0 i hi]
    generalize fwdLoop b.dof (b.prevStep E dt qp Tp) a0 = arr at key ⊢
    exact Prod.ext key (congrArg (b.momentum E dt i) key)

theorem nextLoop_spec (h : Inv E b) (dt : ℝ) (qn : ℕ → ℝ) (Tp : ℕ → Iso)
    (hT : ∀ i < b.dof, Tp i = b.TpAt i (b.pos i)) (a0 : ℕ → Iso × Force) :
    ∀ i < b.dof, fwdLoop b.dof (b.nextStep E dt qn Tp) a0 i =
      (b.disp b.pos qn i, discMom E b.own dt i (b.disp b.pos qn i)) := by
  intro i
  induction i using Nat.strong_induction_on with
  | _ i ih =>
    intro hi
    have key : (match b.par i with
        | none => (Tp i).inv * b.TpAt i (qn i)
        | some p => (Tp i).inv *
          (fwdLoop b.dof (b.nextStep E dt qn Tp) a0 p).1 * b.TpAt i (qn i)) = b.disp b.pos qn i := by
      rw [disp_rec h b.pos qn hi, hT i hi]
      cases hpar : b.par i with
      | none => rfl
      | some p =>
        have hp := h.tree.parLt i hi p hpar
        simp only
        rw [ih p hp (hp.trans hi)]
    rw [Sys.fwdLoop_spec' (fun i hi a c o hac => by
      unfold nextStep
      cases hpar : b.par i with
      | none => rfl
      | some p => simp only; rw [hac p (h.tree.parLt i hi p hpar)]) a0 i hi]
    generalize fwdLoop b.dof (b.nextStep E dt qn Tp) a0 = arr at key ⊢
    exact Prod.ext key (congrArg (b.momentum E dt i) key)

/-- The cache of the discrete dynamics agrees with the previous configuration `p`. -/
structure DCoh (E : Ext) (b : Body) (d : DrneaCache) (p : Prev) : Prop where
  valid : d.qPrevValid = p.isSome
  conf : ∀ t qp, p = some (t, qp) → d.dt = t ∧ ∀ i < b.dof, d.qPrev i = qp i
  prev : d.prevDone = true → ∀ t qp, p = some (t, qp) → ∀ i < b.dof,
    d.TToPrev i = b.disp qp b.pos i ∧ d.pPrev i = discMom E b.own t i (b.disp qp b.pos i)

theorem DCoh.none {d : DrneaCache} (h : d.qPrevValid = false) : DCoh E b d none :=
  ⟨h, fun _ _ h => (nomatch h), fun _ _ _ h => (nomatch h)⟩

/-- The cached half step towards `qn`. -/
def DNext (E : Ext) (b : Body) (d : DrneaCache) (dt : ℝ) (qn : ℕ → ℝ) : Prop :=
  ∀ i < b.dof, d.TFromNext i = b.disp b.pos qn i ∧
    d.p i = discMom E b.own dt i (b.disp b.pos qn i)

theorem refreshPrev_dcoh {p : Prev} (hd : DCoh E b b.c.drnea p) (dt : ℝ) :
    DCoh E b (b.refreshPrev dt).c.drnea (some (dt, b.before p dt)) := by
  unfold refreshPrev
  cases p with
  | none =>
    have hv : b.c.drnea.qPrevValid = false := hd.valid
    rw [if_pos (Or.inl hv)]
    exact ⟨rfl, fun t qp e => by cases e; exact ⟨rfl, fun _ _ => rfl⟩, fun e => (nomatch e)⟩
  | some s =>
    obtain ⟨t, qp⟩ := s
    obtain ⟨h1, h2⟩ := hd.conf t qp rfl
    have hv : b.c.drnea.qPrevValid = true := hd.valid
    by_cases ht : t = dt
    · subst ht
      rw [if_neg (by rw [hv, h1]; simp)]
      have : b.before (some (t, qp)) t = qp := if_pos rfl
      rw [this]
      exact hd
    · rw [if_pos (Or.inr (by rw [h1]; exact ht))]
      have : b.before (some (t, qp)) dt = fun i => b.pos i - dt * b.vel i := if_neg ht
      rw [this]
      exact ⟨rfl, fun t qp e => by cases e; exact ⟨rfl, fun _ _ => rfl⟩, fun e => (nomatch e)⟩

theorem DCoh.same {d : DrneaCache} {p : Prev} {b' : Body} (h : DCoh E b d p) (hs : b.Same b') :
    DCoh E b' d p := by
  unfold Same at hs
  rw [hs]
  exact ⟨h.valid, h.conf, h.prev⟩

theorem DNext.same {d : DrneaCache} {dt : ℝ} {qn : ℕ → ℝ} {b' : Body} (h : DNext E b d dt qn)
    (hs : b.Same b') : DNext E b' d dt qn := by
  unfold Same at hs
  rw [hs]
  exact h

theorem Inv.viewTp_pos (h : Inv E b) : ∀ i < b.dof, b.viewTp i = b.TpAt i (b.pos i) :=
  fun i hi => h.viewTp i hi

theorem refreshMomentum_dcoh (h : Inv E b) {dt : ℝ} {qp : ℕ → ℝ}
    (hd : DCoh E b b.c.drnea (some (dt, qp))) :
    DCoh E b (b.refreshMomentum E dt).c.drnea (some (dt, qp)) ∧
      (b.refreshMomentum E dt).c.drnea.prevDone = true := by
  unfold refreshMomentum
  split
  · next hp => exact ⟨hd, hp⟩
  · have hk : b.KeepD (b.touch (decide (0 < b.dof)) false) := touch_keep _ _
    unfold KeepD at hk
    refine ⟨⟨?_, ?_, ?_⟩, rfl⟩
    · simp only; rw [hk]; exact hd.valid
    · simp only; rw [hk]; exact hd.conf
    · intro _ t q e i hi
      cases e
      simp only
      rw [prevLoop_spec h dt b.c.drnea.qPrev b.viewTp h.viewTp_pos _ i hi]
      have := disp_congr h (hd.conf _ _ rfl).2 (fun _ _ => rfl : ∀ i < b.dof, b.pos i = b.pos i) i hi
      simp only
      rw [this]
      exact ⟨rfl, rfl⟩

theorem refreshPrev_same (dt : ℝ) : b.Same (b.refreshPrev dt) := by
  unfold refreshPrev; split <;> rfl

theorem refreshMomentum_same (dt : ℝ) : b.Same (b.refreshMomentum E dt) := by
  unfold refreshMomentum
  split
  · rfl
  · exact (touch_same _ _).upd _

theorem impulse_getD (σ : Sys) (d : DrneaCache) (fext : FExt) (dt : ℝ) (i : ℕ) :
    impulse σ d fext dt i = (d.p i - (d.TToPrev i).inv.actF (d.pPrev i)) -
      dt • (σ.Tw i).inv.actF ((fext i).getD 0) := by
  unfold impulse
  cases fext i <;> simp

/-- The discrete inverse dynamics: its answer and what it leaves in the cache. -/
theorem discreteID_run (h : Inv E b) {p : Prev} (hd : DCoh E b b.c.drnea p) (qn : ℕ → ℝ) (dt : ℝ)
    (fext : FExt) (g : Bool) :
    (∀ i < b.dof, (b.discreteID E qn dt fext g).1 i =
      b.discreteSpec E b.own dt (b.before p dt) qn fext i +
        if g then dt * b.fresh.gravitySpec i else 0) ∧
    DCoh E b (b.discreteID E qn dt fext g).2.c.drnea (some (dt, b.before p dt)) ∧
    (b.discreteID E qn dt fext g).2.c.drnea.prevDone = true ∧
    DNext E b (b.discreteID E qn dt fext g).2.c.drnea dt qn := by
  have h1 := refreshPrev_step h dt
  have d1 := refreshPrev_dcoh hd dt
  set qp := b.before p dt
  have d1' := d1.same (refreshPrev_same (b := b) dt)
  obtain ⟨d2, hp2⟩ := refreshMomentum_dcoh (h.step h1) d1'
  have h2 := h1.trans (refreshMomentum_step (E := E) (h.step h1) dt)
  have i2 := h.step h2
  unfold discreteID
  simp only
  set b2 := (b.refreshPrev dt).refreshMomentum E dt with hb2
  have s2 : b.Same b2 := h2.same
  have d3 : DCoh E b b2.c.drnea (some (dt, qp)) := by
    have s1 : b.Same (b.refreshPrev dt) := refreshPrev_same dt
    unfold Same at s1
    rw [s1] at d2
    exact ⟨d2.valid, d2.conf, d2.prev⟩
  have h2' := h2
  obtain ⟨c', hc', -⟩ := h2
  have hdof : b2.dof = b.dof := s2.dof
  have hpos : b2.pos = b.pos := by rw [hc']; rfl
  have hown : b2.own = b.own := by rw [hc']; rfl
  have hdisp : ∀ u w, b2.disp u w = b.disp u w := by rw [hc']; exact fun _ _ => rfl
  have hview : b2.view = b.fresh := by rw [i2.view, hc']; rfl
  have hnx := nextLoop_spec i2 dt qn b2.viewTp i2.viewTp_pos
    (fun i => (b2.c.drnea.TFromNext i, b2.c.drnea.p i))
  rw [hdof, hpos, hown] at hnx
  simp only [hdisp] at hnx
  set r := fwdLoop b2.dof (b2.nextStep E dt qn b2.viewTp)
    (fun i => (b2.c.drnea.TFromNext i, b2.c.drnea.p i)) with hr
  rw [← hdof, ← hr, hdof] at hnx
  have hk := touch_keep (b := b2) (decide (0 < b2.dof)) (b2.hasExt fext)
  set b3 := b2.touch (decide (0 < b2.dof)) (b2.hasExt fext)
  -- the value of the backward pass
  have hval : ∀ f0, ∀ i < b.dof, (b2.view.backward (fun i => impulse b2.view
      { b2.c.drnea with TFromNext := fun i => (r i).1, p := fun i => (r i).2 } fext dt i) f0).2 i =
      b.discreteSpec E b.own dt qp qn fext i := by
    intro f0 i hi
    rw [hview, h.wf.backward_genForce _ _ i hi]
    unfold discreteSpec
    unfold Sys.genForce
    refine sum_congr rfl fun k hk => ?_
    have hk : k < b.dof := mem_range.1 hk
    obtain ⟨e1, e2⟩ := d3.prev hp2 dt qp rfl k hk
    have hv := h.wf.Tw_valid k hk
    beta_reduce
    rw [impulse_getD]
    dsimp only
    rw [hnx k hk, e1, e2, Iso.actF_sub, Iso.actF_smul, hv.actF_inv, fresh_Tw hk]
    rfl
  have hdc : ∀ w, DCoh E b { b2.c.drnea with
      TFromNext := fun i => (r i).1, p := fun i => (r i).2, dp := w } (some (dt, qp)) :=
    fun w => ⟨d3.valid, d3.conf, d3.prev⟩
  have hdn : ∀ w, DNext E b { b2.c.drnea with
      TFromNext := fun i => (r i).1, p := fun i => (r i).2, dp := w } dt qn :=
    fun w i hi => ⟨congrArg Prod.fst (hnx i hi), congrArg Prod.snd (hnx i hi)⟩
  have s3 : b.Same b3 := s2.trans (touch_same _ _)
  have hb3 : b3.dof = b.dof := s3.dof
  have h3 := h2'.trans (touch_step i2 (decide (0 < b2.dof)) (b2.hasExt fext))
  have h4 := fun d => h3.trans (drnea_step (h.step h3) d)
  generalize hw : b2.view.backward (fun i => impulse b2.view
      { b2.c.drnea with TFromNext := fun i => (r i).1, p := fun i => (r i).2 } fext dt i)
      (fun _ => 0) = w
  have hval : ∀ i < b.dof, w.2 i = b.discreteSpec E b.own dt qp qn fext i := by
    rw [← hw]; exact hval _
  generalize hd4 : ({ b2.c.drnea with
    TFromNext := fun i => (r i).1, p := fun i => (r i).2, dp := w.1 } : DrneaCache) = d4
  have hdc : DCoh E b d4 (some (dt, qp)) := hd4 ▸ hdc w.1
  have hdn : DNext E b d4 dt qn := hd4 ▸ hdn w.1
  have hp4 : d4.prevDone = true := by rw [← hd4]; exact hp2
  have h4 := h4 d4
  generalize hb4 : ({ b3 with c := { b3.c with drnea := d4 } } : Body) = b4
  have hdr : b4.c.drnea = d4 := by rw [← hb4]
  change Step E b { b3 with c := { b3.c with drnea := d4 } } at h4
  rw [hb4] at h4
  have hd4' : b4.dof = b.dof := h4.same.dof
  split
  · next hg =>
    obtain ⟨hg1, -⟩ := Bool.and_eq_true_iff.1 hg
    have hk4 : b4.KeepD b4.gravity.2 := gravity_keep
    unfold KeepD at hk4
    simp only
    rw [hk4, hdr]
    refine ⟨fun i hi => ?_, hdc, hp4, hdn⟩
    rw [hval i hi, if_pos hg1, (gravity_run (h.step h4)).2 i (hd4'.symm ▸ hi), h4.fresh_eq]
  · next hg =>
    simp only
    rw [hdr]
    refine ⟨fun i hi => ?_, hdc, hp4, hdn⟩
    have : g = false := by
      have h0 : 0 < b4.dof := by omega
      simpa [h0] using hg
    rw [hval i hi, this]
    simp

end Body
end SpatialDyn
