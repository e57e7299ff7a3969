import Verif.Lemmas.Drift
import Verif.Props.DiscreteAction
import Mathlib.MeasureTheory.Integral.IntervalIntegral.FundThmCalculus

/-!
# The action of a step along curves of configurations

Its derivative when both ends of the step move, and the continuity of the coefficients.
-/

namespace SpatialDyn
open Finset Filter Topology Body

open scoped ContDiff

/-- The momentum of a small displacement depends on it continuously. -/
theorem Ext.NearLog2.mom_lip {E : Ext} (hE : E.NearLog2) : ∃ δ > 0, ∀ I : Inertia,
    ∃ K, ∀ A B : Iso, A.Valid → B.Valid → A.gap 1 < δ → B.gap 1 < δ →
      (E.dlogT A (I.app (E.log A)) - E.dlogT B (I.app (E.log B))).size ≤ K * A.gap B := by
  obtain ⟨δ1, hδ1, C, hC⟩ := hE.dlogT_lip
  obtain ⟨δ2, hδ2, C2, hC2⟩ := hE.log_second
  set δ := min δ1 δ2 with hδ
  have hδ0 : 0 < δ := lt_min hδ1 hδ2
  refine ⟨δ, hδ0, fun I => ?_⟩
  obtain ⟨K, hK, hI⟩ := I.size_app
  have hl : ∀ A B : Iso, A.Valid → B.Valid → A.gap 1 < δ → B.gap 1 < δ →
      (E.log A - E.log B - (A.twist - B.twist)).size ≤ |C2| * (2 * δ) * A.gap B := by
    intro A B hA hB gA gB
    refine (hC2 A B hA hB (gA.trans_le (min_le_right _ _)) (gB.trans_le (min_le_right _ _))).trans ?_
    refine mul_le_mul_of_nonneg_right ?_ (Iso.gap_nonneg _ _)
    exact mul_le_mul (le_abs_self _) (by linarith) (add_nonneg (Iso.gap_nonneg _ _)
      (Iso.gap_nonneg _ _)) (abs_nonneg _)
  have hd : ∀ A B : Iso, A.Valid → B.Valid → A.gap 1 < δ → B.gap 1 < δ →
      (E.log A - E.log B).size ≤ (|C2| * (2 * δ) + 1) * A.gap B := by
    intro A B hA hB gA gB
    have h1 := hl A B hA hB gA gB
    have h2 := Motion.size_add (E.log A - E.log B - (A.twist - B.twist)) (A.twist - B.twist)
    rw [sub_add_cancel] at h2
    have h3 := Iso.twist_size A B
    linarith
  set L := |C2| * (2 * δ) + 1 with hL
  have hL0 : 0 ≤ L := by positivity
  refine ⟨|C| * K * (δ * L) + |C| * K * (L * δ) + K * (|C2| * (2 * δ)) + K, ?_⟩
  intro A B hA hB gA gB
  have m := mom_le hE.toNearLog (I := I) (δ := δ) (fun T U hT hU gT gU f =>
    hC T U hT hU (gT.trans_le (min_le_left _ _)) (gU.trans_le (min_le_left _ _)) f) hK hI hA hB hδ0
    gA gB
  have e : E.dlogT A (I.app (E.log A)) - E.dlogT B (I.app (E.log B)) =
      (E.dlogT A (I.app (E.log A)) - I.app A.twist -
        (E.dlogT B (I.app (E.log B)) - I.app B.twist)) + I.app (A.twist - B.twist) := by
    rw [Inertia.app_sub]; abel
  rw [e]
  refine (Force.size_add _ _).trans ?_
  have t1 : (I.app (A.twist - B.twist)).size ≤ K * A.gap B :=
    (hI _).trans (mul_le_mul_of_nonneg_left (Iso.twist_size A B) hK)
  have g0 := Iso.gap_nonneg A B
  have t2 : A.gap 1 * (E.log A - E.log B).size ≤ δ * (L * A.gap B) :=
    mul_le_mul gA.le (hd A B hA hB gA gB) (Motion.size_nonneg _) hδ0.le
  have t3 : (E.log B).size ≤ L * δ := by
    have := hd B 1 hB Iso.valid_one gB (by rw [Iso.gap_self]; exact hδ0)
    rw [hE.log_one, sub_zero] at this
    exact this.trans (mul_le_mul_of_nonneg_left gB.le hL0)
  have t4 : (E.log B).size * A.gap B ≤ L * δ * A.gap B := mul_le_mul_of_nonneg_right t3 g0
  have t5 := hl A B hA hB gA gB
  have cK : 0 ≤ |C| * K := mul_nonneg (abs_nonneg _) hK
  have u2 := mul_le_mul_of_nonneg_left t2 cK
  have u4 := mul_le_mul_of_nonneg_left t4 cK
  have u5 := mul_le_mul_of_nonneg_left t5 hK
  nlinarith

section
variable {X : Type*} [NormedAddCommGroup X] [NormedSpace ℝ X]

/-- A projection of the momentum of a smoothly varying small displacement is continuous. -/
theorem Ext.NearLog2.mom_cont {E : Ext} (hE : E.NearLog2) {δ : ℝ}
    (H : ∀ I : Inertia, ∃ K, ∀ A B : Iso, A.Valid → B.Valid → A.gap 1 < δ → B.gap 1 < δ →
      (E.dlogT A (I.app (E.log A)) - E.dlogT B (I.app (E.log B))).size ≤ K * A.gap B)
    {F : X → Iso} {m : X → Motion} (hF : SmIso F) (hv : ∀ y, (F y).Valid) (hm : SmMotion m)
    (I : Inertia) (dt : ℝ) {y0 : X} (hg : (F y0).gap 1 < δ) :
    ContinuousAt (fun y => (m y).dot (E.dlogT (F y) (I.app ((1 / dt) • E.log (F y))))) y0 := by
  obtain ⟨K, hK⟩ := H I
  have e : ∀ y, (m y).dot (E.dlogT (F y) (I.app ((1 / dt) • E.log (F y)))) =
      1 / dt * (m y).dot (E.dlogT (F y) (I.app (E.log (F y)))) := fun y => by
    rw [Inertia.app_smul, hE.dlogT_smul, Motion.dot_smul]
  simp only [e]
  refine ContinuousAt.mul continuousAt_const ?_
  have g0 : Tendsto (fun y => (F y).gap (F y0)) (𝓝 y0) (𝓝 0) := tendsto_of_O (hF.gap_O (p0 := y0))
  have m0 : Tendsto (fun y => (m y - m y0).size) (𝓝 y0) (𝓝 0) := tendsto_of_O (hm.sub_O (p0 := y0))
  have near : ∀ᶠ y in 𝓝 y0, (F y).gap 1 < δ := by
    filter_upwards [g0.eventually (gt_mem_nhds (sub_pos.2 hg))] with y hy
    have := Iso.gap_triangle (F y) (F y0) 1
    linarith
  set G := fun y => E.dlogT (F y) (I.app (E.log (F y))) with hG
  show Tendsto (fun y => (m y).dot (G y)) (𝓝 y0) (𝓝 ((m y0).dot (G y0)))
  rw [tendsto_iff_norm_sub_tendsto_zero]
  have hb : Tendsto (fun y => ((m y0).size + (m y - m y0).size) * (|K| * (F y).gap (F y0)) +
      (m y - m y0).size * (G y0).size) (𝓝 y0) (𝓝 0) := by
    have := (((tendsto_const_nhds (x := (m y0).size)).add m0).mul (g0.const_mul |K|)).add
      (m0.mul_const (G y0).size)
    simpa using this
  refine squeeze_zero' (.of_forall fun _ => norm_nonneg _) ?_ hb
  filter_upwards [near] with y hy
  have e1 : (m y).dot (G y) - (m y0).dot (G y0) =
      (m y).dot (G y - G y0) + (m y - m y0).dot (G y0) := by
    rw [Motion.dot_sub, Motion.sub_dot]; ring
  rw [e1, Real.norm_eq_abs]
  have a1 := abs_add_le ((m y).dot (G y - G y0)) ((m y - m y0).dot (G y0))
  have a2 := Motion.abs_dot (m y) (G y - G y0)
  have a3 := Motion.abs_dot (m y - m y0) (G y0)
  have a4 : (m y).size ≤ (m y0).size + (m y - m y0).size := by
    have := Motion.size_add (m y0) (m y - m y0)
    rwa [add_sub_cancel] at this
  have a5 : (G y - G y0).size ≤ |K| * (F y).gap (F y0) :=
    (hK _ _ (hv _) (hv _) hy hg).trans (mul_le_mul_of_nonneg_right (le_abs_self _)
      (Iso.gap_nonneg _ _))
  have a6 := mul_le_mul a4 a5 (Force.size_nonneg _) (add_nonneg (Motion.size_nonneg _)
    (Motion.size_nonneg _))
  linarith

end

variable {E : Ext} {b : Body}

/-- Derivative of the kinetic energy of a link over a step both ends of which move. -/
theorem link_curve (hE : E.TrueLog) : ∃ δ > 0, ∀ {b : Body}, b.Tree → b.Rigid → b.AxesOK →
    ∀ {k : ℕ}, k < b.dof → (b.rb k).inertia.Icom.IsSymm → ∀ {dt : ℝ}, dt ≠ 0 →
    ∀ {u w : ℝ → ℕ → ℝ} {u' w' : ℕ → ℝ} {s : ℝ} (x : ℕ → ℝ),
    (∀ j < b.dof, HasDerivAt (fun s => u s j) (u' j) s) →
    (∀ j < b.dof, HasDerivAt (fun s => w s j) (w' j) s) → (b.disp (u s) (w s) k).gap 1 < δ →
    HasDerivAt (fun s => dt * (1 / 2 * (b.stepVel E dt (u s) (w s) k).dot
        ((b.rb k).inertia.app (b.stepVel E dt (u s) (w s) k))))
      (((b.twAt (u s) k).inv.actM ((b.sysAt (w s) x).V w' k)).dot (E.dlogT (b.disp (u s) (w s) k)
          ((b.rb k).inertia.app (b.stepVel E dt (u s) (w s) k))) -
        ((b.twAt (u s) k).inv.actM ((b.sysAt (u s) x).V u' k)).dot (E.dlogT (b.disp (u s) (w s) k)
          ((b.rb k).inertia.app (b.stepVel E dt (u s) (w s) k)))) s := by
  obtain ⟨δ, hδ, H⟩ := hE.kinetic_deriv
  refine ⟨δ, hδ, ?_⟩
  intro b ht hr ha k hk hI dt h0 u w u' w' s x hu hw hg
  have hv : ∀ u, (b.twAt u k).Valid := fun u => twAt_valid ht hr u k hk
  have h1 := ((twAt_twist ht hr ha hu x k hk).inverse (hv _)).mul (twAt_twist ht hr ha hw x k hk)
    (hv _).inv
  have h2 := H _ _ s (b.rb k).inertia dt (fun r => (hv _).inv.mul (hv _)) hg h1 hI h0
  refine h2.congr_deriv ?_
  rw [Motion.add_dot, Motion.neg_dot]
  exact neg_add_eq_sub _ _

theorem twAt_congr (h : Inv E b) {u w : ℕ → ℝ} (hu : ∀ i < b.dof, u i = w i) :
    ∀ i < b.dof, b.twAt u i = b.twAt w i := by
  intro i
  induction i using Nat.strong_induction_on with
  | _ i ih =>
    intro hi
    rw [twAt_rec h.tree u hi, twAt_rec h.tree w hi, hu i hi]
    cases hpar : b.par i with
    | none => rfl
    | some p =>
      have hp := h.tree.parLt i hi p hpar
      simp only
      rw [ih p hp (hp.trans hi)]

theorem stepAction_congr (h : Inv E b) {u u' w w' : ℕ → ℝ} (hu : ∀ i < b.dof, u i = u' i)
    (hw : ∀ i < b.dof, w i = w' i) (dt : ℝ) (g : Bool) :
    b.stepAction E dt g u w = b.stepAction E dt g u' w' := by
  unfold stepAction potential
  congr 2
  · refine sum_congr rfl fun k hk => ?_
    unfold stepVel
    rw [disp_congr h hu hw k (mem_range.1 hk)]
  · congr 2
    refine sum_congr rfl fun k hk => ?_
    beta_reduce
    rw [twAt_congr h hu k (mem_range.1 hk)]

/-- The first `n` positions. -/
def headFin (n : ℕ) (u : ℕ → ℝ) : Fin n → ℝ := fun i => u i

theorem padFin_head {n : ℕ} (u : ℕ → ℝ) {i : ℕ} (hi : i < n) : padFin (headFin n u) i = u i := by
  unfold padFin
  rw [dif_pos hi]
  rfl

theorem potential_smooth (h : Inv E b) : ContDiff ℝ ∞ fun y : Fin b.dof → ℝ =>
    b.potential fun k x => (b.twAt (padFin y) k).app x := by
  unfold potential
  refine ContDiff.neg (ContDiff.sum fun k hk => list_sum_smooth _ fun I _ => ?_)
  have hT := twAt_smooth h.tree (q := fun y : Fin b.dof → ℝ => padFin y)
    (fun i _ => padFin_smooth contDiff_id i) k (mem_range.1 hk)
  exact contDiff_const.mul ((SmVec.const b.g).dot ((hT.R.mulVec (SmVec.const I.com)).add hT.t))

/-- Along curves of configurations a small step apart, the action of the step changes at a rate that
is linear in the rates of the two ends, with coefficients that are continuous along the curves. -/
theorem action_curve (hE : E.TrueLog) : ∃ δ > 0, ∀ {b : Body}, Inv E b → b.AxesOK →
    (∀ k < b.dof, (b.rb k).inertia.Icom.IsSymm) → (∀ k < b.dof, b.load k = none) →
    ∀ {dt : ℝ}, dt ≠ 0 → ∀ g : Bool, ∃ P Q : (ℕ → ℝ) → (ℕ → ℝ) → ℕ → ℝ,
    (∀ {u w : ℝ → ℕ → ℝ} {u' w' : ℕ → ℝ} {s : ℝ},
      (∀ j < b.dof, HasDerivAt (fun s => u s j) (u' j) s) →
      (∀ j < b.dof, HasDerivAt (fun s => w s j) (w' j) s) →
      (∀ k < b.dof, (b.disp (u s) (w s) k).gap 1 < δ) →
      HasDerivAt (fun s => b.stepAction E dt g (u s) (w s))
        (∑ i ∈ range b.dof, Q (u s) (w s) i * w' i + ∑ i ∈ range b.dof, P (u s) (w s) i * u' i) s) ∧
    ∀ {u w : ℝ → ℕ → ℝ}, (∀ j < b.dof, Continuous fun s => u s j) →
      (∀ j < b.dof, Continuous fun s => w s j) →
      (∀ s, ∀ k < b.dof, (b.disp (u s) (w s) k).gap 1 < δ) → ∀ i,
      Continuous (fun s => P (u s) (w s) i) ∧ Continuous fun s => Q (u s) (w s) i := by
  classical
  obtain ⟨δ1, hδ1, H1⟩ := link_curve hE
  obtain ⟨δ2, hδ2, H2⟩ := hE.near2.mom_lip
  refine ⟨min δ1 δ2, lt_min hδ1 hδ2, ?_⟩
  intro b h ha hI hl dt h0 g
  set n := b.dof with hn
  set W : (Fin n → ℝ) → ℝ := fun y => b.potential fun k x => (b.twAt (padFin y) k).app x with hW
  have hWs : ContDiff ℝ ∞ W := potential_smooth h
  set mom : (ℕ → ℝ) → (ℕ → ℝ) → ℕ → Force := fun u w k =>
    E.dlogT (b.disp u w k) ((b.rb k).inertia.app ((1 / dt) • E.log (b.disp u w k))) with hmom
  set co : (ℕ → ℝ) → (ℕ → ℝ) → (ℕ → ℝ) → ℕ → ℝ := fun u w v i => ∑ k ∈ range n,
    ((b.twAt u k).inv.actM ((b.sysAt v fun _ => 0).Jw k i)).dot (mom u w k) with hco
  set e : ℕ → Fin n → ℝ := fun i => headFin n fun j => if j = i then 1 else 0 with he
  have hsum : ∀ u' : ℕ → ℝ, headFin n u' = ∑ i ∈ range n, u' i • e i := by
    intro u'
    funext j
    rw [Finset.sum_apply, sum_eq_single (j : ℕ)]
    · simp [he, headFin]
    · intro i _ hij
      simp [he, headFin, Ne.symm hij]
    · intro hj; exact absurd (mem_range.2 j.2) hj
  refine ⟨fun u w i => -co (padFin (headFin n u)) (padFin (headFin n w)) (padFin (headFin n u)) i -
      dt * (if g then fderiv ℝ W (headFin n u) (e i) else 0),
    fun u w i => co (padFin (headFin n u)) (padFin (headFin n w)) (padFin (headFin n w)) i, ?_, ?_⟩
  · intro u w u' w' s hu hw hg
    have pd : ∀ {u : ℝ → ℕ → ℝ} {u' : ℕ → ℝ}, (∀ j < n, HasDerivAt (fun s => u s j) (u' j) s) →
        ∀ j < n, HasDerivAt (fun s => padFin (headFin n (u s)) j) (u' j) s := fun hu j hj => by
      simp only [padFin_head _ hj]
      exact hu j hj
    have dg : ∀ k < n, (b.disp (padFin (headFin n (u s))) (padFin (headFin n (w s))) k).gap 1 < δ1 := by
      intro k hk
      rw [disp_congr h (fun i hi => padFin_head _ hi) (fun i hi => padFin_head _ hi) k hk]
      exact (hg k hk).trans_le (min_le_left _ _)
    have hlm : ∀ k < n, ∀ m, b.linkMomentum k m = (b.rb k).inertia.app m := fun k hk m => by
      unfold linkMomentum parts
      rw [hl k hk]
      simp
    have hact : ∀ s, b.stepAction E dt g (u s) (w s) = (∑ k ∈ range n, dt * (1 / 2 *
        (b.stepVel E dt (padFin (headFin n (u s))) (padFin (headFin n (w s))) k).dot
          ((b.rb k).inertia.app (b.stepVel E dt (padFin (headFin n (u s)))
            (padFin (headFin n (w s))) k)))) - dt * (if g then W (headFin n (u s)) else 0) := by
      intro s
      rw [stepAction_congr h (u' := padFin (headFin n (u s))) (w' := padFin (headFin n (w s)))
        (fun i hi => (padFin_head _ hi).symm) (fun i hi => (padFin_head _ hi).symm)]
      unfold stepAction
      rw [mul_sum]
      congr 1
      exact sum_congr rfl fun k hk => by rw [hlm k (mem_range.1 hk)]
    have hk := HasDerivAt.fun_sum (u := range n) fun k hk =>
      H1 h.tree h.rigid ha (mem_range.1 hk) (hI k (mem_range.1 hk)) h0
        (u := fun s => padFin (headFin n (u s))) (w := fun s => padFin (headFin n (w s)))
        (fun _ => 0) (pd hu) (pd hw) (dg k (mem_range.1 hk))
    have hhead : HasDerivAt (fun s => headFin n (u s)) (headFin n u') s :=
      hasDerivAt_pi.2 fun j => hu j j.2
    have hp : HasDerivAt (fun s => W (headFin n (u s)))
        (fderiv ℝ W (headFin n (u s)) (headFin n u')) s :=
      (hWs.differentiable (by simp) _).hasFDerivAt.comp_hasDerivAt s hhead
    have hp' : HasDerivAt (fun s => if g then W (headFin n (u s)) else 0)
        (∑ i ∈ range n, (if g then fderiv ℝ W (headFin n (u s)) (e i) else 0) * u' i) s := by
      cases g
      · simpa using hasDerivAt_const s (0 : ℝ)
      · simp only [if_true]
        refine hp.congr_deriv ?_
        rw [hsum u', map_sum]
        exact sum_congr rfl fun i _ => by rw [map_smul, smul_eq_mul, mul_comm]
    have hc := hk.sub (hp'.const_mul dt)
    have hf : (fun s => b.stepAction E dt g (u s) (w s)) = _ := funext hact
    rw [hf]
    refine hc.congr_deriv ?_
    have hV : ∀ (v w' : ℕ → ℝ) (k : ℕ) (T : Iso) (f : Force), T.Valid →
        (T.inv.actM ((b.sysAt v fun _ => 0).V w' k)).dot f =
        ∑ i ∈ range n, (T.inv.actM ((b.sysAt v fun _ => 0).Jw k i)).dot f * w' i := by
      intro v w' k T f hT
      rw [← hT.dot_actF]
      unfold Sys.V
      rw [Motion.sum_dot]
      refine sum_congr rfl fun i _ => ?_
      rw [Motion.smul_dot, hT.dot_actF, mul_comm]
    have hA : ∀ (a c v w' : ℕ → ℝ), ∑ k ∈ range n, ((b.twAt a k).inv.actM
        ((b.sysAt v fun _ => 0).V w' k)).dot (mom a c k) = ∑ i ∈ range n, co a c v i * w' i := by
      intro a c v w'
      rw [sum_congr rfl fun k hk => hV v w' k _ (mom a c k)
        (twAt_valid h.tree h.rigid a k (mem_range.1 hk)), sum_comm]
      exact sum_congr rfl fun i _ => by rw [hco]; beta_reduce; rw [sum_mul]
    rw [sum_sub_distrib]
    refine (congrArg₂ (· - ·) (congrArg₂ (· - ·) (hA _ _ _ _) (hA _ _ _ _)) rfl).trans ?_
    simp only [sub_mul, neg_mul, sum_sub_distrib, sum_neg_distrib, mul_sum, mul_assoc]
    ring
  · intro u w hu hw hg i
    have hc : ∀ {u : ℝ → ℕ → ℝ}, (∀ j < n, Continuous fun s => u s j) →
        Continuous fun s => headFin n (u s) := fun hu => continuous_pi fun j => hu j j.2
    have q1 : ∀ i < n, Sm fun y : State n => padFin y.1 i := fun i _ => padFin_smooth contDiff_fst i
    have q2 : ∀ i < n, Sm fun y : State n => padFin y.2 i := fun i _ => padFin_smooth contDiff_snd i
    have hcoef : ∀ v : State n → ℕ → ℝ, (∀ i < n, Sm fun y => v y i) → Continuous fun s =>
        co (padFin (headFin n (u s))) (padFin (headFin n (w s)))
          (v (headFin n (u s), headFin n (w s))) i := by
      intro v hv
      refine continuous_finsetSum _ fun k hk => continuous_iff_continuousAt.2 fun s => ?_
      have hk := mem_range.1 hk
      have g2 : (b.disp (padFin (headFin n (u s))) (padFin (headFin n (w s))) k).gap 1 < δ2 := by
        rw [disp_congr h (fun i hi => padFin_head _ hi) (fun i hi => padFin_head _ hi) k hk]
        exact (hg s k hk).trans_le (min_le_right _ _)
      have := hE.near2.mom_cont H2 (F := fun y : State n => b.disp (padFin y.1) (padFin y.2) k)
        (m := fun y => (b.twAt (padFin y.1) k).inv.actM ((b.sysAt (v y) fun _ => 0).Jw k i))
        ((twAt_smooth h.tree q1 k hk).inv.mul (twAt_smooth h.tree q2 k hk))
        (fun y => disp_valid h _ _ hk)
        ((twAt_smooth h.tree q1 k hk).inv.actM (Jw_smooth (w := fun _ _ => 0) h.tree hv k i))
        (b.rb k).inertia dt (y0 := (headFin n (u s), headFin n (w s))) g2
      exact ContinuousAt.comp (f := fun s => (headFin n (u s), headFin n (w s))) this
        (((hc hu).prodMk (hc hw)).continuousAt)
    refine ⟨((hcoef (fun y => padFin y.1) q1).neg).sub (continuous_const.mul ?_),
      hcoef (fun y => padFin y.2) q2⟩
    cases g
    · simpa using continuous_const
    · simp only [if_true]
      exact (((hWs.continuous_fderiv (by simp)).comp (hc hu)).clm_apply continuous_const)

end SpatialDyn
