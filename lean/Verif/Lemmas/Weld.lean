import Verif.Spec.Weld
import Verif.Lemmas.Mechanics
import Verif.Lemmas.Kin

/-!
# Helper lemmas for C133: closed formulas of a robot with welded links
-/

namespace SpatialDyn
open Finset
namespace Body

variable {E : Ext} {w b : Body} {f : ℕ → ℕ} {c : ℕ → Option ℕ} {Z : ℕ → Iso}

/-- Pose of a link, or of the base. -/
noncomputable def topTw (b : Body) (o : Option ℕ) : Iso := o.elim b.T0 b.freshTw

theorem freshTw_top (ht : b.Tree) {i : ℕ} (hi : i < b.dof) :
    b.freshTw i = b.topTw (b.par i) * b.freshTp i := by
  conv_lhs => unfold freshTw
  rw [worldLoop_spec ht.parLt _ _ _ i hi]
  cases b.par i <;> rfl

namespace Welds

theorem inj (h : Welds f c Z w b) {i j : ℕ} (hi : i < b.dof) (hj : j < b.dof) (e : f i = f j) :
    i = j := by
  have := (h.own i hi).1
  rw [e, (h.own j hj).1] at this
  exact (Option.some.inj this).symm

theorem split (b : Body) (f : ℕ → ℕ) (k : ℕ) :
    (∃ i < b.dof, k = f i) ∨ ∀ i < b.dof, k ≠ f i := by
  by_cases hk : ∃ i < b.dof, k = f i
  · exact .inl hk
  · push Not at hk
    exact .inr hk

theorem carrier_lt (h : Welds f c Z w b) (hw : w.Tree) {k i : ℕ} (hk : k < w.dof)
    (hc : c k = some i) : i < b.dof := by
  induction k using Nat.strong_induction_on with
  | _ k ih =>
    rcases split b f k with ⟨j, hj, rfl⟩ | hn
    · rw [(h.own j hj).1] at hc
      cases hc
      exact hj
    · rw [h.carrier k hk hn] at hc
      obtain ⟨p, hp, hc⟩ := Option.bind_eq_some_iff.1 hc
      have hlt := hw.parLt k hk p hp
      exact ih p hlt (hlt.trans hk) hc

theorem tw (h : Welds f c Z w b) (hw : w.Tree) (hb : b.Tree) {k : ℕ} (hk : k < w.dof) :
    w.freshTw k = b.topTw (c k) * Z k := by
  induction k using Nat.strong_induction_on with
  | _ k ih =>
    have hpar : w.topTw (w.par k) = b.topTw ((w.par k).bind c) * seat Z w k := by
      unfold seat
      cases hp : w.par k with
      | none => show w.T0 = b.T0 * 1; rw [h.T0, mul_one]
      | some p =>
        have hlt := hw.parLt k hk p hp
        exact ih p hlt (hlt.trans hk)
    rw [freshTw_top hw hk, hpar]
    rcases split b f k with ⟨i, hi, rfl⟩ | hn
    · rw [(h.own i hi).1, (h.own i hi).2, mul_one]
      show _ = b.freshTw i
      rw [freshTw_top hb hi, h.parent i hi]
      unfold freshTp TpAt
      rw [h.pose i hi, h.joint i hi, h.q i hi]
      simp only [mul_assoc]
    · rw [h.carrier k hk hn, h.weld k hk hn]
      unfold freshTp TpAt
      rw [(h.fixed k hk hn).1]
      show _ * _ * (_ * 1) = _
      rw [mul_one, mul_assoc]

theorem z_valid (h : Welds f c Z w b) (hw : Inv E w) {k : ℕ} (hk : k < w.dof) : (Z k).Valid := by
  induction k using Nat.strong_induction_on with
  | _ k ih =>
    rcases split b f k with ⟨i, hi, rfl⟩ | hn
    · rw [(h.own i hi).2]; exact Iso.valid_one
    · rw [h.weld k hk hn]
      refine Iso.Valid.mul ?_ (hw.rigid.link k hk)
      unfold seat
      cases hp : w.par k with
      | none => exact Iso.valid_one
      | some p =>
        have hlt := hw.tree.parLt k hk p hp
        exact ih p hlt (hlt.trans hk)

theorem anc (h : Welds f c Z w b) (hw : w.Tree) {i k : ℕ} (hi : i < b.dof)
    (hk : k < w.dof) : Anc w.par (f i) k ↔ ∃ m, c k = some m ∧ Anc b.par i m := by
  induction k using Nat.strong_induction_on with
  | _ k ih =>
    have key : (∃ p, w.par k = some p ∧ Anc w.par (f i) p) ↔
        ∃ m, (w.par k).bind c = some m ∧ Anc b.par i m := by
      cases hp : w.par k with
      | none => simp
      | some p =>
        have hlt := hw.parLt k hk p hp
        have := ih p hlt (hlt.trans hk)
        simpa using this
    have key2 : ∀ {par : ℕ → Option ℕ} {j k : ℕ}, Anc par j k ↔
        j = k ∨ ∃ p, par k = some p ∧ Anc par j p := by
      intro par j k
      cases hp : par k with
      | none => rw [anc_root hp]; simp
      | some p => rw [anc_step hp]; simp
    rw [key2, key]
    rcases split b f k with ⟨m, hm, rfl⟩ | hn
    · rw [(h.own m hm).1, ← h.parent m hm]
      constructor
      · rintro (e | ⟨p, hp, ha⟩)
        · exact ⟨m, rfl, key2.2 (.inl (h.inj hi hm e))⟩
        · exact ⟨m, rfl, key2.2 (.inr ⟨p, hp, ha⟩)⟩
      · rintro ⟨m', e, ha⟩
        cases e
        rcases key2.1 ha with e | ⟨p, hp, ha⟩
        · exact .inl (by rw [e])
        · exact .inr ⟨p, hp, ha⟩
    · rw [h.carrier k hk hn]
      constructor
      · rintro (e | h1)
        · exact absurd e.symm (hn i hi)
        · exact h1
      · exact .inr

/-- Value at the carrier of a link; zero on the base. -/
def at0 {A : Type*} [Zero A] (o : Option ℕ) (F : ℕ → A) : A := o.elim 0 F

theorem jw (h : Welds f c Z w b) (hw : Inv E w) (hb : Inv E b) {k j : ℕ} (hk : k < w.dof)
    (hj : j < b.dof) : w.fresh.Jw k (f j) = at0 (c k) fun m => b.fresh.Jw m j := by
  classical
  have hax : w.fresh.axis (f j) = b.fresh.axis j := by
    unfold Sys.axis
    rw [fresh_Tw (h.lt j hj), fresh_Tw hj, h.tw hw.tree hb.tree (h.lt j hj), (h.own j hj).1,
      (h.own j hj).2, mul_one]
    show (b.freshTw j).actM (w.rb (f j)).joint.subspace = (b.freshTw j).actM (b.rb j).joint.subspace
    rw [h.joint j hj]
  have ha := h.anc hw.tree hj hk
  unfold Sys.Jw at0
  rw [hax]
  cases hc : c k with
  | none =>
    rw [hc] at ha
    rw [if_neg]
    · rfl
    · exact fun h1 => by obtain ⟨m, e, -⟩ := ha.1 h1; cases e
  | some m =>
    rw [hc] at ha
    refine if_congr (ha.trans ⟨?_, fun h1 => ⟨m, rfl, h1⟩⟩) rfl rfl
    rintro ⟨m', e, h1⟩
    cases e
    exact h1

theorem jw_fixed (h : Welds f c Z w b) {k l : ℕ} (hl : l < w.dof) (hn : ∀ i < b.dof, l ≠ f i) :
    w.fresh.Jw k l = 0 := by
  unfold Sys.Jw Sys.axis
  rw [show w.fresh.S l = 0 from (h.fixed l hl hn).2]
  split
  · ext <;> simp [Iso.actM]
  · rfl

/-- Sums over the joints of `w` of terms that vanish at fixed joints. -/
theorem sum_own {A : Type*} [AddCommMonoid A] (h : Welds f c Z w b) {F' F : ℕ → A}
    (h0 : ∀ k < w.dof, (∀ i < b.dof, k ≠ f i) → F' k = 0) (h1 : ∀ i < b.dof, F' (f i) = F i) :
    ∑ k ∈ range w.dof, F' k = ∑ i ∈ range b.dof, F i := by
  refine (Finset.sum_of_injOn f ?_ (fun i hi => ?_) (fun k hk hn => ?_) fun i hi => ?_).symm
  · intro i hi j hj e
    exact h.inj (mem_range.1 (Finset.mem_coe.1 hi)) (mem_range.1 (Finset.mem_coe.1 hj)) e
  · exact Finset.mem_coe.2 (mem_range.2 (h.lt i (mem_range.1 (Finset.mem_coe.1 hi))))
  · refine h0 k (mem_range.1 hk) fun i hi e => hn ⟨i, ?_, e.symm⟩
    exact Finset.mem_coe.2 (mem_range.2 hi)
  · exact (h1 i (mem_range.1 hi)).symm

/-- Sums over the links of `w`, link by link of `b`. -/
theorem sum_parts {A : Type*} [AddCommMonoid A] (h : Welds f c Z w b) (hw : w.Tree) {F' : ℕ → A}
    (h0 : ∀ k < w.dof, c k = none → F' k = 0) :
    ∑ k ∈ range w.dof, F' k = ∑ i ∈ range b.dof, ∑ k ∈ range w.dof with c k = some i, F' k := by
  classical
  simp only [sum_filter]
  rw [sum_comm]
  refine sum_congr rfl fun k hk => ?_
  have hk := mem_range.1 hk
  cases hc : c k with
  | none => rw [h0 k hk hc]; simp
  | some m =>
    rw [sum_eq_single m]
    · simp
    · intro i _ hne
      rw [if_neg]
      exact fun e => hne (Option.some.inj e).symm
    · exact fun hn => absurd (mem_range.2 (h.carrier_lt hw hk hc)) hn

theorem iw (h : Welds f c Z w b) (hw : Inv E w) (hb : Inv E b) (hmw : w.Massive) (hmb : b.Massive)
    {i : ℕ} (hi : i < b.dof) (v : Motion) :
    b.fresh.Iw i v = ∑ k ∈ range w.dof with c k = some i, w.fresh.Iw k v := by
  rw [hmb.Iw_eq hi, h.momentum i hi, Iso.actF_sum]
  have hv : (b.freshTw i).Valid := by rw [← fresh_Tw hi]; exact hb.wf.Tw_valid i hi
  refine sum_congr rfl fun k hk => ?_
  obtain ⟨hk, hc⟩ := mem_filter.1 hk
  have hk := mem_range.1 hk
  have hz := h.z_valid hw hk
  rw [hmw.Iw_eq hk, h.tw hw.tree hb.tree hk, hc]
  show _ = (b.freshTw i * Z k).actF (w.linkMomentum k ((b.freshTw i * Z k).inv.actM v))
  rw [Iso.actF_mul _ _ hv, Iso.inv_mul_rev hv hz, Iso.actM_mul _ _ hz.inv]

theorem v (h : Welds f c Z w b) (hw : Inv E w) (hb : Inv E b) {u u' : ℕ → ℝ}
    (hu : ∀ i < b.dof, u' (f i) = u i) {k : ℕ} (hk : k < w.dof) :
    w.fresh.V u' k = at0 (c k) (b.fresh.V u) := by
  unfold Sys.V
  refine (h.sum_own (F := fun i => u i • at0 (c k) fun m => b.fresh.Jw m i)
    (fun l hl hn => by rw [h.jw_fixed hl hn, smul_zero])
    fun i hi => by rw [h.jw hw hb hk hi, hu i hi]).trans ?_
  cases c k with
  | none => simp [at0]
  | some m => rfl

theorem bias (h : Welds f c Z w b) (hw : Inv E w) (hb : Inv E b) {k : ℕ} (hk : k < w.dof) :
    w.fresh.bias k = at0 (c k) b.fresh.bias := by
  unfold Sys.bias
  refine (h.sum_own (F := fun i => b.fresh.dq i • (b.fresh.V b.fresh.dq i).crossM
    (at0 (c k) fun m => b.fresh.Jw m i))
    (fun l hl hn => by rw [h.jw_fixed hl hn, Motion.crossM_zero, smul_zero]) fun i hi => ?_).trans ?_
  · rw [h.jw hw hb hk hi, h.v hw hb (u := b.fresh.dq) (fun i hi => (h.dq i hi).symm) (h.lt i hi),
      (h.own i hi).1]
    show w.dq.getD (f i) 0 • _ = b.dq.getD i 0 • _
    rw [h.dq i hi]
    rfl
  · cases c k with
    | none => simp [at0]
    | some m => rfl

/-- Forces on the links of `w` act on the joints as their sums on the links of `b`. -/
theorem genForce (h : Welds f c Z w b) (hw : Inv E w) (hb : Inv E b) {F' F : ℕ → Force}
    (hF : ∀ i < b.dof, F i = ∑ k ∈ range w.dof with c k = some i, F' k) {i : ℕ} (hi : i < b.dof) :
    w.fresh.genForce F' (f i) = b.fresh.genForce F i := by
  unfold Sys.genForce
  refine (h.sum_parts hw.tree fun k hk hc => ?_).trans (sum_congr rfl fun m hm => ?_)
  · rw [h.jw hw hb hk hi, hc]
    exact Motion.zero_dot _
  · rw [hF m (mem_range.1 hm), Motion.dot_sum]
    refine sum_congr rfl fun k hk => ?_
    obtain ⟨hk, hc⟩ := mem_filter.1 hk
    rw [h.jw hw hb (mem_range.1 hk) hi, hc]
    rfl

theorem genForce_fixed (h : Welds f c Z w b) {F' : ℕ → Force} {l : ℕ} (hl : l < w.dof)
    (hn : ∀ i < b.dof, l ≠ f i) : w.fresh.genForce F' l = 0 :=
  sum_eq_zero fun k _ => by rw [h.jw_fixed hl hn, Motion.zero_dot]

theorem mass_eq (σ : Sys) (i j : ℕ) : σ.massSpec i j = σ.genForce (fun k => σ.Iw k (σ.Jw k j)) i := rfl

theorem mass (h : Welds f c Z w b) (hw : Inv E w) (hb : Inv E b) (hmw : w.Massive) (hmb : b.Massive)
    {i j : ℕ} (hi : i < b.dof) (hj : j < b.dof) :
    w.fresh.massSpec (f i) (f j) = b.fresh.massSpec i j := by
  rw [mass_eq, mass_eq]
  refine h.genForce hw hb (fun m hm => ?_) hi
  rw [h.iw hw hb hmw hmb hm]
  refine sum_congr rfl fun k hk => ?_
  obtain ⟨hk, hc⟩ := mem_filter.1 hk
  rw [h.jw hw hb (mem_range.1 hk) hj, hc]
  rfl

theorem mass_fixed (h : Welds f c Z w b) {i l : ℕ} (hl : l < w.dof) (hn : ∀ i < b.dof, l ≠ f i) :
    w.fresh.massSpec i l = 0 ∧ w.fresh.massSpec l i = 0 :=
  ⟨sum_eq_zero fun k _ => by rw [h.jw_fixed hl hn, Sys.Iw_zero, Motion.dot_zero],
    h.genForce_fixed hl hn⟩

theorem coriolis (h : Welds f c Z w b) (hw : Inv E w) (hb : Inv E b) (hmw : w.Massive)
    (hmb : b.Massive) {i : ℕ} (hi : i < b.dof) :
    w.fresh.coriolisSpec (f i) = b.fresh.coriolisSpec i := by
  refine h.genForce hw hb (fun m hm => ?_) hi
  have hcs : ∀ (v : Motion) (s : Finset ℕ) (F : ℕ → Force),
      v.crossF (∑ k ∈ s, F k) = ∑ k ∈ s, v.crossF (F k) := by
    classical
    intro v s F
    induction s using Finset.induction_on with
    | empty => simp
    | insert a s ha ih => rw [sum_insert ha, sum_insert ha, Motion.crossF_add, ih]
  rw [h.iw hw hb hmw hmb hm, h.iw hw hb hmw hmb hm, hcs, ← sum_add_distrib]
  refine sum_congr rfl fun k hk => ?_
  obtain ⟨hk, hc⟩ := mem_filter.1 hk
  have hk := mem_range.1 hk
  rw [h.bias hw hb hk, h.v hw hb (u := b.fresh.dq) (fun i hi => (h.dq i hi).symm) hk, hc]
  rfl

theorem gravity (h : Welds f c Z w b) (hw : Inv E w) (hb : Inv E b) (hmw : w.Massive)
    (hmb : b.Massive) {i : ℕ} (hi : i < b.dof) :
    w.fresh.gravitySpec (f i) = b.fresh.gravitySpec i := by
  refine h.genForce hw hb (fun m hm => ?_) hi
  rw [h.iw hw hb hmw hmb hm]
  show ∑ k ∈ _, w.fresh.Iw k (-⟨b.g, 0⟩) = ∑ k ∈ _, w.fresh.Iw k (-⟨w.g, 0⟩)
  rw [h.g]

theorem ext (h : Welds f c Z w b) (hw : Inv E w) (hb : Inv E b) {F F' : FExt}
    (hF : ∀ i < b.dof, (F i).getD 0 = ∑ k ∈ range w.dof with c k = some i, (F' k).getD 0) {i : ℕ}
    (hi : i < b.dof) : w.fresh.extSpec F' (f i) = b.fresh.extSpec F i := by
  unfold Sys.extSpec
  rw [h.genForce hw hb hF hi]

theorem id (h : Welds f c Z w b) (hw : Inv E w) (hb : Inv E b) (hmw : w.Massive)
    (hmb : b.Massive) {u u' : ℕ → ℝ} (hu : ∀ i < b.dof, u' (f i) = u i) {F F' : FExt}
    (hF : ∀ i < b.dof, (F i).getD 0 = ∑ k ∈ range w.dof with c k = some i, (F' k).getD 0)
    (cc grav : Bool) {i : ℕ} (hi : i < b.dof) :
    w.fresh.idSpec u' F' cc grav (f i) = b.fresh.idSpec u F cc grav i := by
  unfold Sys.idSpec
  rw [h.coriolis hw hb hmw hmb hi, h.gravity hw hb hmw hmb hi, h.ext hw hb hF hi]
  have e : ∑ j ∈ range w.fresh.n, w.fresh.massSpec (f i) j * u' j =
      ∑ j ∈ range b.fresh.n, b.fresh.massSpec i j * u j :=
    h.sum_own (fun l hl hn => by rw [(h.mass_fixed hl hn).1, zero_mul])
      fun j hj => by rw [h.mass hw hb hmw hmb hi hj, hu j hj]
  rw [e]

theorem id_fixed (h : Welds f c Z w b) (u' : ℕ → ℝ) (F' : FExt) (cc grav : Bool) {l : ℕ}
    (hl : l < w.dof) (hn : ∀ i < b.dof, l ≠ f i) : w.fresh.idSpec u' F' cc grav l = 0 := by
  unfold Sys.idSpec Sys.coriolisSpec Sys.gravitySpec Sys.extSpec
  rw [h.genForce_fixed hl hn, h.genForce_fixed hl hn, h.genForce_fixed hl hn]
  simp [(h.mass_fixed hl hn).2]

end Welds
end Body
end SpatialDyn
