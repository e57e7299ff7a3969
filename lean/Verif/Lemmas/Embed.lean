import Verif.Spec.Embed
import Verif.Lemmas.Mechanics
import Verif.Lemmas.Kin

/-!
# Helper lemmas for C106: closed formulas of a robot inside another
-/

namespace SpatialDyn
open Finset Body

/-- `Body.Embeds` for what the algorithms read. -/
structure Sys.Emb (f : ℕ → ℕ) (σ τ : Sys) : Prop where
  lt : ∀ i < σ.n, f i < τ.n
  inj : Set.InjOn f (range σ.n)
  par : ∀ i < σ.n, τ.par (f i) = (σ.par i).map f
  closed : ∀ k < τ.n, ∀ i < σ.n, τ.par k = some (f i) → ∃ j < σ.n, k = f j
  S : ∀ i < σ.n, τ.S (f i) = σ.S i
  Tw : ∀ i < σ.n, τ.Tw (f i) = σ.Tw i
  tot : ∀ i < σ.n, τ.Itot (f i) = σ.Itot i
  dq : ∀ i < σ.n, τ.dq (f i) = σ.dq i
  g : τ.g = σ.g
  fr : ∀ i < σ.n, τ.fr (f i) = σ.fr i
  wf : σ.WF
  wf' : τ.WF

namespace Sys.Emb
variable {f : ℕ → ℕ} {σ τ : Sys}

theorem sum {A : Type*} [AddCommMonoid A] (h : Emb f σ τ) {F F' : ℕ → A}
    (h0 : ∀ k < τ.n, (∀ i < σ.n, k ≠ f i) → F' k = 0) (h1 : ∀ i < σ.n, F' (f i) = F i) :
    ∑ k ∈ range τ.n, F' k = ∑ k ∈ range σ.n, F k := by
  refine (Finset.sum_of_injOn f h.inj (fun i hi => ?_) (fun k hk hn => ?_) fun i hi => ?_).symm
  · exact Finset.mem_coe.2 (mem_range.2 (h.lt i (mem_range.1 (Finset.mem_coe.1 hi))))
  · refine h0 k (mem_range.1 hk) fun i hi e => hn ⟨i, ?_, e.symm⟩
    exact Finset.mem_coe.2 (mem_range.2 hi)
  · exact (h1 i (mem_range.1 hi)).symm

theorem par_lt (h : Emb f σ τ) {i p : ℕ} (hi : i < σ.n) (hp : σ.par i = some p) : p < σ.n :=
  lt_trans (h.wf.par_lt i hi p hp) hi

theorem anc_up (h : Emb f σ τ) {i k : ℕ} (hi : i < σ.n) (ha : Anc τ.par k (f i)) :
    ∃ j < σ.n, k = f j ∧ Anc σ.par j i := by
  induction i using Nat.strong_induction_on with
  | _ i ih =>
    generalize hx : f i = x at ha
    cases ha with
    | refl => exact ⟨i, hi, hx.symm, Anc.refl⟩
    | step hp ha =>
      subst hx
      rw [h.par i hi] at hp
      cases hq : σ.par i with
      | none => rw [hq] at hp; cases hp
      | some p =>
        rw [hq] at hp
        cases hp
        obtain ⟨j, hj, e, hja⟩ := ih p (h.wf.par_lt i hi p hq) (h.par_lt hi hq) ha
        exact ⟨j, hj, e, .step hq hja⟩

theorem anc_map (h : Emb f σ τ) {i j : ℕ} (hi : i < σ.n) (ha : Anc σ.par j i) :
    Anc τ.par (f j) (f i) := by
  induction ha with
  | refl => exact .refl
  | step hp _ ih =>
    refine .step ?_ (ih (h.par_lt hi hp))
    rw [h.par _ hi, hp]
    rfl

theorem anc_iff (h : Emb f σ τ) {i j : ℕ} (hi : i < σ.n) (hj : j < σ.n) :
    Anc τ.par (f j) (f i) ↔ Anc σ.par j i := by
  refine ⟨fun ha => ?_, h.anc_map hi⟩
  obtain ⟨j', hj', e, hja⟩ := h.anc_up hi ha
  rw [h.inj (Finset.mem_coe.2 (mem_range.2 hj)) (Finset.mem_coe.2 (mem_range.2 hj')) e]
  exact hja

theorem anc_down (h : Emb f σ τ) {i k : ℕ} (hi : i < σ.n) (hk : k < τ.n)
    (ha : Anc τ.par (f i) k) : ∃ j < σ.n, k = f j := by
  induction k using Nat.strong_induction_on with
  | _ k ih =>
    cases ha with
    | refl => exact ⟨i, hi, rfl⟩
    | step hp ha =>
      have hlt := h.wf'.par_lt k hk _ hp
      obtain ⟨j, hj, rfl⟩ := ih _ hlt (lt_trans hlt hk) ha
      exact h.closed k hk j hj hp

theorem jw (h : Emb f σ τ) {k j : ℕ} (hk : k < σ.n) (hj : j < σ.n) :
    τ.Jw (f k) (f j) = σ.Jw k j := by
  classical
  unfold Jw axis
  rw [h.Tw j hj, h.S j hj]
  exact if_congr (h.anc_iff hk hj) rfl rfl

theorem jw_row (h : Emb f σ τ) {k l : ℕ} (hk : k < σ.n) (hl : ∀ i < σ.n, l ≠ f i) :
    τ.Jw (f k) l = 0 := by
  classical
  unfold Jw
  rw [if_neg]
  intro ha
  obtain ⟨j, hj, e, -⟩ := h.anc_up hk ha
  exact hl j hj e

theorem jw_col (h : Emb f σ τ) {j l : ℕ} (hj : j < σ.n) (hl : l < τ.n) (hn : ∀ i < σ.n, l ≠ f i) :
    τ.Jw l (f j) = 0 := by
  classical
  unfold Jw
  rw [if_neg]
  intro ha
  obtain ⟨i, hi, e⟩ := h.anc_down hj hl ha
  exact hn i hi e

theorem iw (h : Emb f σ τ) {k : ℕ} (hk : k < σ.n) : τ.Iw (f k) = σ.Iw k := by
  funext m
  unfold Iw
  rw [h.Tw k hk, h.tot k hk]

theorem v (h : Emb f σ τ) {u u' : ℕ → ℝ} (hu : ∀ i < σ.n, u' (f i) = u i) {k : ℕ} (hk : k < σ.n) :
    τ.V u' (f k) = σ.V u k := by
  unfold V
  exact h.sum (fun l _ hl => by rw [h.jw_row hk hl, smul_zero])
    fun i hi => by rw [h.jw hk hi, hu i hi]

theorem bias (h : Emb f σ τ) {k : ℕ} (hk : k < σ.n) : τ.bias (f k) = σ.bias k := by
  unfold Sys.bias
  refine h.sum (fun l _ hl => ?_) fun i hi => ?_
  · rw [h.jw_row hk hl, Motion.crossM_zero, smul_zero]
  · rw [h.jw hk hi, h.dq i hi, h.v h.dq hi]

theorem genForce (h : Emb f σ τ) {F F' : ℕ → Force} (hF : ∀ i < σ.n, F' (f i) = F i) {i : ℕ}
    (hi : i < σ.n) : τ.genForce F' (f i) = σ.genForce F i := by
  unfold Sys.genForce
  refine h.sum (fun l hl hn => ?_) fun k hk => ?_
  · rw [h.jw_col hi hl hn, Motion.zero_dot]
  · rw [h.jw hk hi, hF k hk]

theorem mass (h : Emb f σ τ) {i j : ℕ} (hi : i < σ.n) (hj : j < σ.n) :
    τ.massSpec (f i) (f j) = σ.massSpec i j := by
  unfold massSpec
  refine h.sum (fun l hl hn => ?_) fun k hk => ?_
  · rw [h.jw_col hi hl hn, Motion.zero_dot]
  · rw [h.jw hk hi, h.jw hk hj, h.iw hk]

theorem mass_cross (h : Emb f σ τ) {i l : ℕ} (hi : i < σ.n) (hl : ∀ j < σ.n, l ≠ f j) :
    τ.massSpec (f i) l = 0 := by
  unfold massSpec
  refine (h.sum (F := fun _ => (0 : ℝ)) (fun m hm hn => ?_) fun k hk => ?_).trans (by simp)
  · rw [h.jw_col hi hm hn, Motion.zero_dot]
  · rw [h.jw_row hk hl, Iw_zero, Motion.dot_zero]

theorem coriolis (h : Emb f σ τ) {i : ℕ} (hi : i < σ.n) :
    τ.coriolisSpec (f i) = σ.coriolisSpec i :=
  h.genForce (fun k hk => by rw [h.iw hk, h.bias hk, h.v h.dq hk]) hi

theorem gravity (h : Emb f σ τ) {i : ℕ} (hi : i < σ.n) :
    τ.gravitySpec (f i) = σ.gravitySpec i :=
  h.genForce (fun k hk => by rw [h.iw hk, h.g]) hi

theorem ext (h : Emb f σ τ) {F F' : FExt} (hF : ∀ i < σ.n, F' (f i) = F i) {i : ℕ} (hi : i < σ.n) :
    τ.extSpec F' (f i) = σ.extSpec F i := by
  unfold extSpec
  rw [h.genForce (fun k hk => by rw [hF k hk]) hi]

theorem id (h : Emb f σ τ) {u u' : ℕ → ℝ} (hu : ∀ i < σ.n, u' (f i) = u i) {F F' : FExt}
    (hF : ∀ i < σ.n, F' (f i) = F i) (cc grav : Bool) {i : ℕ} (hi : i < σ.n) :
    τ.idSpec u' F' cc grav (f i) = σ.idSpec u F cc grav i := by
  unfold idSpec
  rw [h.coriolis hi, h.gravity hi, h.ext hF hi,
    h.sum (F := fun j => σ.massSpec i j * u j) (fun l _ hl => by rw [h.mass_cross hi hl, zero_mul])
      fun j hj => by rw [h.mass hi hj, hu j hj]]

theorem fdRhs (h : Emb f σ τ) {tau tau' x x' : ℕ → ℝ} (ht : ∀ i < σ.n, tau' (f i) = tau i)
    (hx : ∀ i < σ.n, x' (f i) = x i) (o : FDOpts) {i : ℕ} (hi : i < σ.n) :
    τ.fdRhs tau' x' o (f i) = σ.fdRhs tau x o i := by
  unfold Sys.fdRhs Sys.friction
  cases o.friction <;> simp [ht i hi, hx i hi, h.dq i hi, h.fr i hi]

/-- The rows of the larger system that belong to the smaller one only see its unknowns. -/
theorem rows (h : Emb f σ τ) {x' : ℕ → ℝ} {i : ℕ} (hi : i < σ.n) :
    ∑ j ∈ range τ.n, τ.massSpec (f i) j * x' j = ∑ j ∈ range σ.n, σ.massSpec i j * x' (f j) :=
  h.sum (fun l _ hl => by rw [h.mass_cross hi hl, zero_mul]) fun j hj => by rw [h.mass hi hj]

end Sys.Emb

namespace Body
variable {E : Ext} {b b' : Body} {f : ℕ → ℕ}

theorem Embeds.par_eq (h : Embeds f b b') {i : ℕ} (hi : i < b.dof) :
    b'.par (f i) = (b.par i).map f := by
  cases hp : b.par i with
  | none => exact par_eq_none.2 (h.root i hi (par_eq_none.1 hp))
  | some p => exact par_eq_some.2 (h.parent i hi p (par_eq_some.1 hp))

theorem Embeds.freshTp_eq (h : Embeds f b b') {i : ℕ} (hi : i < b.dof) :
    b'.freshTp (f i) = b.freshTp i := by
  unfold freshTp TpAt
  rw [h.q i hi, h.pose i hi, h.joint i hi]

theorem Embeds.freshTw_eq (h : Embeds f b b') (ht : b.Tree) (ht' : b'.Tree) {i : ℕ}
    (hi : i < b.dof) : b'.freshTw (f i) = b.freshTw i := by
  induction i using Nat.strong_induction_on with
  | _ i ih =>
    unfold freshTw
    rw [worldLoop_spec ht.parLt _ _ _ i hi, worldLoop_spec ht'.parLt _ _ _ (f i) (h.lt i hi),
      h.par_eq hi, h.freshTp_eq hi]
    cases hp : b.par i with
    | none => exact congrArg (· * b.freshTp i) h.T0
    | some p =>
      have hlt := ht.parLt i hi p hp
      show b'.freshTw (f p) * _ = b.freshTw p * _
      rw [ih p hlt (lt_trans hlt hi)]

theorem Embeds.emb (h : Embeds f b b') (hi : Inv E b) (hi' : Inv E b') : b.fresh.Emb f b'.fresh where
  lt := h.lt
  inj := fun i hi j hj e => h.inj i (mem_range.1 (Finset.mem_coe.1 hi)) j
    (mem_range.1 (Finset.mem_coe.1 hj)) e
  par i hi := h.par_eq hi
  closed k hk i hi e := h.closed k hk i hi (par_eq_some.1 e)
  S i hi := congrArg Joint.subspace (h.joint i hi)
  Tw i hx := by
    rw [fresh_Tw (h.lt i hx), fresh_Tw hx, h.freshTw_eq hi.tree hi'.tree hx]
  tot i hi := h.total i hi
  dq i hi := h.dq i hi
  g := congrArg (fun g : Vec3 => (⟨g, 0⟩ : Motion)) h.g
  fr i hi := congrArg fric (h.joint i hi)
  wf := hi.wf
  wf' := hi'.wf

end Body
end SpatialDyn
