import Verif.Spec.Mechanics
import Verif.Lemmas.Kin
import Verif.Lemmas.Positive
import Verif.Lemmas.Transparent

/-! The world-frame system of a body in terms of `Verif.Spec.Mechanics`. -/

namespace SpatialDyn
open Finset

namespace Body
variable {b : Body} {E : Ext}

theorem linkVel_exists (ht : b.Tree) (w : ℕ → ℝ) (k : ℕ) (hk : k < b.dof) :
    ∃ v, b.LinkVel w k v := by
  induction k using Nat.strong_induction_on with
  | _ k ih =>
    obtain ⟨-, h1, h2⟩ := ht.ids k hk
    by_cases hr : (b.rb k).idParent < 0
    · exact ⟨_, .root hr⟩
    · obtain ⟨p, hp⟩ : ∃ p : ℕ, (b.rb k).idParent = p := ⟨(b.rb k).idParent.toNat, by omega⟩
      obtain ⟨v, hv⟩ := ih p (by omega) (by omega)
      exact ⟨_, .link hp hv⟩

theorem linkAcc_exists (ht : b.Tree) (cc : Bool) (A0 : Motion) (a : ℕ → ℝ) (k : ℕ)
    (hk : k < b.dof) : ∃ c, b.LinkAcc cc A0 a k c := by
  induction k using Nat.strong_induction_on with
  | _ k ih =>
    obtain ⟨-, h1, h2⟩ := ht.ids k hk
    by_cases hr : (b.rb k).idParent < 0
    · obtain ⟨X, hX⟩ := linkPose_exists ht b.pos k hk
      exact ⟨_, .root hr hX⟩
    · obtain ⟨p, hp⟩ : ∃ p : ℕ, (b.rb k).idParent = p := ⟨(b.rb k).idParent.toNat, by omega⟩
      obtain ⟨c, hc⟩ := ih p (by omega) (by omega)
      obtain ⟨v, hv⟩ := linkVel_exists ht b.vel k hk
      exact ⟨_, .link hp hc hv⟩

theorem fresh_axis {i : ℕ} (hi : i < b.dof) :
    b.fresh.axis i = (b.freshTw i).actM (b.rb i).joint.subspace := by
  unfold Sys.axis; rw [fresh_Tw hi]; rfl

theorem LinkVel.world (h : Inv E b) {w : ℕ → ℝ} {k : ℕ} {v : Motion} (hv : b.LinkVel w k v)
    (hk : k < b.dof) : (b.freshTw k).actM v = b.fresh.V w k := by
  have hw := h.wf
  induction hv with
  | @root i hr =>
    rw [Sys.V_rec hw w hk, show b.fresh.par i = none from par_none.2 hr]
    simp only [Iso.actM_smul, zero_add]
    rw [fresh_axis hk]
  | @link i p v hp _ ih =>
    have hpar : b.fresh.par i = some p := par_eq_some.2 hp
    have hlt := h.tree.parLt i hk p hpar
    have := hw.actM_rec hk hpar v
    rw [fresh_Tw hk, fresh_Tw (show p < b.dof by omega), fresh_Tp hk] at this
    rw [Sys.V_rec hw w hk, hpar]
    simp only [Iso.actM_add, Iso.actM_smul]
    rw [← ih (by omega), ← this, fresh_axis hk]; rfl

theorem bias_rec (h : Inv E b) {k : ℕ} (hk : k < b.dof) : b.fresh.bias k =
    match b.fresh.par k with
    | none => 0
    | some p => b.fresh.bias p + b.vel k • (b.fresh.V b.vel k).crossM (b.fresh.axis k) := by
  classical
  have hw := h.wf
  have e : ∀ k, b.fresh.bias k = ∑ j ∈ range b.fresh.n, if Anc b.fresh.par j k then
      b.vel j • (b.fresh.V b.vel j).crossM (b.fresh.axis j) else 0 := by
    intro k
    unfold Sys.bias
    refine sum_congr rfl fun j _ => ?_
    unfold Sys.Jw
    show b.vel j • (b.fresh.V b.vel j).crossM _ = _
    split <;> simp
  cases hpar : b.fresh.par k with
  | none =>
    rw [e, sum_anc_root (show k < b.fresh.n from hk) hpar]
    have : b.fresh.V b.vel k = b.vel k • b.fresh.axis k := by
      rw [Sys.V_rec hw b.vel hk, hpar]; simp
    rw [this, Motion.smul_crossM, Motion.crossM_self, smul_zero, smul_zero]
  | some p =>
    rw [e, sum_anc_step hw.par_lt (show k < b.fresh.n from hk) hpar, ← e]

theorem LinkAcc.world (h : Inv E b) {cc : Bool} {A0 : Motion} {a : ℕ → ℝ} {k : ℕ} {c : Motion}
    (hc : b.LinkAcc cc A0 a k c) (hk : k < b.dof) : (b.freshTw k).actM c =
      A0 + b.fresh.V a k + (if cc then b.fresh.bias k else 0) := by
  have hw := h.wf
  induction hc with
  | @root i X hr hX =>
    have hv : (b.freshTw i).Valid := by
      have := hw.Tw_valid i hk; rwa [fresh_Tw hk] at this
    rw [Sys.V_rec hw a hk, bias_rec h hk, show b.fresh.par i = none from par_none.2 hr,
      ← hX.freshTw h.tree hk]
    simp only [Iso.actM_add, Iso.actM_smul, zero_add, ite_self, add_zero]
    rw [hv.actM_inv, fresh_axis hk]
  | @link i p c v hp _ hv ih =>
    have hpar : b.fresh.par i = some p := par_eq_some.2 hp
    have hlt := h.tree.parLt i hk p hpar
    have hT : (b.freshTw i).Valid := by
      have := hw.Tw_valid i hk; rwa [fresh_Tw hk] at this
    have := hw.actM_rec hk hpar c
    rw [fresh_Tw hk, fresh_Tw (show p < b.dof by omega), fresh_Tp hk] at this
    have ih := ih (by omega)
    rw [← this] at ih
    have hvw := hv.world h hk
    rw [Sys.V_rec hw a hk, bias_rec h hk, hpar]
    simp only [Iso.actM_add, Iso.actM_smul]
    have e1 : (b.freshTw i).actM (((b.rb i).T * (b.rb i).joint.type.Tjoint (b.pos i)).inv.actM c) =
        A0 + b.fresh.V a p + (if cc then b.fresh.bias p else 0) := ih
    rw [e1, fresh_axis hk]
    cases cc with
    | false => simp; abel
    | true =>
      simp only [if_true]
      rw [hT.actM_crossM, hvw, Iso.actM_smul, Motion.crossM_smul, ← fresh_axis hk]
      abel

/-! ## Inertias -/

theorem Massive.itot_app (hm : b.Massive) {k : ℕ} (hk : k < b.dof) (m : Motion) :
    (b.fresh.Itot k).app m = b.linkMomentum k m := by
  have h2 := hm.merge k hk
  unfold Sys.Itot linkMomentum parts
  unfold linkMass parts at h2
  show (match b.load k with
    | none => (b.rb k).inertia
    | some L => (b.rb k).inertia.add L).app m = _
  cases hl : b.load k with
  | none => simp
  | some L =>
    rw [hl] at h2
    have h3 := h2 rfl
    simp only [Option.toList_some, List.map_cons, List.map_nil, List.sum_cons, List.sum_nil,
      add_zero] at h3 ⊢
    exact Inertia.add_app _ _ h3.ne' m

theorem itot_mass {k : ℕ} : (b.fresh.Itot k).mass = b.linkMass k := by
  unfold Sys.Itot linkMass parts
  show (match b.load k with
    | none => (b.rb k).inertia
    | some L => (b.rb k).inertia.add L).mass = _
  cases hl : b.load k with
  | none => simp
  | some L => simp [Inertia.add]

theorem Massive.symI (hm : b.Massive) : b.fresh.SymI := by
  intro k hk
  have h2 := hm.symm k hk
  unfold parts at h2
  unfold Sys.Itot
  show (match b.load k with
    | none => (b.rb k).inertia
    | some L => (b.rb k).inertia.add L).Icom.IsSymm
  cases hl : b.load k with
  | none => exact h2 _ (List.mem_cons_self ..)
  | some L =>
    rw [hl] at h2
    exact Inertia.add_symm _ _ (h2 _ (List.mem_cons_self ..)) (h2 _ (by simp))

theorem Massive.linkMass_nonneg (hm : b.Massive) {k : ℕ} (hk : k < b.dof) : 0 ≤ b.linkMass k := by
  unfold linkMass
  refine List.sum_nonneg fun x hx => ?_
  obtain ⟨I, hI, rfl⟩ := List.mem_map.1 hx
  exact hm.nonneg k hk I hI

theorem Tree.sum_sub (ht : b.Tree) {k : ℕ} (hk : k < b.dof) {α : Type*} [AddCommMonoid α]
    (f : ℕ → α) [∀ l, Decidable (Anc b.par k l)] : ((b.sub.getD k []).map f).sum =
      ∑ l ∈ range b.dof, if Anc b.par k l then f l else 0 := by
  classical
  have hnd : (b.sub.getD k []).Nodup := (ht.sub_sorted k hk).imp (fun h => ne_of_lt h)
  rw [← List.sum_toFinset f hnd, ← Finset.sum_filter]
  refine Finset.sum_congr ?_ fun _ _ => rfl
  ext l
  rw [List.mem_toFinset, ht.sub_mem k hk, Finset.mem_filter, mem_range]

theorem Massive.posMass (hm : b.Massive) (ht : b.Tree) : b.fresh.PosMass := by
  classical
  refine ⟨fun k hk => ?_, fun k hk hp => ?_⟩
  · rw [itot_mass]; exact hm.linkMass_nonneg hk
  · unfold Sys.subMass
    obtain ⟨p, hp⟩ := Option.isSome_iff_exists.1 hp
    have hid := par_eq_some.1 (show b.par k = some p from hp)
    have h1 := hm.tree k hk (by rw [hid]; omega)
    rw [ht.sum_sub hk] at h1
    simp only [itot_mass]
    exact h1

theorem Massive.Iw_eq (hm : b.Massive) {k : ℕ} (hk : k < b.dof) (m : Motion) :
    b.fresh.Iw k m = (b.freshTw k).actF (b.linkMomentum k ((b.freshTw k).inv.actM m)) := by
  unfold Sys.Iw
  rw [fresh_Tw hk, hm.itot_app hk]

theorem actF_list_sum (T : Iso) (l : List Force) : T.actF l.sum = (l.map T.actF).sum := by
  induction l with
  | nil => simp
  | cons a l ih => rw [List.sum_cons, Iso.actF_add, ih, List.map_cons, List.sum_cons]

theorem dot_list_sum (m : Motion) (l : List Force) : m.dot l.sum = (l.map m.dot).sum := by
  induction l with
  | nil => simp
  | cons a l ih => rw [List.sum_cons, Motion.dot_add, ih, List.map_cons, List.sum_cons]

/-- Kinetic energy of one inertia carried by a frame `T` moving with velocity `m`. -/
theorem kinetic_part {T : Iso} (hT : T.Valid) (I : Inertia) (m : Motion) :
    m.dot (T.actF (I.app (T.inv.actM m))) =
      twiceKinetic I T.R (m.atPoint (T.app I.com)).lin m.ang := by
  rw [hT.dot_actF, Inertia.dot_app_self]
  unfold twiceKinetic
  have e1 : (T.inv.actM m).ang = T.R.T.mulVec m.ang := rfl
  have hR : ∀ v w : Vec3, (T.R.T.mulVec v).dot (T.R.T.mulVec w) = v.dot w := fun v w =>
    Mat3.IsRot.dot hT.T v w
  have hc : ∀ v w : Vec3, T.R.T.mulVec (v.cross w) = (T.R.T.mulVec v).cross (T.R.T.mulVec w) :=
    fun v w => (Mat3.IsRot.cross hT.T v w).symm
  have hcom : T.R.T.mulVec (T.R.mulVec I.com) = I.com :=
    Mat3.IsRot.T_mulVec hT I.com
  have e2 : (T.inv.actM m).lin + (T.inv.actM m).ang.cross I.com =
      T.R.T.mulVec (m.atPoint (T.app I.com)).lin := by
    simp only [Iso.actM, Iso.inv_R, Iso.inv_t, Motion.atPoint, Iso.app, Mat3.mulVec_add, hc, hcom,
      Vec3.cross_neg, Vec3.cross_add]
    abel
  rw [e1] at e2 ⊢
  rw [e2, hR]

/-- Kinetic energy of a link. -/
theorem Massive.energy (hm : b.Massive) (h : Inv E b) {k : ℕ} (hk : k < b.dof) (m : Motion) :
    m.dot (b.fresh.Iw k m) = ((b.parts k).map fun I =>
      twiceKinetic I (b.freshTw k).R (m.atPoint ((b.freshTw k).app I.com)).lin m.ang).sum := by
  have hT : (b.freshTw k).Valid := by
    have := h.wf.Tw_valid k hk; rwa [fresh_Tw hk] at this
  rw [hm.Iw_eq hk]
  unfold linkMomentum
  rw [actF_list_sum, dot_list_sum, List.map_map, List.map_map]
  congr 1
  exact List.map_congr_left fun I _ => kinetic_part hT I m

/-- Power of a uniform acceleration field on one inertia. -/
theorem weight_part {T : Iso} (hT : T.Valid) (I : Inertia) (m : Motion) (g : Vec3) :
    m.dot (T.actF (I.app (T.inv.actM ⟨g, 0⟩))) =
      I.mass * g.dot (m.atPoint (T.app I.com)).lin := by
  rw [hT.dot_actF]
  have hR : ∀ v w : Vec3, (T.R.T.mulVec v).dot (T.R.T.mulVec w) = v.dot w := fun v w =>
    Mat3.IsRot.dot hT.T v w
  have hc : ∀ v w : Vec3, T.R.T.mulVec (v.cross w) = (T.R.T.mulVec v).cross (T.R.T.mulVec w) :=
    fun v w => (Mat3.IsRot.cross hT.T v w).symm
  have hcom : T.R.T.mulVec (T.R.mulVec I.com) = I.com :=
    Mat3.IsRot.T_mulVec hT I.com
  have e1 : (T.inv.actM m).ang = T.R.T.mulVec m.ang := rfl
  have e2 : (T.inv.actM m).lin + (T.inv.actM m).ang.cross I.com =
      T.R.T.mulVec (m.atPoint (T.app I.com)).lin := by
    simp only [Iso.actM, Iso.inv_R, Iso.inv_t, Motion.atPoint, Iso.app, Mat3.mulVec_add, hc, hcom,
      Vec3.cross_neg, Vec3.cross_add]
    abel
  have e3 : T.inv.actM ⟨g, 0⟩ = ⟨T.R.T.mulVec g, 0⟩ := by
    ext <;> simp [Iso.actM]
  rw [← hR, ← e2, e3]
  generalize T.inv.actM m = n
  generalize T.R.T.mulVec g = g'
  simp [Inertia.app, Motion.dot, Vec3.dot, Vec3.cross]
  ring

theorem Massive.weight (hm : b.Massive) (h : Inv E b) {k : ℕ} (hk : k < b.dof) (m : Motion)
    (g : Vec3) : m.dot (b.fresh.Iw k ⟨g, 0⟩) = ((b.parts k).map fun I =>
      I.mass * g.dot (m.atPoint ((b.freshTw k).app I.com)).lin).sum := by
  have hT : (b.freshTw k).Valid := by
    have := h.wf.Tw_valid k hk; rwa [fresh_Tw hk] at this
  rw [hm.Iw_eq hk]
  unfold linkMomentum
  rw [actF_list_sum, dot_list_sum, List.map_map, List.map_map]
  congr 1
  exact List.map_congr_left fun I _ => weight_part hT I m g

end Body
end SpatialDyn
