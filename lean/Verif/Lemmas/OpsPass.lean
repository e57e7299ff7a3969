import Verif.Lemmas.InvAba
import Verif.Props.Tree
import Verif.Props.Kinematics
import Verif.Props.InertiaInverse
import Verif.Lemmas.Tasks

/-! The passes shared by the operational-space articulated-body functions. -/

namespace SpatialDyn
open Finset

namespace Sys
variable {σ : Sys}

/-- World value of the bias accelerations `a` collected up to body `k`. -/
noncomputable def opsBias (σ : Sys) (a : ℕ → Motion) (k : ℕ) : Motion :=
  open Classical in ∑ j ∈ range σ.n, if Anc σ.par j k then
    (σ.Tw j).actM (if (σ.par j).isNone then 0 else a j) else 0

/-- Backward and last pass give a solution of the articulated-body equations without joint torques. -/
theorem WF.ops_eqs (hw : σ.WF) (done : Bool) (c : AbaCache) (hc : done = true → σ.AbaOK c)
    (a : ℕ → Motion) (f : ℕ → Force) {anc : ℕ → List ℕ}
    (hanc : ∀ k < σ.n, anc k = (match σ.par k with
      | none => []
      | some p => anc p) ++ [k]) :
    ∃ p u acc ddq, AbaEqs σ f (fun i => if (σ.par i).isNone then 0 else a i) (fun _ => 0) p u acc ddq ∧
      ∀ k < σ.n, σ.opsForward (σ.opsBackward done c a f).2 a (anc k) = acc k := by
  set o : FDOpts := ⟨false, false, false, 0⟩ with ho
  set tau : ℕ → ℝ := fun _ => 0 with htau
  have hpre := hw.abaPre tau o done c hc a f
  simp only at hpre
  set contrib : ℕ → Mat6 × Force → Mat6 × Force := fun i b => (σ.abaContribI done c i b.1,
      (σ.Tp i).actF (b.2 + (σ.abaRed done c i b.1).app (a i)
        + (σ.abaDdq tau o i (σ.abaD done c i b.1) b.2) • σ.abaH done c i b.1)) with hcontrib
  set pre := accLoop (· + ·) σ.n σ.par contrib (fun i => (σ.abaInit done c i, f i)) with hpredef
  obtain ⟨h1, h2⟩ := hpre
  set b := σ.opsBackward done c a f with hb
  have hb2 : ∀ i < σ.n, b.2 i = ⟨σ.artH i, σ.artD i,
      (tau i - (σ.S i).dot (pre i).2) / σ.artD i⟩ := by
    intro i hi
    obtain ⟨-, e2, e3⟩ := h1 i hi
    have : b.2 i = ⟨σ.abaH done c i (pre i).1, σ.abaD done c i (pre i).1,
        σ.abaDdq tau o i (σ.abaD done c i (pre i).1) (pre i).2⟩ := by
      rw [hb]
      unfold opsBackward abaBackward
      rw [bwdLoop_eq _ hw.par_lt]
      simp only [hi, if_true]
      rfl
    rw [this, e2, e3, abaDdq_nofric _ _ rfl]
  set last := fwdLoop σ.n (σ.abaLastStep false b.2) (fun i => (a i, (b.2 i).ddq)) with hlast
  have hls : ∀ i < σ.n, last i = σ.abaLastStep false b.2 last i (a i, (b.2 i).ddq) :=
    fwdLoop_spec' (abaLastStep_causal hw.par_lt false b.2) _
  refine ⟨fun i => (pre i).2, fun i => (tau i - (σ.S i).dot (pre i).2) / σ.artD i,
    fun i => (last i).1, fun i => (last i).2, ⟨?_, ?_, ?_, ?_⟩, ?_⟩
  · intro i hi
    show (pre i).2 = _
    rw [h2 i hi]
    congr 1
    apply sum_congr rfl
    intro j _
    split
    · next h =>
      have e : (if (σ.par j).isNone then (0 : Motion) else a j) = a j := by simp [h]
      rw [e, abaDdq_nofric tau o rfl]
    · rfl
  · intro i _; rfl
  · intro i hi
    show (last i).2 = _ - (σ.artH i).dot ((last i).1 - (last i).2 • σ.S i) / σ.artD i
    have := hls i hi
    set r := σ.abaLastStep false b.2 last i (a i, (b.2 i).ddq) with hr
    have e : r.1 - r.2 • σ.S i = (match σ.par i with
        | none => 0
        | some p => a i + (σ.Tp i).inv.actM (last p).1) := by
      rw [hr]
      simp only [abaLastStep]
      cases σ.par i <;> simp
    rw [this, e, hr]
    simp only [abaLastStep, hb2 i hi]
    cases σ.par i <;> rfl
  · intro i hi
    show (last i).1 = _ + (last i).2 • σ.S i
    rw [hls i hi]
    simp only [abaLastStep]
    cases σ.par i <;> rfl
  · intro k hk
    induction k using Nat.strong_induction_on with
    | _ k ih =>
      show _ = (last k).1
      rw [hls k hk, hanc k hk]
      unfold opsForward
      rw [List.foldl_append, List.foldl_cons, List.foldl_nil]
      cases hpar : σ.par k with
      | none => simp only [abaLastStep, hpar, List.foldl_nil, Bool.false_eq_true, if_false]
      | some q =>
        have hq := hw.par_lt k hk q hpar
        have := ih q hq (by omega)
        unfold opsForward at this
        simp only [abaLastStep, hpar, this]
        rw [add_comm (a k)]

/-- What the passes compute, in world coordinates: accelerations `acc` that follow from joint
accelerations `ddq` balancing the body forces. -/
theorem WF.ops_world (hw : σ.WF) (hs : σ.SymI) (hd : ∀ i < σ.n, σ.artD i ≠ 0) (done : Bool)
    (c : AbaCache) (hc : done = true → σ.AbaOK c) (a : ℕ → Motion) (f : ℕ → Force)
    {anc : ℕ → List ℕ} (hanc : ∀ k < σ.n, anc k = (match σ.par k with
      | none => []
      | some p => anc p) ++ [k]) :
    ∃ ddq : ℕ → ℝ,
      (∀ k < σ.n, (σ.Tw k).actM (σ.opsForward (σ.opsBackward done c a f).2 a (anc k)) =
        σ.V ddq k + σ.opsBias a k) ∧
      ∀ i < σ.n, (∑ j ∈ range σ.n, σ.massSpec i j * ddq j) +
        σ.genForce (fun k => σ.Iw k (σ.opsBias a k) + (σ.Tw k).actF (f k)) i = 0 := by
  classical
  obtain ⟨p, u, acc, ddq, heq, hf⟩ := hw.ops_eqs done c hc a f hanc
  have hacc : ∀ k < σ.n, (σ.Tw k).actM (acc k) = σ.V ddq k + σ.opsBias a k := by
    intro k hk
    rw [hw.motion_sum acc (fun j => ddq j • σ.S j + (if (σ.par j).isNone then 0 else a j)) ?_ k hk]
    · have split1 : ∀ j ∈ range σ.n, (if Anc σ.par j k then (σ.Tw j).actM (ddq j • σ.S j +
            (if (σ.par j).isNone then 0 else a j)) else 0) =
          (if Anc σ.par j k then (σ.Tw j).actM (ddq j • σ.S j) else 0) +
          (if Anc σ.par j k then (σ.Tw j).actM (if (σ.par j).isNone then 0 else a j) else 0) := by
        intro j _
        split
        · rw [Iso.actM_add]
        · rw [add_zero]
      rw [sum_congr rfl split1, sum_add_distrib, sum_if_smul_V]
      unfold opsBias
      congr 1
    · intro i hi
      rw [heq.a_eq i hi]
      cases hpar : σ.par i with
      | none => simp
      | some q => simp only [Option.isNone_some, Bool.false_eq_true, if_false]; abel
  refine ⟨ddq, fun k hk => by rw [hf k hk, hacc k hk], fun i hi => ?_⟩
  have hsound := heq.sound hw hs hd i hi
  have e : σ.genForce (fun k => (σ.Tw k).actF ((σ.Itot k).app (acc k) + f k)) i =
      σ.genForce (fun k => σ.Iw k (σ.V ddq k) + (σ.Iw k (σ.opsBias a k) + (σ.Tw k).actF (f k))) i :=
    genForce_congr (fun k hk => by
      rw [Iso.actF_add, ← hw.Iw_actM hk, hacc k hk, Iw_add, add_assoc]) i
  rw [e, genForce_add, genForce_Iw_V] at hsound
  exact hsound

end Sys

namespace Body
variable {b : Body}

/-- The ancestors of a body are those of its parent and itself. -/
theorem Tree.anc_rec (ht : b.Tree) (k : ℕ) (hk : k < b.dof) :
    b.anc.getD k [] = (match b.par k with
      | none => []
      | some p => b.anc.getD p []) ++ [k] := by
  have heq : ∀ i < b.dof, ∀ l, RootPath (fun k => (b.rb k).idParent) i l → b.anc.getD i [] = l := by
    intro i hi l hl
    refine sorted_unique (ht.anc_sorted i hi) (hl.sorted ht hi).1 fun j => ?_
    rw [ht.anc_mem i hi, hl.mem]
  obtain ⟨l, hl⟩ := ht.exists_path k hk
  rw [heq k hk l hl]
  cases hl with
  | root h => rw [par_eq_none.2 (by omega)]; rfl
  | @step _ p l hp hl =>
    have := ht.parLt k hk p (par_eq_some.2 hp)
    rw [par_eq_some.2 hp]
    simp only
    rw [heq p (by omega) l hl]

end Body

/-! ## Six-dimensional task vectors -/

theorem Motion.six_add (m n : Motion) : (m + n).six = m.six + n.six := by
  funext k; fin_cases k <;> simp [Motion.six, Motion.entry]

theorem Motion.six_smul (c : ℝ) (m : Motion) : (c • m).six = c • m.six := by
  funext k; fin_cases k <;> simp [Motion.six, Motion.entry]

theorem Motion.six_neg (m : Motion) : (-m).six = -m.six := by
  funext k; fin_cases k <;> simp [Motion.six, Motion.entry]

theorem Motion.six_zero : (0 : Motion).six = 0 := by
  funext k; fin_cases k <;> simp [Motion.six, Motion.entry]

theorem Motion.six_sum (n : ℕ) (u : ℕ → ℝ) (J : ℕ → Motion) :
    (∑ j ∈ range n, u j • J j).six = (jacM n J).mulVec (vec n u) := by
  funext k
  have : ∀ s : Finset ℕ, (∑ j ∈ s, u j • J j).six k = ∑ j ∈ s, u j * (J j).entry k := by
    intro s
    classical
    induction s using Finset.induction_on with
    | empty => rw [sum_empty, sum_empty, Motion.six_zero]; rfl
    | insert a s ha ih =>
      rw [sum_insert ha, sum_insert ha, Motion.six_add, Pi.add_apply, ih, Motion.six_smul]
      rfl
  rw [this, ← Fin.sum_univ_eq_sum_range (fun j => u j * (J j).entry k)]
  simp only [Matrix.mulVec, dotProduct, jacM, vec, Matrix.of_apply]
  exact Finset.sum_congr rfl fun j _ => mul_comm _ _

theorem Motion.dot_unit (m : Motion) (k : Fin 6) : m.dot (Force.unit k) = m.entry k := by
  fin_cases k <;> simp [Motion.dot, Force.unit, Motion.entry]

theorem Iso.rot_actM (T : Iso) (m : Motion) :
    (⟨T.R, 0⟩ : Iso).actM m = (T.actM m).atPoint T.t := by
  ext <;> simp [Iso.actM, Motion.atPoint, Vec3.cross] <;> ring

theorem Iso.dot_rot_actF {T : Iso} (hT : T.R.IsRot) (m : Motion) (f : Force) :
    m.dot (T.actF ((⟨T.R.T, 0⟩ : Iso).actF f)) = (m.atPoint T.t).dot f := by
  have h1 : ∀ v : Vec3, T.R.mulVec (T.R.T.mulVec v) = v := hT.mulVec_T
  have h0 : ∀ v : Vec3, v.cross 0 = 0 := by intro v; ext <;> simp [Vec3.cross]
  simp only [Iso.actF, h0, sub_zero, h1, add_zero, zero_add, Motion.atPoint, Motion.dot_eq]
  simp [h1, Vec3.dot, Vec3.cross]
  ring

namespace Body
variable {E : Ext} {b : Body} {d : Bool}

/-- The passes seen from one link: `ddq` are the accelerations of the joints. -/
theorem ops_link (h : Reach E b d) (hm : b.Massive)
    (hn : DefiniteForm b.dof b.inertia.1)
    (done : Bool) (c : AbaCache) (hc : done = true → b.fresh.AbaOK c) (a : ℕ → Motion)
    (f : ℕ → Force) {k : ℕ} (hk : k < b.dof) {l : ℤ} (hl : b.LinkIdx l k)
    {J : (ℕ → Motion) × Body} (hJ : b.jacobian l 0 = .ok J) :
    ∃ ddq : Fin b.dof → ℝ,
      ((⟨(b.freshTw k).R, 0⟩ : Iso).actM
        (b.fresh.opsForward (b.fresh.opsBackward done c a f).2 a (b.anc.getD k []))).six =
        (jacM b.dof J.1).mulVec ddq + ((b.fresh.opsBias a k).atPoint (b.freshTw k).t).six ∧
      b.massM.mulVec ddq = -vec b.dof
        (b.fresh.genForce fun k => b.fresh.Iw k (b.fresh.opsBias a k) + (b.freshTw k).actF (f k)) := by
  have hpd := Body.fresh_massPD h hm hn
  have hd : ∀ i < b.fresh.n, b.fresh.artD i ≠ 0 :=
    fun i hi => (h.inv.wf.artD_pos hm.symI hpd i hi).ne'
  obtain ⟨u, h1, h2⟩ := h.inv.wf.ops_world hm.symI hd done c hc a f
    (anc := fun k => b.anc.getD k []) (fun k hk => h.inv.tree.anc_rec k hk)
  refine ⟨vec b.dof u, ?_, ?_⟩
  · rw [Iso.rot_actM]
    have e := h1 k hk
    rw [fresh_Tw hk] at e
    rw [e]
    have : ∀ (m n : Motion) (p : Vec3), (m + n).atPoint p = m.atPoint p + n.atPoint p := by
      intro m n p; ext <;> simp [Motion.atPoint, Vec3.cross] <;> ring
    rw [this, Motion.six_add]
    congr 1
    unfold Sys.V
    rw [Motion.atPoint_sum, ← Motion.six_sum]
    congr 1
    refine sum_congr rfl fun j _ => ?_
    rw [jacobian_val h.inv hl hJ j]
    congr 2
    ext <;> simp [Iso.app, Mat3.mulVec]
  · funext i
    have e := h2 i i.2
    have e1 : b.fresh.genForce (fun k => b.fresh.Iw k (b.fresh.opsBias a k) +
        (b.fresh.Tw k).actF (f k)) i = b.fresh.genForce (fun k =>
          b.fresh.Iw k (b.fresh.opsBias a k) + (b.freshTw k).actF (f k)) i :=
      Sys.genForce_congr (fun k hk => by rw [fresh_Tw hk]) i
    rw [e1] at e
    show _ = -b.fresh.genForce _ _
    rw [← eq_neg_iff_add_eq_zero.2 e, show b.fresh.n = b.dof from rfl,
      ← Fin.sum_univ_eq_sum_range (fun j => b.fresh.massSpec i j * u j)]
    simp only [Matrix.mulVec, dotProduct, massM, toMat, Matrix.of_apply, vec]
    exact Finset.sum_congr rfl fun j _ => by rw [inertia_entry h hm i j i.2 j.2]

theorem opsBias_zero (σ : Sys) (k : ℕ) : σ.opsBias (fun _ => 0) k = 0 := by
  unfold Sys.opsBias
  refine sum_eq_zero fun j _ => ?_
  rw [ite_self, Iso.actM_zero, ite_self]

/-- The inverse operational-space inertia of the articulated-body pass over all parts of the links. -/
theorem opsLambda_eq (h : Reach E b d) (hm : b.Massive)
    (hn : DefiniteForm b.dof b.inertia.1)
    (done : Bool) (c : AbaCache) (hc : done = true → b.fresh.AbaOK c) {k : ℕ} (hk : k < b.dof)
    {l : ℤ} (hl : b.LinkIdx l k) {J : (ℕ → Motion) × Body} (hJ : b.jacobian l 0 = .ok J) :
    (Matrix.of fun (i m : Fin 6) => ((⟨(b.freshTw k).R, 0⟩ : Iso).actM
      (b.fresh.opsForward (b.fresh.opsBackward done c (fun _ => 0)
        (fun j => if j = k then (⟨(b.freshTw j).R.T, 0⟩ : Iso).actF (-Force.unit m) else 0)).2
        (fun _ => 0) (b.anc.getD k []))).entry i) = b.taskInv (jacM b.dof J.1) := by
  ext i m
  simp only [Matrix.of_apply]
  set f : ℕ → Force := fun j =>
    if j = k then (⟨(b.freshTw j).R.T, 0⟩ : Iso).actF (-Force.unit m) else 0 with hf
  obtain ⟨u, h1, h2⟩ := ops_link h hm hn done c hc (fun _ => 0) f hk hl hJ
  have e1 := congrFun h1 i
  change Motion.entry _ _ = _ at e1
  rw [e1]
  have h3 : -vec b.dof (b.fresh.genForce fun k => b.fresh.Iw k (b.fresh.opsBias (fun _ => 0) k) +
      (b.freshTw k).actF (f k)) = (jacM b.dof J.1).transpose.mulVec (Pi.single m 1) := by
    funext j
    rw [Matrix.mulVec_single_one]
    show -b.fresh.genForce _ _ = (J.1 j).entry m
    unfold Sys.genForce
    rw [sum_eq_single k]
    · simp only [opsBias_zero, hf, if_true]
      have : b.fresh.Iw k 0 = 0 := by unfold Sys.Iw; simp
      rw [this, zero_add, Iso.dot_rot_actF (fresh_Tw hk ▸ h.inv.wf.Tw_valid k hk), Motion.dot_neg, neg_neg,
        jacobian_val h.inv hl hJ j, Motion.dot_unit]
      congr 2
      ext <;> simp [Iso.app, Mat3.mulVec]
    · intro n _ hnk
      simp only [opsBias_zero, hf, if_neg hnk]
      have : b.fresh.Iw n 0 = 0 := by unfold Sys.Iw; simp
      rw [this]; simp
    · intro hc; exact absurd (mem_range.2 hk) hc
  rw [h3] at h2
  have hdet : IsUnit b.massM.det := Ne.isUnit hn.det_ne
  have h4 : u = b.massM⁻¹.mulVec ((jacM b.dof J.1).transpose.mulVec (Pi.single m 1)) := by
    rw [← h2, Matrix.mulVec_mulVec, Matrix.nonsing_inv_mul _ hdet, Matrix.one_mulVec]
  rw [h4, opsBias_zero, show (0 : Motion).atPoint (b.freshTw k).t = 0 by
    ext <;> simp [Motion.atPoint, Vec3.cross], Motion.six_zero, add_zero, Matrix.mulVec_mulVec,
    Matrix.mulVec_mulVec]
  unfold taskInv
  rw [Matrix.mulVec_single_one]
  rfl

/-- The inverse operational-space inertia of the articulated-body pass. -/
theorem lambdaInvAba_eq (h : Reach E b d) (hm : b.Massive)
    (hn : DefiniteForm b.dof b.inertia.1)
    (hload : ∀ k, b.load k = none) (done : Bool) (c : AbaCache)
    (hc : done = true → b.fresh.unload.AbaOK c) {k : ℕ} (hk : k < b.dof) {l : ℤ}
    (hl : b.LinkIdx l k) {J : (ℕ → Motion) × Body} (hJ : b.jacobian l 0 = .ok J) :
    lambdaInvAba b done c k = b.taskInv (jacM b.dof J.1) := by
  unfold lambdaInvAba
  rw [fresh_unload hload] at hc ⊢
  exact opsLambda_eq h hm hn done c hc hk hl hJ

end Body
end SpatialDyn
