import Verif.Spec.Alike
import Verif.Lemmas.OpsAns

/-!
# Helper lemmas for C105

Every algorithm except the operational-space articulated-body ones reads a link and its load only
through their sum, so it does not see the system `merge`d into links without loads.
-/

namespace SpatialDyn
open Body

/-- All loads made part of their links. -/
noncomputable def Sys.merge (σ : Sys) : Sys := { σ with I := σ.Itot, load := fun _ => none }

namespace Sys
variable (σ : Sys)
theorem merge_n : σ.merge.n = σ.n := rfl
theorem merge_par : σ.merge.par = σ.par := rfl
theorem merge_S : σ.merge.S = σ.S := rfl
theorem merge_Tp : σ.merge.Tp = σ.Tp := rfl
theorem merge_Tw : σ.merge.Tw = σ.Tw := rfl
theorem merge_dq : σ.merge.dq = σ.dq := rfl
theorem merge_g : σ.merge.g = σ.g := rfl
theorem merge_fr : σ.merge.fr = σ.fr := rfl
theorem merge_Itot : σ.merge.Itot = σ.Itot := rfl

theorem merge_abaOK (c : AbaCache) : σ.merge.AbaOK c = σ.AbaOK c := by
  have h1 : σ.merge.artRed = σ.artRed := by unfold artRed; simp only [merge_par, merge_S]
  have h2 : σ.merge.artI = σ.artI := by
    unfold artI; simp only [merge_n, merge_par, merge_Tp, merge_Itot, h1]
  have h3 : σ.merge.artH = σ.artH := by unfold artH; simp only [h2, merge_S]
  have h4 : σ.merge.artD = σ.artD := by unfold artD; simp only [h3, merge_S]
  unfold AbaOK
  simp only [h1, h2, h3, h4, merge_n]

theorem merge_aba (tau : ℕ → ℝ) (fext : FExt) (o : FDOpts) (vd d : Bool) (arr : ℕ → VAF)
    (c : AbaCache) : σ.merge.aba tau fext o vd d arr c = σ.aba tau fext o vd d arr c := by
  have h0 : σ.merge.velStep = σ.velStep := by
    unfold velStep; simp only [merge_par, merge_S, merge_Tp]
  have h1 : σ.merge.subExt = σ.subExt := by unfold subExt; simp only [merge_Tw]
  have h2 : σ.merge.abaForward = σ.abaForward := by
    unfold abaForward abaStep
    simp only [merge_n, merge_S, merge_Itot, merge_dq, merge_par, h0, h1]
  have h3 : σ.merge.abaInit = σ.abaInit := by unfold abaInit; simp only [merge_n, merge_Itot]
  have h4 : σ.merge.abaH = σ.abaH := by unfold abaH; simp only [merge_S]
  have h5 : σ.merge.abaD = σ.abaD := by unfold abaD; simp only [merge_S]
  have h6 : σ.merge.abaRed = σ.abaRed := by unfold abaRed; simp only [merge_par, h4, h5]
  have h7 : σ.merge.abaContribI = σ.abaContribI := by
    unfold abaContribI; simp only [merge_Tp, h6]
  have h8 : σ.merge.abaDdq = σ.abaDdq := by
    unfold abaDdq; simp only [merge_S, merge_fr, merge_dq]
  have h9 : σ.merge.abaBackward = σ.abaBackward := by
    unfold abaBackward; simp only [merge_n, merge_par, merge_Tp, h4, h5, h6, h7, h8]
  have h10 : σ.merge.abaLastStep = σ.abaLastStep := by
    unfold abaLastStep; simp only [merge_par, merge_Tp, merge_S, merge_g]
  unfold aba
  simp only [merge_n, h2, h3, h9, h10]

end Sys

theorem Sys.crbaWalk_merge (σ : Sys) (i : ℕ) : ∀ (k : ℕ) (p : Option ℕ) (c : ℕ) (f : Force)
    (A : ℕ → ℕ → ℝ), σ.merge.crbaWalk i k p c f A = σ.crbaWalk i k p c f A
  | 0, _, _, _, _ => by simp only [Sys.crbaWalk]
  | _ + 1, none, _, _, _ => by simp only [Sys.crbaWalk]
  | k + 1, some j, c, f, A => by
    simp only [Sys.crbaWalk]
    exact Sys.crbaWalk_merge σ i k _ _ _ _

theorem Sys.crba_merge (σ : Sys) (Ic0 : ℕ → Inertia) : σ.merge.crba Ic0 = σ.crba Ic0 := by
  have h : σ.merge.crbaStep = σ.crbaStep := by
    funext s i
    unfold Sys.crbaStep
    simp only [Sys.crbaWalk_merge]
    rfl
  unfold Sys.crba
  rw [h]
  rfl

namespace Body
variable {E : Ext} {b b' : Body}

theorem SameTotals.par_eq (ho : b.SameTotals b') : b'.par = b.par := by
  funext k; unfold Body.par; rw [ho.parent]

theorem SameTotals.freshTp_eq (ho : b.SameTotals b') : b'.freshTp = b.freshTp := by
  funext k; unfold Body.freshTp Body.TpAt; rw [ho.q, ho.pose, ho.joint]

theorem SameTotals.freshTw_eq (ho : b.SameTotals b') : b'.freshTw = b.freshTw := by
  unfold Body.freshTw; rw [ho.dof, ho.par_eq, ho.T0, ho.freshTp_eq]

theorem SameTotals.merge_eq (ho : b.SameTotals b') : b'.fresh.merge = b.fresh.merge := by
  have hI : b'.fresh.Itot = b.fresh.Itot := funext ho.total
  have hS : ∀ k, (b'.rb k).joint = (b.rb k).joint := ho.joint
  unfold Sys.merge
  rw [hI]
  unfold Body.fresh Body.sysWith
  simp only [ho.dof, ho.par_eq, ho.freshTp_eq, ho.freshTw_eq, ho.dq, ho.g, hS]

theorem SameTotals.index_eq (ho : b.SameTotals b') (i : ℤ) : b'.index i = b.index i := by
  unfold Body.index Body.resolve; rw [ho.dof]

theorem SameTotals.isA (ho : b.SameTotals b') {A : ℕ → ℕ → ℝ} (h : IsA b'.fresh A) :
    IsA b.fresh A := by
  obtain ⟨I, rfl⟩ := h
  exact ⟨I, by rw [← b'.fresh.crba_merge, ho.merge_eq, Sys.crba_merge]⟩

theorem SameTotals.velOK (ho : b.SameTotals b') {v : ℕ → Motion} (h : b'.fresh.VelOK v) :
    b.fresh.VelOK v := by
  have h1 : b'.fresh.merge.VelOK v := h
  rw [ho.merge_eq] at h1
  exact h1

theorem SameTotals.abaOK (ho : b.SameTotals b') {c : AbaCache} (h : b'.fresh.AbaOK c) :
    b.fresh.AbaOK c := by
  rw [← Sys.merge_abaOK, ho.merge_eq, Sys.merge_abaOK] at h
  exact h

theorem SameTotals.symI (ho : b.SameTotals b') (h : b.fresh.SymI) : b'.fresh.SymI := by
  show b'.fresh.merge.SymI
  rw [ho.merge_eq]
  exact h

theorem SameTotals.posMass (ho : b.SameTotals b') (h : b.fresh.PosMass) : b'.fresh.PosMass := by
  have h1 : b'.fresh.merge.PosMass := by
    rw [ho.merge_eq]
    exact ⟨h.nonneg, h.sub_pos⟩
  exact ⟨h1.nonneg, h1.sub_pos⟩

theorem SameTotals.lift {α : Sort*} (ho : b.SameTotals b') (f : Sys → α)
    (hf : ∀ σ : Sys, f σ.merge = f σ) : f b'.fresh = f b.fresh := by
  rw [← hf, ho.merge_eq, hf]

theorem SameTotals.ajt_eqv (h : Inv E b) (h' : Inv E b') (ho : b.SameTotals b') (J : DMat)
    (hc : J.cols = b.dof) : (b.ajt E J).Eqv (b'.ajt E J) := by
  unfold ajt
  rw [ho.dof]
  exact ainvJT_eqv (IsA.unique h.wf (inertia_run h).2.1 (ho.isA (inertia_run h').2.1))
    (DMat.Eqv.refl J) hc

theorem SameTotals.mul_ajt (h : Inv E b) (h' : Inv E b') (ho : b.SameTotals b') {J : DMat}
    (hc : J.cols = b.dof) : (J.mul (b'.ajt E J)).trunc = (J.mul (b.ajt E J)).trunc :=
  ((DMat.Eqv.refl J).mul (ho.ajt_eqv h h' J hc) (by rw [hc]; rfl)).trunc.symm

end Body

theorem Query.alike_ans {E : Ext} {b b' : Body} (h : Inv E b) (h' : Inv E b')
    (ho : b.SameTotals b') (hs : b.fresh.SymI) (hm : b.fresh.PosMass) (x : Query)
    (hx : x.Weighs b.dof) : (x.run E b).map Prod.fst = (x.run E b').map Prod.fst := by
  have hdof := ho.dof
  have hidx := ho.index_eq
  have hlt : ∀ {i : ℤ} {k : ℕ}, b.index i = .ok k → k < b.dof := fun h => index_lt h
  cases hx with
  | inverseDynamics a f o =>
    simp only [Query.run, Out.map, Out.bind, hdof]
    congr 2
    refine take_congr fun i hi => ?_
    rw [inverseDynamics_val h hs hm _ _ _ i hi,
      inverseDynamics_val h' (ho.symI hs) (ho.posMass hm) _ _ _ i (hdof ▸ hi)]
    exact (ho.lift (fun σ => σ.addFriction o (σ.idSpec a f o.cc o.gravity) i) fun _ => rfl).symm
  | centrifugalCoriolis =>
    simp only [Query.run, Out.map, Out.bind, hdof]
    congr 2
    refine take_congr fun i hi => ?_
    rw [(centrifugalCoriolis_run h).2 i hi, (centrifugalCoriolis_run h').2 i (hdof ▸ hi)]
    exact (ho.lift (fun σ => σ.coriolisSpec i) fun _ => rfl).symm
  | gravity =>
    simp only [Query.run, Out.map, Out.bind, hdof]
    congr 2
    refine take_congr fun i hi => ?_
    rw [(gravity_run h).2 i hi, (gravity_run h').2 i (hdof ▸ hi)]
    exact (ho.lift (fun σ => σ.gravitySpec i) fun _ => rfl).symm
  | externalTorques f =>
    simp only [Query.run, Out.map, Out.bind, hdof]
    congr 2
    refine take_congr fun i hi => ?_
    rw [(externalTorques_run h f).2 i hi, (externalTorques_run h' f).2 i (hdof ▸ hi)]
    exact (ho.lift (fun σ => σ.extSpec f i) fun _ => rfl).symm
  | friction t c e =>
    simp only [Query.run, Out.map, Out.bind, hdof, Body.friction, h.view, h'.view]
    exact congrArg (fun z => Out.ok (Ans.vec (take b.dof z)))
      (ho.lift (fun σ => σ.friction t c e) fun _ => rfl).symm
  | inertia =>
    simp only [Query.run, Out.map, Out.bind, hdof]
    congr 2
    exact take2_congr fun i hi j hj =>
      (inertia_run h).2.1.unique h.wf (ho.isA (inertia_run h').2.1) i hi j hj
  | compositeInertia i =>
    simp only [Query.run, Body.compositeInertia, hidx]
    cases hi : b.index i with
    | ok k =>
      simp only [Out.bind, Out.map]
      obtain ⟨I, hI⟩ := (inertia_run h).2.2
      obtain ⟨J, hJ⟩ := (inertia_run h').2.2
      have e : b'.fresh.crba J = b.fresh.crba J := ho.lift (fun σ => σ.crba J) (Sys.crba_merge · J)
      rw [hI, hJ, e, (h.wf.crba_unique I J).1 k (hlt hi)]
    | throws => rfl
    | ub => rfl
  | inertiaInverse =>
    simp only [Query.run, Out.map, Out.bind, hdof]
    congr 2
    exact take2_congr fun i hi j hj =>
      (inertiaInverse_run h).2.unique h.wf (ho.isA (inertiaInverse_run h').2) i hi j hj
  | forwardDynamics t f o =>
    simp only [Query.run, Out.map, Out.bind, hdof]
    rw [fd_ans h hs hm, fd_ans h' (ho.symI hs) (ho.posMass hm), hdof]
    exact congrArg (fun z => Out.ok (Ans.vec (take b.dof z)))
      (ho.lift (fun σ => E.solve b.dof σ.massSpec
        (σ.fdRhs t (σ.idSpec (fun _ => 0) f o.cc o.gravity) o)) fun _ => rfl).symm
  | forwardDynamicsAba t f o =>
    simp only [Query.run, Out.map, Out.bind, hdof]
    congr 2
    refine take_congr fun i hi => ?_
    unfold Body.forwardDynamicsAba
    simp only [h.view, h'.view]
    have e : ∀ vd d arr c, b'.fresh.aba t f o vd d arr c = b.fresh.aba t f o vd d arr c :=
      fun vd d arr c => ho.lift (fun σ => σ.aba t f o vd d arr c) fun σ => σ.merge_aba ..
    rw [e]
    exact h.wf.aba_unique t f o h.coh.vel (fun x => ho.velOK (h'.coh.vel x)) h.coh.aba
      (fun x => ho.abaOK (h'.coh.aba x)) i hi
  | velocityDerivative a f o =>
    simp only [Query.run, Out.map, Out.bind, hdof]
    congr 2
    refine take2_congr fun i hi j hj => ?_
    unfold Body.velocityDerivative
    cases hcc : o.cc with
    | false => rfl
    | true =>
      simp only [Bool.not_true, Bool.false_eq_true, if_false]
      rw [view_touch_same h (forcedID_step h a f o), view_touch_same h' (forcedID_step h' a f o)]
      rw [Sys.dvel_congr h.wf.par_lt (fun i hi => h.wf.velOK_unique (forcedID_vel h a f o hcc)
        (ho.velOK (forcedID_vel h' a f o hcc)) i hi) i hi]
      exact congrFun (ho.lift (fun σ => σ.dvel (b'.forcedID a f o).c.v i) fun _ => rfl).symm j
  | positionDerivative a f o =>
    have hc : b'.hasChild = b.hasChild := by unfold Body.hasChild; rw [hdof, ho.par_eq]
    simp only [Query.run, Body.positionDerivative, hc, hdof]
    split
    · rfl
    · simp only [Out.map, Out.bind]
      congr 2
      refine take2_congr fun i hi j hj => ?_
      rw [view_touch_same h (forcedID_step h a f o), view_touch_same h' (forcedID_step h' a f o)]
      have e : ∀ v, b'.fresh.dposRoot o v i = b.fresh.dposRoot o v i := fun v =>
        ho.lift (fun σ => σ.dposRoot o v i) fun _ => rfl
      rw [e]
      have eS : b'.fresh.S i = b.fresh.S i := ho.lift (fun σ => σ.S i) fun _ => rfl
      cases hcc : o.cc with
      | false => simp only [Sys.dposRoot, hcc, Bool.false_eq_true, if_false, eS]
      | true =>
        unfold Sys.dposRoot
        rw [h.wf.velOK_unique (forcedID_vel h a f o hcc)
          (ho.velOK (forcedID_vel h' a f o hcc)) i hi, eS]
  | opsInertiaInverse J hJ hd =>
    obtain ⟨r, hr⟩ := opsInertiaInverse_total h hJ hd
    obtain ⟨r', hr'⟩ := opsInertiaInverse_total h' (J := J) (by rw [hdof]; exact hJ)
      (by rw [hdof]; exact hd)
    simp only [Query.run, hr, hr']
    show Out.ok (Ans.dmat r.1.trunc) = Out.ok (Ans.dmat r'.1.trunc)
    rw [(opsInertiaInverse_ans h' hr').2, (opsInertiaInverse_ans h hr).2, ho.mul_ajt h h' hJ]
  | opsInertia J eps hJ hd =>
    obtain ⟨r, hr⟩ := opsInertia_total (e := eps) h hJ hd
    obtain ⟨r', hr'⟩ := opsInertia_total (e := eps) h' (J := J) (by rw [hdof]; exact hJ)
      (by rw [hdof]; exact hd)
    simp only [Query.run, hr, hr']
    show Out.ok (Ans.dmat r.1.trunc) = Out.ok (Ans.dmat r'.1.trunc)
    rw [(opsInertia_ans h' hr').2.1, (opsInertia_ans h hr).2.1]
    unfold Ext.pinvOf
    rw [ho.mul_ajt h h' hJ]
  | opsIsSingular J eps hJ hd =>
    obtain ⟨r, hr⟩ := opsInertia_total (e := eps) h hJ hd
    obtain ⟨r', hr'⟩ := opsInertia_total (e := eps) h' (J := J) (by rw [hdof]; exact hJ)
      (by rw [hdof]; exact hd)
    simp only [Query.run, Body.opsIsSingular, hr, hr']
    show Out.ok (Ans.bool r.2.c.ops.singular) = Out.ok (Ans.bool r'.2.c.ops.singular)
    rw [(opsInertia_ans h' hr').2.2, (opsInertia_ans h hr).2.2]
    unfold Ext.pinvOf
    rw [ho.mul_ajt h h' hJ]

end SpatialDyn
