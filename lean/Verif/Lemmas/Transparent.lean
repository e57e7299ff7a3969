import Verif.Lemmas.Reach

/-! Answers of the joint-space queries do not depend on the cache. -/

namespace SpatialDyn

theorem take_congr {α : Type*} {n : ℕ} {f g : ℕ → α} (h : ∀ i < n, f i = g i) :
    take n f = take n g :=
  List.map_congr_left fun i hi => h i (List.mem_range.1 hi)

theorem take_inj {α : Type*} {n : ℕ} {f g : ℕ → α} (h : take n f = take n g) (i : ℕ) (hi : i < n) :
    f i = g i :=
  List.map_inj_left.1 h i (List.mem_range.2 hi)

theorem take2_congr {α : Type*} {m n : ℕ} {f g : ℕ → ℕ → α}
    (h : ∀ i < m, ∀ j < n, f i j = g i j) : take2 m n f = take2 m n g :=
  take_congr fun i hi => take_congr (h i hi)

theorem accLoop_congr {β : Type*} (op : β → β → β) {n : ℕ} {par : ℕ → Option ℕ} (hp : ParLt n par)
    (contrib : ℕ → β → β) {B B' : ℕ → β} (h : ∀ i < n, B i = B' i) (i : ℕ) (hi : i < n) :
    accLoop op n par contrib B i = accLoop op n par contrib B' i := by
  induction n generalizing B B' i with
  | zero => omega
  | succ n ih =>
    rw [accLoop_succ, accLoop_succ]
    have hs : ∀ j < n + 1,
        (match par n with | none => B | some p => accum op B p (contrib n (B n))) j =
        (match par n with | none => B' | some p => accum op B' p (contrib n (B' n))) j := by
      intro j hj
      cases hpar : par n with
      | none => exact h j hj
      | some p =>
        have hpn := hp n (by omega) p hpar
        simp only [accum]
        rw [h n (by omega), h p (by omega)]
        by_cases hjp : j = p
        · subst hjp; simp
        · rw [Function.update_of_ne hjp, Function.update_of_ne hjp, h j hj]
    by_cases hin : i < n
    · exact ih hp.mono (fun j hj => hs j (by omega)) i hin
    · rw [accLoop_ge _ hp.mono _ _ i (by omega), accLoop_ge _ hp.mono _ _ i (by omega)]
      exact hs i hi

namespace Sys
variable {σ : Sys}

theorem WF.crba_unique (hw : σ.WF) (I J : ℕ → Inertia) :
    (∀ i < σ.n, (σ.crba I).1 i = (σ.crba J).1 i) ∧
    ∀ i < σ.n, ∀ j < σ.n, (σ.crba I).2 i j = (σ.crba J).2 i j := by
  have hacc : ∀ i < σ.n, accI σ.n σ (fwdLoop σ.n (fun _ i _ => σ.Itot i) I) i =
      accI σ.n σ (fwdLoop σ.n (fun _ i _ => σ.Itot i) J) i := fun i hi =>
    accLoop_congr _ hw.par_lt _ (fun i hi => by rw [initI_eq I i hi, initI_eq J i hi]) i hi
  refine ⟨fun i hi => ?_, fun i hi j hj => ?_⟩
  · rw [hw.crba_Ic, hw.crba_Ic, hacc i hi]
  · unfold crba
    simp only
    rw [hw.crba_fold σ.n le_rfl, hw.crba_fold σ.n le_rfl]
    simp only [hacc i hi, hacc j hj]

theorem dvelStep_causal (hw : ParLt σ.n σ.par) (v : ℕ → Motion) :
    ∀ i < σ.n, ∀ a b old, (∀ j < i, a j = b j) → σ.dvelStep v a i old = σ.dvelStep v b i old := by
  intro i hi a b old hab
  unfold dvelStep
  cases hpar : σ.par i with
  | none => rfl
  | some p => simp only [hab p (hw i hi p hpar)]

theorem dvelBackward_congr (hw : ParLt σ.n σ.par) {f g : ℕ → ℕ → Force}
    (h : ∀ i < σ.n, f i = g i) (i : ℕ) (hi : i < σ.n) :
    (σ.dvelBackward f).2 i = (σ.dvelBackward g).2 i := by
  unfold dvelBackward
  rw [bwdLoop_eq _ hw, bwdLoop_eq _ hw]
  simp only [hi, if_true]
  rw [accLoop_congr _ hw _ h i hi]

theorem dvel_congr (hw : ParLt σ.n σ.par) {v w : ℕ → Motion} (h : ∀ i < σ.n, v i = w i) (i : ℕ)
    (hi : i < σ.n) : σ.dvel v i = σ.dvel w i := by
  have harr : ∀ i < σ.n,
      fwdLoop σ.n (σ.dvelStep v) (fun _ => ⟨fun _ => 0, fun _ => 0, fun _ => 0⟩) i =
      fwdLoop σ.n (σ.dvelStep w) (fun _ => ⟨fun _ => 0, fun _ => 0, fun _ => 0⟩) i := by
    intro i hi
    induction i using Nat.strong_induction_on with
    | _ i ih =>
      rw [fwdLoop_spec' (dvelStep_causal hw v) _ i hi, fwdLoop_spec' (dvelStep_causal hw w) _ i hi]
      rw [dvelStep_causal hw v i hi _ _ _ fun j hj => ih j hj (by omega)]
      unfold dvelStep
      rw [h i hi]
  unfold dvel
  exact dvelBackward_congr hw (fun i hi => by rw [harr i hi]) i hi

end Sys

theorem Ext.solve_congr (E : Ext) {n : ℕ} {A A' : ℕ → ℕ → ℝ} {b b' : ℕ → ℝ}
    (hA : ∀ i < n, ∀ j < n, A i j = A' i j) (hb : ∀ i < n, b i = b' i) :
    E.solve n A b = E.solve n A' b' := by
  have h1 := Sys.toMat_congr hA
  have h2 : (fun i : Fin n => b i) = fun i : Fin n => b' i := by
    funext i; exact hb i i.2
  unfold Ext.solve ldltSolve
  rw [h1, h2]

open Body

/-- Queries answered from the bodies, the state, gravity, loads and base pose alone: all but the
operational-space ones, `InertiaInverseAba` and the discrete one. -/
def Query.Core : Query → Prop
  | .inertiaInverseAba | .opsInertia .. | .opsInertiaInverse .. | .opsIsSingular .. | .opsJbar ..
  | .opsCoriolis .. | .opsGravity .. | .opsExternal .. | .opsFriction .. | .opsInverseDynamics ..
  | .opsInertiaInverseAba .. | .opsInertiaAba .. | .opsCoriolisAba .. | .opsGravityAba ..
  | .discreteInverseDynamics .. => False
  | _ => True

namespace Body
variable {E : Ext} {b : Body}

theorem IsA.unique {σ : Sys} (hw : σ.WF) {A B : ℕ → ℕ → ℝ} (hA : IsA σ A) (hB : IsA σ B) :
    ∀ i < σ.n, ∀ j < σ.n, A i j = B i j := by
  obtain ⟨I, rfl⟩ := hA
  obtain ⟨J, rfl⟩ := hB
  exact (hw.crba_unique I J).2

theorem IsA.mass {σ : Sys} (hw : σ.WF) (hs : σ.SymI) (hm : σ.PosMass) {A : ℕ → ℕ → ℝ}
    (hA : IsA σ A) (i j : ℕ) (hi : i < σ.n) (hj : j < σ.n) : A i j = σ.massSpec i j := by
  obtain ⟨I, rfl⟩ := hA
  exact hw.crba_spec hs hm I i j hi hj

theorem Sys.fdRhs_congr {σ : Sys} {n : ℕ} {tau x y : ℕ → ℝ} {o : FDOpts} (h : ∀ i < n, x i = y i)
    (i : ℕ) (hi : i < n) : σ.fdRhs tau x o i = σ.fdRhs tau y o i := by
  unfold Sys.fdRhs Sys.friction
  cases o.friction <;> simp [h i hi]

theorem fd_ans (h : Inv E b) (hs : b.fresh.SymI) (hm : b.fresh.PosMass) (tau : ℕ → ℝ)
    (fext : FExt) (o : FDOpts) : (b.fd E tau fext o).1 = E.solve b.dof b.fresh.massSpec
      (b.fresh.fdRhs tau (b.fresh.idSpec (fun _ => 0) fext o.cc o.gravity) o) := by
  unfold fd
  have h1 := inverseDynamics_step h (fun _ => 0) fext ⟨o.gravity, o.cc, false, 0.01⟩
  have h2 := (inertiaInverse_run (h.step h1)).2
  rw [h1.fresh_eq] at h2
  simp only [h.view]
  refine E.solve_congr (fun i hi j hj => h2.mass h.wf hs hm i j hi hj)
    (fun i hi => Sys.fdRhs_congr (fun i hi => ?_) i hi)
  rw [inverseDynamics_val h hs hm _ _ _ i hi]
  simp [Sys.addFriction]

/-- Velocities after the forced call of `InverseDynamics`. -/
theorem forcedID_vel (h : Inv E b) (ddq : ℕ → ℝ) (fext : FExt) (o : IDOpts) (hcc : o.cc = true) :
    b.fresh.VelOK (b.forcedID ddq fext o).c.v := by
  have h0 : Step E b { b with c := { b.c with crbaDone := false } } :=
    ⟨_, rfl, { h.coh with crba := fun x => by cases x }⟩
  have hi := h.step h0
  unfold forcedID
  simp only
  unfold inverseDynamics
  rw [if_neg (by simp)]
  simp only [hi.view]
  exact hi.wf.rnea_vel ddq fext o b.c.velDone b.vaf h.coh.vel hcc

theorem view_touch_same {b' : Body} (h : Inv E b) (h1 : Step E b b') : b'.view = b.fresh := by
  rw [(h.step h1).view, h1.fresh_eq]

end Body

theorem Body.ObsEq.poseEq {b b' : Body} (ho : b.ObsEq b') : b.PoseEq b' := by
  obtain ⟨h1, h2, h3, h4, h5, h6, h7, h8⟩ := ho
  refine ⟨h1, ?_, h3, h4, h5, h6, h7, h8⟩
  unfold Body.freshTp Body.TpAt Body.rb
  rw [h1, h2]

theorem Body.PoseEq.freshTw {b b' : Body} (ho : b.PoseEq b') : b'.freshTw = b.freshTw := by
  have htp := ho.tp
  obtain ⟨h1, -, h3, h4, h5, h6, h7, h8⟩ := ho
  unfold Body.freshTw
  rw [htp]
  unfold Body.par Body.rb Body.dof
  rw [h1, h6]

theorem Body.PoseEq.fresh {b b' : Body} (ho : b.PoseEq b') : b'.fresh = b.fresh := by
  have htp := ho.tp
  have htw := ho.freshTw
  obtain ⟨h1, -, h3, h4, h5, h6, h7, h8⟩ := ho
  unfold Body.fresh
  rw [htp, htw]
  unfold Body.sysWith Body.par Body.rb Body.dof
  rw [h1, h3, h4, h5]

theorem Query.core_ans_pose {E : Ext} {b b' : Body} (h : Inv E b) (h' : Inv E b') (ho : b.PoseEq b')
    (hs : b.fresh.SymI) (hm : b.fresh.PosMass) (x : Query) (hx : x.Core)
    (hq : ∀ i, x = .q i → b.q = b'.q) :
    (x.run E b).map Prod.fst = (x.run E b').map Prod.fst := by
  have hfresh := ho.fresh
  have htw := ho.freshTw
  have htp := ho.tp
  have hdof : b'.dof = b.dof := by unfold Body.dof; rw [ho.rbs]
  have hrb : b'.rb = b.rb := by unfold Body.rb; rw [ho.rbs]
  have hpar : b'.par = b.par := by unfold Body.par; rw [hrb]
  have htpat : b'.TpAt = b.TpAt := by unfold Body.TpAt; rw [hrb]
  have hidx : ∀ i, b'.index i = b.index i := fun i => by
    unfold Body.index Body.resolve; rw [hdof]
  have hjl : b'.jacLoop = b.jacLoop := by unfold Body.jacLoop; rw [hrb]
  have hclimb : ∀ {α : Type} (u : ℕ → ℝ) (f : Iso → α → α) (n : ℕ) (o : Option ℕ) (y : α),
      b'.climb u f n o y = b.climb u f n o y := by
    intro α u f n
    induction n with
    | zero => intro o y; rfl
    | succ n ih =>
      intro o y
      cases o with
      | none => rfl
      | some i => unfold Body.climb; rw [hpar, htpat, ih]
  have hhl : ∀ (Tw : ℕ → Iso) (J : ℕ → Motion) (l : List ℕ) (H : ℕ → ℕ → Motion),
      b'.hessLoop Tw J l H = b.hessLoop Tw J l H := by
    intro Tw J l
    induction l with
    | nil => intro H; rfl
    | cons a l ih => intro H; unfold Body.hessLoop; rw [hrb, ih]
  have hlt : ∀ {i : ℤ} {k : ℕ}, b.index i = .ok k → k < b.dof := fun h => index_lt h
  have hjac : ∀ (i : ℤ) (y z : Vec3), ∀ k, b.index i = .ok k → ∃ r r', b.jacobian i y = .ok r ∧
      b'.jacobian i z = .ok r' ∧
      r.1 = b.jacLoop b.freshTw (b.anc.getD k []) ((b.freshTw k).app y) ∧
      r'.1 = b.jacLoop b.freshTw (b.anc.getD k []) ((b.freshTw k).app z) := by
    intro i y z k hk
    have e1 : ∃ r, b.jacobian i y = .ok r := by
      unfold Body.jacobian; rw [hk]; simp only [Out.bind]; split <;> exact ⟨_, rfl⟩
    have e2 : ∃ r, b'.jacobian i z = .ok r := by
      unfold Body.jacobian; rw [hidx, hk]; simp only [Out.bind]; split <;> exact ⟨_, rfl⟩
    obtain ⟨r, hr⟩ := e1
    obtain ⟨r', hr'⟩ := e2
    obtain ⟨-, k1, hk1, hr1⟩ := jacobian_run h hr
    obtain ⟨-, k2, hk2, hr2⟩ := jacobian_run h' hr'
    rw [hk] at hk1; cases hk1
    rw [hidx, hk] at hk2; cases hk2
    rw [hjl, htw, ← ho.anc] at hr2
    exact ⟨r, r', hr, hr', hr1, hr2⟩
  cases x with
  | rigidBody i => simp only [Query.run, Body.rigidBody, hidx, hrb]; cases b.index i <;> rfl
  | q i => simp only [Query.run, Body.qAt, hidx, hq i rfl]; cases b.index i <;> rfl
  | dq i => simp only [Query.run, Body.dqAt, hidx, ho.dq]; cases b.index i <;> rfl
  | ancestors i => simp only [Query.run, Body.ancestors, hidx, ho.anc]; cases b.index i <;> rfl
  | subtree i => simp only [Query.run, Body.subtree, hidx, ho.sub]; cases b.index i <;> rfl
  | tToParent i =>
    simp only [Query.run, Body.tToParent, hidx]
    cases hi : b.index i with
    | ok k =>
      simp only [Out.bind, Out.map]
      rw [h.viewTp k (hlt hi), h'.viewTp k (hdof ▸ hlt hi), htp]
    | throws => rfl
    | ub => rfl
  | tToWorld i =>
    simp only [Query.run, Body.tToWorld, hidx]
    cases hi : b.index i with
    | ok k =>
      simp only [Out.bind, Out.map]
      rw [h.viewTw k (hlt hi), h'.viewTw k (hdof ▸ hlt hi), htw]
    | throws => rfl
    | ub => rfl
  | tFromParent i =>
    simp only [Query.run, Body.tFromParent, Body.tToParent, hidx]
    cases hi : b.index i with
    | ok k =>
      simp only [Out.bind, Out.map]
      rw [h.viewTp k (hlt hi), h'.viewTp k (hdof ▸ hlt hi), htp]
    | throws => rfl
    | ub => rfl
  | tFromWorld i =>
    simp only [Query.run, Body.tFromWorld, Body.tToWorld, hidx]
    cases hi : b.index i with
    | ok k =>
      simp only [Out.bind, Out.map]
      rw [h.viewTw k (hlt hi), h'.viewTw k (hdof ▸ hlt hi), htw]
    | throws => rfl
    | ub => rfl
  | position i y =>
    simp only [Query.run, Body.position, hidx]
    cases hi : b.index i with
    | ok k =>
      simp only [Out.bind, Out.map]
      rw [h.viewTw k (hlt hi), h'.viewTw k (hdof ▸ hlt hi), htw]
    | throws => rfl
    | ub => rfl
  | positionQ u i y =>
    have hcs : b'.climbStart i = b.climbStart i := by
      have hres : b'.resolve i = b.resolve i := by unfold Body.resolve; rw [hdof]
      unfold Body.climbStart
      rw [hres, hidx]
    simp only [Query.run, Body.positionQ, hcs, hdof, ho.T0, hclimb]
    cases b.climbStart i <;> rfl
  | orientation i =>
    simp only [Query.run, Body.orientation, hidx]
    cases hi : b.index i with
    | ok k =>
      simp only [Out.bind, Out.map]
      rw [h.viewTw k (hlt hi), h'.viewTw k (hdof ▸ hlt hi), htw]
    | throws => rfl
    | ub => rfl
  | orientationQ u i =>
    have hcs : b'.climbStart i = b.climbStart i := by
      have hres : b'.resolve i = b.resolve i := by unfold Body.resolve; rw [hdof]
      unfold Body.climbStart
      rw [hres, hidx]
    simp only [Query.run, Body.orientationQ, hcs, hdof, ho.T0, hclimb]
    cases b.climbStart i <;> rfl
  | cartesianPose i y =>
    simp only [Query.run, Body.cartesianPose, hidx]
    cases hi : b.index i with
    | ok k =>
      simp only [Out.bind, Out.map]
      rw [h.viewTw k (hlt hi), h'.viewTw k (hdof ▸ hlt hi), htw]
    | throws => rfl
    | ub => rfl
  | jacobian i y =>
    simp only [Query.run, hdof]
    cases hi : b.index i with
    | ok k =>
      obtain ⟨r, r', h1, h2, h3, h4⟩ := hjac i y y k hi
      rw [h1, h2]
      simp only [Out.map, Out.bind, h3, h4]
    | throws => simp only [Body.jacobian, hidx, hi]; rfl
    | ub => simp only [Body.jacobian, hidx, hi]; rfl
  | jacobianQ u i y =>
    have hst : b'.jacQStep u = b.jacQStep u := by
      funext Ts j
      unfold jacQStep
      rw [ho.T0, htpat]
    simp only [Query.run, Body.jacobianQ, hidx, hdof, ho.anc, hst, hrb]
    cases b.index i with
    | ok k =>
      simp only [Out.bind]
      generalize List.getLast? _ = L
      cases L <;> rfl
    | throws => rfl
    | ub => rfl
  | linearJacobian i y =>
    simp only [Query.run, Body.linearJacobian, hdof]
    cases hi : b.index i with
    | ok k =>
      obtain ⟨r, r', h1, h2, h3, h4⟩ := hjac i y y k hi
      rw [h1, h2]
      simp only [Out.map, Out.bind, h3, h4]
    | throws => simp only [Body.jacobian, hidx, hi]; rfl
    | ub => simp only [Body.jacobian, hidx, hi]; rfl
  | angularJacobian i =>
    simp only [Query.run, Body.angularJacobian, hdof]
    cases hi : b.index i with
    | ok k =>
      obtain ⟨r, r', h1, h2, h3, h4⟩ := hjac i b.c.jacOffset b'.c.jacOffset k hi
      rw [h1, h2]
      simp only [Out.map, Out.bind, h3, h4]
      congr 2
      refine take_congr fun j _ => ?_
      unfold jacLoop
      have key : ∀ (l : List ℕ) (p p' : Vec3) (J J' : ℕ → Motion), (J j).ang = (J' j).ang →
          (l.foldl (fun J i => Function.update J i
            ((⟨(b.freshTw i).R, (b.freshTw i).t - p⟩ : Iso).actM (b.rb i).joint.subspace)) J j).ang =
          (l.foldl (fun J i => Function.update J i
            ((⟨(b.freshTw i).R, (b.freshTw i).t - p'⟩ : Iso).actM (b.rb i).joint.subspace))
              J' j).ang := by
        intro l p p'
        induction l with
        | nil => intro J J' hJ; exact hJ
        | cons a l ih =>
          intro J J' hJ
          rw [List.foldl_cons, List.foldl_cons]
          refine ih _ _ ?_
          by_cases hja : j = a
          · subst hja; simp [Iso.actM]
          · rw [Function.update_of_ne hja, Function.update_of_ne hja]; exact hJ
      exact key _ _ _ _ _ rfl
    | throws => simp only [Body.jacobian, hidx, hi]; rfl
    | ub => simp only [Body.jacobian, hidx, hi]; rfl
  | hessian i y =>
    simp only [Query.run, hdof]
    cases hi : b.index i with
    | ok k =>
      have hk := hlt hi
      obtain ⟨r, r', h1, h2, h3, h4⟩ := hjac k y y k (index_ofNat hk)
      have e1 : ∃ r, b.hessian i y = .ok r := by
        unfold Body.hessian; rw [hi]; simp only [Out.bind]; rw [h1]; exact ⟨_, rfl⟩
      have e2 : ∃ r, b'.hessian i y = .ok r := by
        unfold Body.hessian; rw [hidx, hi]; simp only [Out.bind]; rw [h2]; exact ⟨_, rfl⟩
      obtain ⟨s, hs1⟩ := e1
      obtain ⟨s', hs2⟩ := e2
      obtain ⟨-, k1, hk1, hr1⟩ := hessian_run h hs1
      obtain ⟨-, k2, hk2, hr2⟩ := hessian_run h' hs2
      rw [hi] at hk1; cases hk1
      rw [hidx, hi] at hk2; cases hk2
      rw [hhl, hjl, htw, ← ho.anc] at hr2
      rw [hs1, hs2]
      simp only [Out.map, Out.bind, hr1, hr2]
    | throws => simp only [Body.hessian, hidx, hi]; rfl
    | ub => simp only [Body.hessian, hidx, hi]; rfl
  | inverseDynamics a f o =>
    simp only [Query.run, Out.map, Out.bind, hdof]
    congr 2
    refine take_congr fun i hi => ?_
    rw [inverseDynamics_val h hs hm _ _ _ i hi,
      inverseDynamics_val h' (hfresh ▸ hs) (hfresh ▸ hm) _ _ _ i (hdof ▸ hi), hfresh]
  | centrifugalCoriolis =>
    simp only [Query.run, Out.map, Out.bind, hdof]
    congr 2
    refine take_congr fun i hi => ?_
    rw [(centrifugalCoriolis_run h).2 i hi, (centrifugalCoriolis_run h').2 i (hdof ▸ hi), hfresh]
  | gravity =>
    simp only [Query.run, Out.map, Out.bind, hdof]
    congr 2
    refine take_congr fun i hi => ?_
    rw [(gravity_run h).2 i hi, (gravity_run h').2 i (hdof ▸ hi), hfresh]
  | externalTorques f =>
    simp only [Query.run, Out.map, Out.bind, hdof]
    congr 2
    refine take_congr fun i hi => ?_
    rw [(externalTorques_run h f).2 i hi, (externalTorques_run h' f).2 i (hdof ▸ hi), hfresh]
  | friction t c e =>
    simp only [Query.run, Out.map, Out.bind, hdof, Body.friction, h.view, h'.view, hfresh]
  | inertia =>
    simp only [Query.run, Out.map, Out.bind, hdof]
    congr 2
    exact take2_congr fun i hi j hj =>
      (inertia_run h).2.1.unique h.wf (hfresh ▸ (inertia_run h').2.1) i hi j hj
  | compositeInertia i =>
    simp only [Query.run, Body.compositeInertia, hidx]
    cases hi : b.index i with
    | ok k =>
      simp only [Out.bind, Out.map]
      obtain ⟨I, hI⟩ := (inertia_run h).2.2
      obtain ⟨J, hJ⟩ := (inertia_run h').2.2
      rw [hI, hJ, hfresh, (h.wf.crba_unique I J).1 k (hlt hi)]
    | throws => rfl
    | ub => rfl
  | inertiaInverse =>
    simp only [Query.run, Out.map, Out.bind, hdof]
    congr 2
    exact take2_congr fun i hi j hj =>
      (inertiaInverse_run h).2.unique h.wf (hfresh ▸ (inertiaInverse_run h').2) i hi j hj
  | forwardDynamics t f o =>
    simp only [Query.run, Out.map, Out.bind, hdof]
    rw [fd_ans h hs hm, fd_ans h' (hfresh ▸ hs) (hfresh ▸ hm), hfresh, hdof]
  | forwardDynamicsAba t f o =>
    simp only [Query.run, Out.map, Out.bind, hdof]
    congr 2
    refine take_congr fun i hi => ?_
    unfold Body.forwardDynamicsAba
    simp only [h.view, h'.view, hfresh]
    exact h.wf.aba_unique t f o h.coh.vel (hfresh ▸ h'.coh.vel) h.coh.aba (hfresh ▸ h'.coh.aba) i hi
  | velocityDerivative a f o =>
    simp only [Query.run, Out.map, Out.bind, hdof]
    congr 2
    refine take2_congr fun i hi j hj => ?_
    unfold Body.velocityDerivative
    cases hcc : o.cc with
    | false => rfl
    | true =>
      simp only [Bool.not_true, Bool.false_eq_true, if_false]
      rw [view_touch_same h (forcedID_step h a f o), view_touch_same h' (forcedID_step h' a f o),
        hfresh]
      rw [Sys.dvel_congr h.wf.par_lt (fun i hi => h.wf.velOK_unique (forcedID_vel h a f o hcc)
        (hfresh ▸ forcedID_vel h' a f o hcc) i hi) i hi]
  | positionDerivative a f o =>
    have hc : b'.hasChild = b.hasChild := by unfold Body.hasChild; rw [hdof, hpar]
    simp only [Query.run, Body.positionDerivative, hc, hdof]
    split
    · rfl
    · simp only [Out.map, Out.bind]
      congr 2
      refine take2_congr fun i hi j hj => ?_
      rw [view_touch_same h (forcedID_step h a f o), view_touch_same h' (forcedID_step h' a f o),
        hfresh]
      cases hcc : o.cc with
      | false => simp only [Sys.dposRoot, hcc, Bool.false_eq_true, if_false]
      | true =>
        unfold Sys.dposRoot
        rw [h.wf.velOK_unique (forcedID_vel h a f o hcc)
          (hfresh ▸ forcedID_vel h' a f o hcc) i hi]
  | _ => exact absurd hx (by simp [Query.Core])

theorem Query.core_ans {E : Ext} {b b' : Body} (h : Inv E b) (h' : Inv E b') (ho : b.ObsEq b')
    (hs : b.fresh.SymI) (hm : b.fresh.PosMass) (x : Query) (hx : x.Core) :
    (x.run E b).map Prod.fst = (x.run E b').map Prod.fst :=
  Query.core_ans_pose h h' ho.poseEq hs hm x hx fun _ _ => ho.q

end SpatialDyn
