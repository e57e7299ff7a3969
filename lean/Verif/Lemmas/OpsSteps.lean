import Verif.Lemmas.Steps

/-! Operational-space and discrete queries keep the cache coherent. -/

namespace SpatialDyn

theorem DMat.Eqv.refl (A : DMat) : A.Eqv A := ⟨rfl, rfl, fun _ _ _ _ => rfl⟩

namespace Body
variable {b : Body} {E : Ext}

theorem opsSame_true {J : DMat} (h : b.opsSame J = .ok true) : b.c.ops.J.Eqv J := by
  unfold opsSame at h
  split at h
  · cases h
  · split at h
    · cases h
    · simpa using h

theorem opsInvCompute_run (h : Inv E b) {J : DMat} {r : DMat × Body}
    (hr : b.opsInvCompute E J = .ok r) : Step E b r.2 ∧ r.2.c.ops.lambdaInvDone = true ∧
      r.2.c.ops.J.Eqv J ∧ r.1 = r.2.c.ops.LambdaInv := by
  unfold opsInvCompute at hr
  split at hr
  · cases hr
  · next hc =>
    push Not at hc
    cases hr
    obtain ⟨⟨c', e, hc'⟩, hA⟩ := inertiaInverse_run h
    refine ⟨?_, rfl, DMat.Eqv.refl _, rfl⟩
    simp only
    rw [e]
    exact ⟨_, rfl, { hc' with
      opsInv := fun _ => ⟨hc, _, hA, rfl, rfl⟩
      opsLam := fun x => absurd x Bool.false_ne_true
      opsJbar := fun x => absurd x Bool.false_ne_true }⟩

theorem opsInertiaInverse_run (h : Inv E b) {J : DMat} {r : DMat × Body}
    (hr : b.opsInertiaInverse E J = .ok r) : Step E b r.2 ∧ r.2.c.ops.lambdaInvDone = true ∧
      r.2.c.ops.J.Eqv J ∧ r.1 = r.2.c.ops.LambdaInv := by
  unfold opsInertiaInverse at hr
  split at hr
  · exact opsInvCompute_run h hr
  · next hd =>
    obtain ⟨s, hs, hr⟩ := Out.bind_ok hr
    cases s with
    | true => cases hr; exact ⟨Step.refl h, by simpa using hd, opsSame_true hs, rfl⟩
    | false => exact opsInvCompute_run h hr

theorem opsLambdaCompute_run (h : Inv E b) {J : DMat} {eps : ℝ} {r : DMat × Body}
    (hr : b.opsLambdaCompute E J eps = .ok r) : Step E b r.2 ∧ r.2.c.ops.lambdaDone = true ∧
      r.2.c.ops.J.Eqv J ∧ r.2.c.ops.eps = eps ∧ r.1 = r.2.c.ops.Lambda := by
  obtain ⟨s, hs, hr⟩ := Out.bind_ok hr
  cases hr
  obtain ⟨⟨c', e, hc'⟩, hd, hJ, hL⟩ := opsInertiaInverse_run h hs
  refine ⟨?_, rfl, hJ, rfl, rfl⟩
  simp only
  rw [hL]
  rw [e] at hd ⊢
  exact ⟨_, rfl, { hc' with opsLam := fun _ => ⟨hd, rfl, rfl⟩ }⟩

theorem opsInertia_run (h : Inv E b) {J : DMat} {eps : ℝ} {r : DMat × Body}
    (hr : b.opsInertia E J eps = .ok r) : Step E b r.2 ∧ r.2.c.ops.lambdaDone = true ∧
      r.2.c.ops.J.Eqv J ∧ r.2.c.ops.eps = eps ∧ r.1 = r.2.c.ops.Lambda := by
  unfold opsInertia at hr
  split at hr
  · exact opsLambdaCompute_run h hr
  · next hd =>
    obtain ⟨s, hs, hr⟩ := Out.bind_ok hr
    split at hr
    · next hc =>
      cases hr
      obtain ⟨hc1, hc2⟩ := hc
      rw [hc1] at hs
      exact ⟨Step.refl h, by simpa using hd, opsSame_true hs, hc2, rfl⟩
    · exact opsLambdaCompute_run h hr

theorem opsIsSingular_run (h : Inv E b) {J : DMat} {eps : ℝ} {r : Bool × Body}
    (hr : b.opsIsSingular E J eps = .ok r) : Step E b r.2 ∧ r.2.c.ops.lambdaDone = true ∧
      r.2.c.ops.J.Eqv J ∧ r.2.c.ops.eps = eps ∧ r.1 = r.2.c.ops.singular := by
  obtain ⟨s, hs, hr⟩ := Out.bind_ok hr
  cases hr
  obtain ⟨h1, h2, h3, h4, -⟩ := opsInertia_run h hs
  exact ⟨h1, h2, h3, h4, rfl⟩

theorem opsJbarCompute_run (h : Inv E b) {J : DMat} {eps : ℝ} {r : DMat × Body}
    (hr : b.opsJbarCompute E J eps = .ok r) : Step E b r.2 ∧ r.2.c.ops.jbarDone = true ∧
      r.2.c.ops.J.Eqv J ∧ r.1 = r.2.c.ops.Jbar ∧
      r.1 = r.2.c.ops.AinvJT.mul (E.pinvOf r.2.c.ops.LambdaInv eps).1 := by
  obtain ⟨s, hs, hr⟩ := Out.bind_ok hr
  cases hr
  obtain ⟨⟨c', e, hc'⟩, hd, hJ, he, hL⟩ := opsInertia_run h hs
  have e1 : s.2.c = c' := by rw [e]
  obtain ⟨hi, hl, -⟩ := hc'.opsLam (e1 ▸ hd)
  have key : s.2.c.ops.AinvJT.mul s.2.c.ops.Lambda =
      s.2.c.ops.AinvJT.mul (E.pinvOf s.2.c.ops.LambdaInv eps).1 := by
    rw [e1, hl, ← e1, he]
  refine ⟨?_, rfl, hJ, rfl, key⟩
  simp only
  rw [e]
  exact ⟨_, rfl, { hc' with opsJbar := fun _ => ⟨hi, c'.ops.eps, by rw [hl]⟩ }⟩

theorem opsJbar_run (h : Inv E b) {J : DMat} {eps : ℝ} {r : DMat × Body}
    (hr : b.opsJbar E J eps = .ok r) : Step E b r.2 ∧ r.2.c.ops.jbarDone = true ∧
      r.2.c.ops.J.Eqv J ∧ r.1 = r.2.c.ops.Jbar := by
  unfold opsJbar at hr
  split at hr
  · obtain ⟨h1, h2, h3, h4, -⟩ := opsJbarCompute_run h hr; exact ⟨h1, h2, h3, h4⟩
  · next hd =>
    obtain ⟨s, hs, hr⟩ := Out.bind_ok hr
    split at hr
    · next hc =>
      cases hr
      obtain ⟨hc1, hc2⟩ := hc
      rw [hc1] at hs
      exact ⟨Step.refl h, by simpa using hd, opsSame_true hs, rfl⟩
    · obtain ⟨h1, h2, h3, h4, -⟩ := opsJbarCompute_run h hr; exact ⟨h1, h2, h3, h4⟩

theorem opsCoriolis_step (h : Inv E b) {J : DMat} {l : ℤ} {eps : ℝ} {r : (ℕ → ℝ) × Body}
    (hr : b.opsCoriolis E J l eps = .ok r) : Step E b r.2 := by
  unfold opsCoriolis at hr
  split at hr
  · cases hr
  · obtain ⟨s, hs, hr⟩ := Out.bind_ok hr
    have h1 := (opsJbar_run h hs).1
    have i1 := h.step h1
    have h2 := (centrifugalCoriolis_run i1).1
    have i2 := i1.step h2
    obtain ⟨t, ht, hr⟩ := Out.bind_ok hr
    have h3 := (opsInertia_run i2 ht).1
    have i3 := i2.step h3
    obtain ⟨k, -, hr⟩ := Out.bind_ok hr
    cases hr
    exact ((h1.trans h2).trans h3).trans (touchTw_step i3)

theorem opsGravity_step (h : Inv E b) {J : DMat} {eps : ℝ} {r : (ℕ → ℝ) × Body}
    (hr : b.opsGravity E J eps = .ok r) : Step E b r.2 := by
  obtain ⟨s, hs, hr⟩ := Out.bind_ok hr
  cases hr
  have h1 := (opsJbar_run h hs).1
  exact h1.trans (gravity_run (h.step h1)).1

theorem opsExternal_step (h : Inv E b) {J : DMat} {fext : FExt} {eps : ℝ} {r : (ℕ → ℝ) × Body}
    (hr : b.opsExternal E J fext eps = .ok r) : Step E b r.2 := by
  obtain ⟨s, hs, hr⟩ := Out.bind_ok hr
  cases hr
  have h1 := (opsJbar_run h hs).1
  exact h1.trans (externalTorques_run (h.step h1) fext).1

theorem opsFriction_step (h : Inv E b) {J : DMat} {tau : ℕ → ℝ} {eps se : ℝ}
    {r : (ℕ → ℝ) × Body} (hr : b.opsFriction E J tau eps se = .ok r) : Step E b r.2 := by
  obtain ⟨s, hs, hr⟩ := Out.bind_ok hr
  cases hr
  exact (opsJbar_run h hs).1

theorem opsAdd_step {flag : Bool} {s : (ℕ → ℝ) × Body}
    {term : Body → (ℕ → ℝ) → Out ((ℕ → ℝ) × Body)} (h : Inv E s.2)
    (ht : ∀ r, term s.2 s.1 = .ok r → Step E s.2 r.2) {r : (ℕ → ℝ) × Body}
    (hr : opsAdd flag s term = .ok r) : Step E s.2 r.2 := by
  unfold opsAdd at hr
  split at hr
  · obtain ⟨t, htt, hr⟩ := Out.bind_ok hr
    cases hr
    exact ht t htt
  · cases hr; exact Step.refl h

theorem opsNull_step (h : Inv E b) {Jx : DMat} {N : Option DMat} {eps : ℝ}
    {r : Option DMat × Body} (hr : b.opsNull E Jx N eps = .ok r) : Step E b r.2 := by
  unfold opsNull at hr
  cases N with
  | none => cases hr; exact Step.refl h
  | some M =>
    obtain ⟨s, hs, hr⟩ := Out.bind_ok hr
    obtain ⟨-, -, hr⟩ := Out.bind_ok hr
    cases hr
    exact (opsJbar_run h hs).1

theorem opsInverseDynamics_step (h : Inv E b) {J : DMat} {ddx : ℕ → ℝ} {N : Option DMat}
    {fext : FExt} {se : Bool} {o : OpsOpts} {r : (ℕ → ℝ) × Option DMat × Body}
    (hr : b.opsInverseDynamics E J ddx N fext se o = .ok r) : Step E b r.2.2 := by
  unfold opsInverseDynamics at hr
  obtain ⟨-, -, hr⟩ := Out.bind_ok hr
  obtain ⟨l, hl, hr⟩ := Out.bind_ok hr
  have h1 := (opsInertia_run h hl).1
  have i1 := h.step h1
  obtain ⟨s1, hs1, hr⟩ := Out.bind_ok hr
  have h2 := opsAdd_step i1 (fun r hr => opsExternal_step i1 hr) hs1
  have i2 := i1.step h2
  obtain ⟨s2, hs2, hr⟩ := Out.bind_ok hr
  have h3 := opsAdd_step i2 (fun r hr => opsGravity_step i2 hr) hs2
  have i3 := i2.step h3
  obtain ⟨s3, hs3, hr⟩ := Out.bind_ok hr
  have h4 := opsAdd_step i3 (fun r hr => opsCoriolis_step i3 hr) hs3
  have i4 := i3.step h4
  obtain ⟨s4, hs4, hr⟩ := Out.bind_ok hr
  have h5 := opsAdd_step i4 (fun r hr => opsFriction_step i4 hr) hs4
  have i5 := i4.step h5
  obtain ⟨s5, hs5, hr⟩ := Out.bind_ok hr
  have h6 := opsNull_step i5 hs5
  cases hr
  exact ((((h1.trans h2).trans h3).trans h4).trans h5).trans h6

/-! ## Articulated-body versions (no loads) -/

theorem fresh_unload (h : ∀ k, b.load k = none) : b.fresh.unload = b.fresh := by
  unfold Sys.unload fresh sysWith
  simp [h]

theorem opsInvAbaCompute_run (h : Inv E b) (hl : ∀ k, b.load k = none) {k : ℕ} (hk : k < b.dof)
    (x : Vec3) : Step E b (b.opsInvAbaCompute k x).2 ∧
      (b.opsInvAbaCompute k x).2.c.opsAba.lambdaInvDone = true ∧
      (b.opsInvAbaCompute k x).2.c.opsAba.idx = k ∧
      (b.opsInvAbaCompute k x).1 = (b.opsInvAbaCompute k x).2.c.opsAba.LambdaInv := by
  refine ⟨?_, rfl, rfl, rfl⟩
  have huf : ∀ m, b.unitForce k m = fun j =>
      if j = k then (⟨(b.freshTw j).R.T, 0⟩ : Iso).actF (-Force.unit m) else 0 := by
    intro m
    funext j
    unfold unitForce
    split
    · next hj => subst hj; rw [h.viewTw j hk]
    · rfl
  have haba : b.c.abaDone = true → b.fresh.unload.AbaOK b.c.aba := by
    rw [fresh_unload hl]; exact h.coh.aba
  unfold opsInvAbaCompute
  simp only [h.view, h.viewTw k hk, huf]
  obtain ⟨c', e, hc'⟩ := (touchTw_step h).trans (touchTp_step (h.step (touchTw_step h)))
  rw [e]
  refine ⟨_, rfl, { hc' with
    aba := fun _ => ?_
    opsAbaInv := fun _ => ⟨hl, hk, _, _, haba, rfl⟩
    opsAbaLam := fun y => absurd y Bool.false_ne_true }⟩
  have := Sys.abaBackward_ok (σ := b.fresh.unload) h.tree.parLt (fun _ => 0)
    ⟨false, false, false, 0⟩ b.c.abaDone b.c.aba haba (fun _ => 0)
    (fun j => if j = k then (⟨(b.freshTw j).R.T, 0⟩ : Iso).actF (-Force.unit 0) else 0)
    (fun i => ⟨b.c.aba.h i, b.c.aba.d i, 0⟩)
  rw [← fresh_unload hl]
  exact this

theorem opsInertiaInverseAba_run (h : Inv E b) (hl : ∀ k, b.load k = none) {l : ℤ} {x : Vec3}
    {r : Matrix (Fin 6) (Fin 6) ℝ × Body} (hr : b.opsInertiaInverseAba l x = .ok r) :
    Step E b r.2 ∧ r.2.c.opsAba.lambdaInvDone = true ∧ b.index l = .ok r.2.c.opsAba.idx ∧
      r.1 = r.2.c.opsAba.LambdaInv := by
  obtain ⟨k, hk, hr⟩ := Out.bind_ok hr
  split at hr
  · next hc => cases hr; exact ⟨Step.refl h, hc.1, hc.2.1 ▸ hk, rfl⟩
  · cases hr
    obtain ⟨h1, h2, h3, h4⟩ := opsInvAbaCompute_run h hl (index_lt hk) x
    exact ⟨h1, h2, h3 ▸ hk, h4⟩

theorem opsInertiaAba_run (h : Inv E b) (hl : ∀ k, b.load k = none) {l : ℤ} {x : Vec3} {eps : ℝ}
    {r : Matrix (Fin 6) (Fin 6) ℝ × Body} (hr : b.opsInertiaAba E l x eps = .ok r) :
    Step E b r.2 ∧ r.2.c.opsAba.lambdaDone = true ∧ b.index l = .ok r.2.c.opsAba.idx ∧
      r.2.c.opsAba.eps = eps ∧ r.1 = r.2.c.opsAba.Lambda := by
  obtain ⟨k, hk, hr⟩ := Out.bind_ok hr
  split at hr
  · next hc => cases hr; exact ⟨Step.refl h, hc.1, hc.2.1 ▸ hk, hc.2.2.2, rfl⟩
  · obtain ⟨s, hs, hr⟩ := Out.bind_ok hr
    cases hr
    obtain ⟨⟨c', e, hc'⟩, hd, hi, hL⟩ := opsInertiaInverseAba_run h hl hs
    rw [index_ofNat (index_lt hk)] at hi
    refine ⟨?_, rfl, hk.trans hi, rfl, rfl⟩
    simp only
    rw [hL]
    rw [e] at hd ⊢
    exact ⟨_, rfl, { hc' with opsAbaLam := fun _ => ⟨hd, rfl⟩ }⟩

theorem opsCcStep_causal {σ : Sys} (hw : ParLt σ.n σ.par) (vd : Bool) :
    ∀ i < σ.n, ∀ a b old, (∀ j < i, a j = b j) →
      σ.opsCcStep vd a i old = σ.opsCcStep vd b i old := by
  intro i hi a b old hab
  unfold Sys.opsCcStep
  simp only
  rw [Sys.velStep_congr _ a b i hw hi hab]

theorem opsCc_vel {σ : Sys} (hw : σ.WF) (vd : Bool) (arr0 : ℕ → VAF)
    (h0 : vd = true → σ.VelOK fun i => (arr0 i).v) :
    σ.VelOK fun i => (fwdLoop σ.n (σ.opsCcStep vd) arr0 i).v := by
  cases vd with
  | true =>
    intro i hi
    have := Sys.fwdLoop_spec' (opsCcStep_causal hw.par_lt true) arr0 i hi
    show (σ.Tw i).actM (fwdLoop σ.n (σ.opsCcStep true) arr0 i).v = _
    rw [this]
    simpa [Sys.opsCcStep] using h0 rfl i hi
  | false =>
    apply hw.velOK_of_rec
    intro i hi
    have := Sys.fwdLoop_spec' (opsCcStep_causal hw.par_lt false) arr0 i hi
    rw [this]
    simp [Sys.opsCcStep]

theorem opsCoriolisAba_step (h : Inv E b) (hl : ∀ k, b.load k = none) {l : ℤ} {x : Vec3} {eps : ℝ}
    {r : (Fin 6 → ℝ) × Body} (hr : b.opsCoriolisAba E l x eps = .ok r) : Step E b r.2 := by
  obtain ⟨k, hk, hr⟩ := Out.bind_ok hr
  obtain ⟨s, hs, hr⟩ := Out.bind_ok hr
  cases hr
  simp only [h.view] at hs
  obtain ⟨c', e, hc'⟩ := (touchTw_step h).trans (touchTp_step (h.step (touchTw_step h)))
  rw [e] at hs
  have haba : b.c.abaDone = true → b.fresh.unload.AbaOK b.c.aba := by
    rw [fresh_unload hl]; exact h.coh.aba
  have hw : b.fresh.unload.WF := by rw [fresh_unload hl]; exact h.wf
  have hvel : b.c.velDone = true → b.fresh.unload.VelOK fun i => (b.vaf i).v := h.coh.vel
  set arr := fwdLoop b.fresh.unload.n (b.fresh.unload.opsCcStep b.c.velDone) b.vaf with harr
  set R := b.fresh.unload.opsBackward b.c.abaDone b.c.aba (fun i => (arr i).a) (fun i => (arr i).f)
    with hR
  have hst : Step E b { b with c := { c' with
      v := fun i => (arr i).v, velDone := true, a := fun i => (arr i).a
      f := fun i => (R.1 i).2, aba := abaCacheOf R, abaDone := true } } := by
    refine ⟨_, rfl, { hc' with vel := fun _ => ?_, aba := fun _ => ?_ }⟩
    · exact opsCc_vel hw b.c.velDone b.vaf hvel
    · have := Sys.abaBackward_ok (σ := b.fresh.unload) h.tree.parLt (fun _ => 0)
        ⟨false, false, false, 0⟩ b.c.abaDone b.c.aba haba (fun i => (arr i).a)
        (fun i => (arr i).f) (fun i => ⟨b.c.aba.h i, b.c.aba.d i, 0⟩)
      rw [← fresh_unload hl]
      exact this
  exact hst.trans (opsInertiaAba_run (h.step hst) hl hs).1

theorem opsGravityAba_step (h : Inv E b) (hl : ∀ k, b.load k = none) {l : ℤ} {x : Vec3}
    {fext : FExt} {eps : ℝ} {r : (Fin 6 → ℝ) × Body}
    (hr : b.opsGravityAba E l x fext eps = .ok r) : Step E b r.2 := by
  obtain ⟨k, hk, hr⟩ := Out.bind_ok hr
  obtain ⟨s, hs, hr⟩ := Out.bind_ok hr
  cases hr
  simp only [h.view] at hs
  obtain ⟨c', e, hc'⟩ := (touchTw_step h).trans (touchTp_step (h.step (touchTw_step h)))
  rw [e] at hs
  have haba : b.c.abaDone = true → b.fresh.unload.AbaOK b.c.aba := by
    rw [fresh_unload hl]; exact h.coh.aba
  set f := fwdLoop b.fresh.unload.n (fun _ i _ => b.fresh.unload.subExt fext i
    ((b.fresh.unload.abaInit b.c.abaDone b.c.aba i).app
      ((b.fresh.unload.Tw i).inv.actM b.fresh.unload.g))) b.c.f with hf
  set R := b.fresh.unload.opsBackward b.c.abaDone b.c.aba (fun _ => 0) f with hR
  have hst : Step E b { b with c := { c' with
      f := fun i => (R.1 i).2, aba := abaCacheOf R, abaDone := true } } := by
    refine ⟨_, rfl, { hc' with aba := fun _ => ?_ }⟩
    have := Sys.abaBackward_ok (σ := b.fresh.unload) h.tree.parLt (fun _ => 0)
      ⟨false, false, false, 0⟩ b.c.abaDone b.c.aba haba (fun _ => 0)
      f (fun i => ⟨b.c.aba.h i, b.c.aba.d i, 0⟩)
    rw [← fresh_unload hl]
    exact this
  exact hst.trans (opsInertiaAba_run (h.step hst) hl hs).1

/-! ## Discrete dynamics -/

theorem drnea_step (h : Inv E b) (d : DrneaCache) :
    Step E b { b with c := { b.c with drnea := d } } := ⟨_, rfl, { h.coh with }⟩

theorem refreshPrev_step (h : Inv E b) (dt : ℝ) : Step E b (b.refreshPrev dt) := by
  unfold refreshPrev
  split
  · exact drnea_step h _
  · exact Step.refl h

theorem refreshMomentum_step (h : Inv E b) (dt : ℝ) : Step E b (b.refreshMomentum E dt) := by
  unfold refreshMomentum
  split
  · exact Step.refl h
  · have h1 := touch_step h (decide (0 < b.dof)) false
    exact h1.trans (drnea_step (h.step h1) _)

theorem discreteID_step (h : Inv E b) (qNext : ℕ → ℝ) (dt : ℝ) (fext : FExt) (g : Bool) :
    Step E b (b.discreteID E qNext dt fext g).2 := by
  unfold discreteID
  have h1 := refreshPrev_step h dt
  have h2 := h1.trans (refreshMomentum_step (h.step h1) dt)
  simp only
  set b1 := (b.refreshPrev dt).refreshMomentum E dt
  have h3 := h2.trans (touch_step (h.step h2) (decide (0 < b1.dof)) (b1.hasExt fext))
  have h4 := fun d => h3.trans (drnea_step (h.step h3) d)
  split
  · exact (h4 _).trans (gravity_run (h.step (h4 _))).1
  · exact h4 _

theorem discreteLoop_step (tau : ℕ → ℝ) (dt : ℝ) (fext : FExt) (o : DIntOpts) (k : ℕ)
    (s : (ℕ → ℝ) × Body) (h : Inv E s.2) :
    Step E s.2 (discreteLoop E tau dt fext o k s).2 := by
  induction k generalizing s with
  | zero => exact Step.refl h
  | succ k ih =>
    unfold discreteLoop
    have h1 := discreteID_step h s.1 dt fext o.gravity
    simp only
    split
    · exact h1
    · have h2 := h1.trans (inertiaInverse_run (h.step h1)).1
      exact h2.trans (ih _ (h.step h2))

end Body

open Body in
/-- Every query keeps the cache coherent and leaves the observable state alone. -/
theorem Query.run_step {E : Ext} {b : Body} (h : Inv E b) {d : Bool} (x : Query)
    (hx : (Op.query x).Safe b d) {r : Ans × Body} (hr : x.run E b = .ok r) : Step E b r.2 := by
  cases x with
  | rigidBody i => obtain ⟨a, -, rfl⟩ := Out.map_ok hr; exact Step.refl h
  | q i => obtain ⟨a, -, rfl⟩ := Out.map_ok hr; exact Step.refl h
  | dq i => obtain ⟨a, -, rfl⟩ := Out.map_ok hr; exact Step.refl h
  | ancestors i => obtain ⟨a, -, rfl⟩ := Out.map_ok hr; exact Step.refl h
  | subtree i => obtain ⟨a, -, rfl⟩ := Out.map_ok hr; exact Step.refl h
  | tToParent i =>
    obtain ⟨a, ha, rfl⟩ := Out.map_ok hr
    obtain ⟨k, -, ha⟩ := Out.bind_ok ha
    cases ha; exact touchTp_step h
  | tToWorld i =>
    obtain ⟨a, ha, rfl⟩ := Out.map_ok hr
    obtain ⟨k, -, ha⟩ := Out.bind_ok ha
    cases ha; exact touchTw_step h
  | tFromParent i =>
    obtain ⟨a, ha, rfl⟩ := Out.map_ok hr
    obtain ⟨s, hs, ha⟩ := Out.bind_ok ha
    obtain ⟨k, -, hs⟩ := Out.bind_ok hs
    cases ha; cases hs; exact touchTp_step h
  | tFromWorld i =>
    obtain ⟨a, ha, rfl⟩ := Out.map_ok hr
    obtain ⟨s, hs, ha⟩ := Out.bind_ok ha
    obtain ⟨k, -, hs⟩ := Out.bind_ok hs
    cases ha; cases hs; exact touchTw_step h
  | position i x =>
    obtain ⟨a, ha, rfl⟩ := Out.map_ok hr
    obtain ⟨k, -, ha⟩ := Out.bind_ok ha
    cases ha; exact touchTw_step h
  | positionQ q i x => obtain ⟨a, -, rfl⟩ := Out.map_ok hr; exact Step.refl h
  | orientation i =>
    obtain ⟨a, ha, rfl⟩ := Out.map_ok hr
    obtain ⟨k, -, ha⟩ := Out.bind_ok ha
    cases ha; exact touchTw_step h
  | orientationQ q i => obtain ⟨a, -, rfl⟩ := Out.map_ok hr; exact Step.refl h
  | cartesianPose i x =>
    obtain ⟨a, ha, rfl⟩ := Out.map_ok hr
    obtain ⟨k, -, ha⟩ := Out.bind_ok ha
    cases ha; exact touchTw_step h
  | jacobian i x =>
    obtain ⟨a, ha, rfl⟩ := Out.map_ok hr
    exact (jacobian_run h ha).1
  | jacobianQ q i x => obtain ⟨a, -, rfl⟩ := Out.map_ok hr; exact Step.refl h
  | linearJacobian i x =>
    obtain ⟨a, ha, rfl⟩ := Out.map_ok hr
    obtain ⟨s, hs, ha⟩ := Out.bind_ok ha
    cases ha; exact (jacobian_run h hs).1
  | angularJacobian i =>
    obtain ⟨a, ha, rfl⟩ := Out.map_ok hr
    obtain ⟨s, hs, ha⟩ := Out.bind_ok ha
    cases ha; exact (jacobian_run h hs).1
  | hessian i x =>
    obtain ⟨a, ha, rfl⟩ := Out.map_ok hr
    exact (hessian_run h ha).1
  | inverseDynamics a f o => cases hr; exact inverseDynamics_step h a f o
  | centrifugalCoriolis => cases hr; exact (centrifugalCoriolis_run h).1
  | gravity => cases hr; exact (gravity_run h).1
  | externalTorques f => cases hr; exact (externalTorques_run h f).1
  | friction t c e => cases hr; exact Step.refl h
  | inertia => cases hr; exact (inertia_run h).1
  | compositeInertia i =>
    obtain ⟨a, ha, rfl⟩ := Out.map_ok hr
    obtain ⟨k, -, ha⟩ := Out.bind_ok ha
    cases ha; exact (inertia_run h).1
  | inertiaInverse => cases hr; exact (inertiaInverse_run h).1
  | forwardDynamics t f o => cases hr; exact fd_step h t f o
  | forwardDynamicsAba t f o => cases hr; exact forwardDynamicsAba_step h t f o
  | inertiaInverseAba => cases hr; exact (inertiaInverseAba_run h).1
  | opsInertia J e => obtain ⟨a, ha, rfl⟩ := Out.map_ok hr; exact (opsInertia_run h ha).1
  | opsInertiaInverse J =>
    obtain ⟨a, ha, rfl⟩ := Out.map_ok hr; exact (opsInertiaInverse_run h ha).1
  | opsIsSingular J e => obtain ⟨a, ha, rfl⟩ := Out.map_ok hr; exact (opsIsSingular_run h ha).1
  | opsJbar J e => obtain ⟨a, ha, rfl⟩ := Out.map_ok hr; exact (opsJbar_run h ha).1
  | opsCoriolis J l e => obtain ⟨a, ha, rfl⟩ := Out.map_ok hr; exact opsCoriolis_step h ha
  | opsGravity J e => obtain ⟨a, ha, rfl⟩ := Out.map_ok hr; exact opsGravity_step h ha
  | opsExternal J f e => obtain ⟨a, ha, rfl⟩ := Out.map_ok hr; exact opsExternal_step h ha
  | opsFriction J t e s => obtain ⟨a, ha, rfl⟩ := Out.map_ok hr; exact opsFriction_step h ha
  | opsInverseDynamics J x N f sf o =>
    obtain ⟨a, ha, rfl⟩ := Out.map_ok hr; exact opsInverseDynamics_step h ha
  | opsInertiaInverseAba l x =>
    obtain ⟨a, ha, rfl⟩ := Out.map_ok hr; exact (opsInertiaInverseAba_run h hx ha).1
  | opsInertiaAba l x e =>
    obtain ⟨a, ha, rfl⟩ := Out.map_ok hr; exact (opsInertiaAba_run h hx ha).1
  | opsCoriolisAba l x e =>
    obtain ⟨a, ha, rfl⟩ := Out.map_ok hr; exact opsCoriolisAba_step h hx ha
  | opsGravityAba l x f e =>
    obtain ⟨a, ha, rfl⟩ := Out.map_ok hr; exact opsGravityAba_step h hx ha
  | velocityDerivative a f o => cases hr; exact velocityDerivative_step h a f o
  | positionDerivative a f o =>
    obtain ⟨a, ha, rfl⟩ := Out.map_ok hr; exact positionDerivative_step h ha
  | discreteInverseDynamics u dt f g => cases hr; exact discreteID_step h u dt f g

end SpatialDyn
