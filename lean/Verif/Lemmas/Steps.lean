import Verif.Lemmas.Coherence
import Verif.Lemmas.AbaCache

/-! Every query keeps the cache coherent, and what it returns is determined by the observable
state. -/

namespace SpatialDyn
namespace Body
variable {b : Body} {E : Ext}

theorem index_lt {i : ℤ} {k : ℕ} (h : b.index i = .ok k) : k < b.dof := by
  unfold index at h
  simp only at h
  split at h
  · next hc => cases h; omega
  · cases h

theorem index_ofNat {k : ℕ} (h : k < b.dof) : b.index (k : ℤ) = .ok k := by
  have e : b.resolve (k : ℤ) = k := by unfold resolve; rw [if_neg (by omega)]
  unfold index
  simp only [e]
  rw [if_pos (by omega)]
  rfl

theorem Out.bind_ok {α β : Type*} {x : Out α} {f : α → Out β} {r : β} (h : x.bind f = .ok r) :
    ∃ a, x = .ok a ∧ f a = .ok r := by
  cases x with
  | ok a => exact ⟨a, rfl, h⟩
  | throws => cases h
  | ub => cases h

theorem Out.map_ok {α β : Type*} {x : Out α} {f : α → β} {r : β} (h : x.map f = .ok r) :
    ∃ a, x = .ok a ∧ f a = r := by
  obtain ⟨a, h1, h2⟩ := Out.bind_ok h
  cases h2
  exact ⟨a, h1, rfl⟩

/-! ## Kinematics -/

theorem jacLoop_congr {Tw Tw' : ℕ → Iso} {ancs : List ℕ} (h : ∀ i ∈ ancs, Tw i = Tw' i) (p : Vec3) :
    b.jacLoop Tw ancs p = b.jacLoop Tw' ancs p := by
  unfold jacLoop
  generalize (fun _ => 0 : ℕ → Motion) = J0
  induction ancs generalizing J0 with
  | nil => rfl
  | cons a l ih =>
    rw [List.foldl_cons, List.foldl_cons, h a (by simp), ih (fun i hi => h i (by simp [hi]))]

theorem Tree.anc_lt (ht : b.Tree) {k i : ℕ} (hk : k < b.dof) (hi : i ∈ b.anc.getD k []) :
    i < b.dof :=
  lt_of_le_of_lt (((ht.anc_mem k hk i).1 hi).le ht.parLt hk) hk

theorem jacobian_run (h : Inv E b) {l : ℤ} {x : Vec3} {r : (ℕ → Motion) × Body}
    (hr : b.jacobian l x = .ok r) : Step E b r.2 ∧ ∃ k, b.index l = .ok k ∧
      r.1 = b.jacLoop b.freshTw (b.anc.getD k []) ((b.freshTw k).app x) := by
  obtain ⟨k, hk, hr⟩ := Out.bind_ok hr
  have hlt := index_lt hk
  split at hr
  · next hc =>
    cases hr
    obtain ⟨-, hJ⟩ := h.coh.jac hc.1
    refine ⟨Step.refl h, k, hk, ?_⟩
    rw [hJ, hc.2.1, hc.2.2]
  · cases hr
    have hJ : b.jacLoop b.viewTw (b.anc.getD k []) ((b.viewTw k).app x) =
        b.jacLoop b.freshTw (b.anc.getD k []) ((b.freshTw k).app x) := by
      rw [h.viewTw k hlt]
      exact jacLoop_congr (fun i hi => h.viewTw i (h.tree.anc_lt hlt hi)) _
    refine ⟨?_, k, hk, hJ⟩
    obtain ⟨c', e, hc'⟩ := touchTw_step h
    rw [e]
    refine ⟨_, rfl, { hc' with jac := fun _ => ⟨hlt, hJ⟩ }⟩

theorem hessLoop_congr {Tw Tw' : ℕ → Iso} {ancs : List ℕ} (h : ∀ i ∈ ancs, Tw i = Tw' i)
    (J : ℕ → Motion) (H : ℕ → ℕ → Motion) : b.hessLoop Tw J ancs H = b.hessLoop Tw' J ancs H := by
  induction ancs generalizing H with
  | nil => rfl
  | cons a l ih =>
    unfold hessLoop
    rw [h a (by simp), ih (fun i hi => h i (by simp [hi]))]

theorem hessian_run (h : Inv E b) {l : ℤ} {x : Vec3} {r : (ℕ → ℕ → Motion) × Body}
    (hr : b.hessian l x = .ok r) : Step E b r.2 ∧ ∃ k, b.index l = .ok k ∧
      r.1 = b.hessLoop b.freshTw
        (b.jacLoop b.freshTw (b.anc.getD k []) ((b.freshTw k).app x)) (b.anc.getD k [])
        (fun _ _ => 0) := by
  obtain ⟨k, hk, hr⟩ := Out.bind_ok hr
  have hlt := index_lt hk
  obtain ⟨s, hs, hr⟩ := Out.bind_ok hr
  cases hr
  obtain ⟨hst, k', hk', hJ⟩ := jacobian_run h hs
  rw [index_ofNat hlt] at hk'
  cases hk'
  refine ⟨hst.trans (touchTw_step (h.step hst)), k, hk, ?_⟩
  obtain ⟨c', e, hc'⟩ := hst
  have hi := h.step ⟨c', e, hc'⟩
  simp only [hJ]
  have hv : ∀ i ∈ b.anc.getD k [], s.2.viewTw i = b.freshTw i := by
    intro i hi'
    rw [hi.viewTw i (by rw [e]; exact h.tree.anc_lt hlt hi'), e]; rfl
  rw [show s.2.anc = b.anc by rw [e]]
  rw [hessLoop_congr (b := s.2) hv]
  have : ∀ (Tw : ℕ → Iso) (J : ℕ → Motion) (l : List ℕ) (H : ℕ → ℕ → Motion),
      s.2.hessLoop Tw J l H = b.hessLoop Tw J l H := by
    intro Tw J l
    induction l with
    | nil => intro H; rfl
    | cons a l ih =>
      intro H
      unfold hessLoop
      rw [show s.2.rb a = b.rb a by rw [e]; rfl, ih]
  exact this _ _ _ _

/-! ## Joint-space dynamics -/

theorem centrifugalCoriolis_run (h : Inv E b) : Step E b b.centrifugalCoriolis.2 ∧
    ∀ i < b.dof, b.centrifugalCoriolis.1 i = b.fresh.coriolisSpec i := by
  unfold centrifugalCoriolis
  split
  · next hd => exact ⟨Step.refl h, h.coh.cc hd⟩
  · rw [h.view]
    have h0 : b.c.velDone = true → b.fresh.VelOK fun i =>
        ((fun i => ⟨b.c.v i, b.c.cC i, b.c.fC i⟩ : ℕ → VAF) i).v := h.coh.vel
    have hC := fun i hi => h.wf.coriolis_spec b.c.velDone
      (fun i => ⟨b.c.v i, b.c.cC i, b.c.fC i⟩) h0 b.c.C i hi
    refine ⟨?_, hC⟩
    obtain ⟨d1, T1, d2, T2, e, h1, h2⟩ := touch_shape h b.hasChild false
    simp only [e]
    refine ⟨_, rfl, { h.coh with tp := h1, tw := h2, vel := fun _ => ?_, cc := fun _ => hC,
                                 cC := fun _ i hi => ?_ }⟩
    · exact h.wf.cc_vel _ _ h0
    · have := h.wf.cc_acc b.c.velDone (fun i => ⟨b.c.v i, b.c.cC i, b.c.fC i⟩) h0 i hi
      rw [fresh_Tw hi] at this
      exact this

theorem gravity_run (h : Inv E b) : Step E b b.gravity.2 ∧
    ∀ i < b.dof, b.gravity.1 i = b.fresh.gravitySpec i := by
  unfold gravity
  split
  · next hd => exact ⟨Step.refl h, h.coh.grav hd⟩
  · rw [h.view]
    have hG := fun i hi => h.wf.gravity_spec b.c.fG b.c.G i hi
    refine ⟨?_, hG⟩
    obtain ⟨d1, T1, d2, T2, e, h1, h2⟩ := touch_shape h b.hasChild (decide (0 < b.dof))
    simp only [e]
    exact ⟨_, rfl, { h.coh with tp := h1, tw := h2, grav := fun _ => hG }⟩

theorem externalTorques_run (h : Inv E b) (fext : FExt) : Step E b (b.externalTorques fext).2 ∧
    ∀ i < b.dof, (b.externalTorques fext).1 i = b.fresh.extSpec fext i := by
  unfold externalTorques
  rw [h.view]
  refine ⟨?_, fun i hi => h.wf.ext_spec fext b.c.fG i hi⟩
  obtain ⟨d1, T1, d2, T2, e, h1, h2⟩ := touch_shape h b.hasChild (b.hasExt fext)
  simp only [e]
  exact ⟨_, rfl, { h.coh with tp := h1, tw := h2 }⟩

theorem inertia_run (h : Inv E b) : Step E b b.inertia.2 ∧ IsA b.fresh b.inertia.1 ∧
    ∃ Ic0, b.inertia.2.c.Ic = (b.fresh.crba Ic0).1 := by
  unfold inertia
  split
  · next hd =>
    obtain ⟨Ic0, hA, hI⟩ := h.coh.crba hd
    exact ⟨Step.refl h, ⟨Ic0, hA⟩, Ic0, hI⟩
  · rw [h.view]
    refine ⟨?_, ⟨_, rfl⟩, _, rfl⟩
    obtain ⟨d1, T1, d2, T2, e, h1, h2⟩ := touch_shape h b.hasChild false
    simp only [e]
    exact ⟨_, rfl, { h.coh with tp := h1, tw := h2, crba := fun _ => ⟨_, rfl, rfl⟩ }⟩

theorem inertiaInverse_run (h : Inv E b) : Step E b b.inertiaInverse.2 ∧
    IsA b.fresh b.inertiaInverse.1 := by
  unfold inertiaInverse
  split
  · next hd => exact ⟨Step.refl h, h.coh.inv hd⟩
  · obtain ⟨⟨c', e, hc⟩, hA, -⟩ := inertia_run h
    refine ⟨?_, hA⟩
    simp only
    rw [e]
    exact ⟨_, rfl, { hc with inv := fun _ => hA }⟩

theorem inverseDynamics_step (h : Inv E b) (ddq : ℕ → ℝ) (fext : FExt) (o : IDOpts) :
    Step E b (b.inverseDynamics ddq fext o).2 := by
  unfold inverseDynamics
  split
  · exact (externalTorques_run h fext).1
  · rw [h.view]
    obtain ⟨d1, T1, d2, T2, e, h1, h2⟩ :=
      touch_shape h b.hasChild ((o.gravity && b.hasRoot) || b.hasExt fext)
    simp only [e]
    refine ⟨_, rfl, { h.coh with tp := h1, tw := h2, vel := fun hcc => ?_ }⟩
    exact h.wf.rnea_vel ddq fext o b.c.velDone b.vaf h.coh.vel hcc

/-- The value of `InverseDynamics`, whichever path it takes. -/
theorem inverseDynamics_val (h : Inv E b) (hs : b.fresh.SymI) (hm : b.fresh.PosMass)
    (ddq : ℕ → ℝ) (fext : FExt) (o : IDOpts) (i : ℕ) (hi : i < b.dof) :
    (b.inverseDynamics ddq fext o).1 i =
      b.fresh.addFriction o (b.fresh.idSpec ddq fext o.cc o.gravity) i := by
  have hfr : ∀ (σ : Sys) (t1 t2 : ℕ → ℝ), t1 i = t2 i →
      σ.addFriction o t1 i = σ.addFriction o t2 i := by
    intro σ t1 t2 ht
    unfold Sys.addFriction Sys.friction
    split
    · simp only [ht]
    · exact ht
  unfold inverseDynamics
  split
  · next hc =>
    simp only [Bool.and_eq_true] at hc
    obtain ⟨⟨hc1, hc2⟩, hc3⟩ := hc
    obtain ⟨Ic0, hA, -⟩ := h.coh.crba hc1
    rw [h.view]
    apply hfr
    have hAval : ∀ j < b.dof, b.c.A i j = b.fresh.massSpec i j := fun j hj => by
      rw [hA]; exact h.wf.crba_spec hs hm Ic0 i j hi hj
    have hsum : (∑ j ∈ Finset.range b.dof, b.c.A i j * ddq j) =
        ∑ j ∈ Finset.range b.dof, b.fresh.massSpec i j * ddq j :=
      Finset.sum_congr rfl fun j hj => by rw [hAval j (Finset.mem_range.1 hj)]
    have hext := (externalTorques_run h fext).2 i hi
    unfold Sys.idSpec
    show _ = (∑ j ∈ Finset.range b.dof, b.fresh.massSpec i j * ddq j) + _ + _ + _
    cases hcc : o.cc with
    | true =>
      have := h.coh.cc (by simpa [hcc] using hc2) i hi
      cases hg : o.gravity with
      | true =>
        have hG := h.coh.grav (by simpa [hg] using hc3) i hi
        simp only [if_true, this, hG, hext, hsum]; ring
      | false => simp only [if_true, this, hext, hsum, Bool.false_eq_true, if_false]; ring
    | false =>
      cases hg : o.gravity with
      | true =>
        have hG := h.coh.grav (by simpa [hg] using hc3) i hi
        simp only [if_true, hG, hext, hsum, Bool.false_eq_true, if_false]; ring
      | false => simp only [hext, hsum, Bool.false_eq_true, if_false]; ring
  · rw [h.view]
    show b.fresh.addFriction o _ i = _
    apply hfr
    exact h.wf.rnea_spec ddq fext { o with friction := false } b.c.velDone b.vaf h.coh.vel rfl i hi

theorem fd_step (h : Inv E b) (tau : ℕ → ℝ) (fext : FExt) (o : FDOpts) :
    Step E b (b.fd E tau fext o).2 := by
  unfold fd
  have h1 := inverseDynamics_step h (fun _ => 0) fext ⟨o.gravity, o.cc, false, 0.01⟩
  exact h1.trans (inertiaInverse_run (h.step h1)).1

theorem Step.fresh_eq {b' : Body} (h : Step E b b') : b'.fresh = b.fresh := by
  obtain ⟨c', rfl, -⟩ := h; rfl

theorem Step.dof_eq {b' : Body} (h : Step E b b') : b'.dof = b.dof := by
  obtain ⟨c', rfl, -⟩ := h; rfl

theorem forwardDynamicsAba_step (h : Inv E b) (tau : ℕ → ℝ) (fext : FExt) (o : FDOpts) :
    Step E b (b.forwardDynamicsAba tau fext o).2 := by
  unfold forwardDynamicsAba
  rw [h.view]
  obtain ⟨d1, T1, d2, T2, e, h1, h2⟩ :=
    touch_shape h (b.hasChild || (o.gravity && b.hasRoot)) (b.hasExt fext)
  simp only [e]
  refine ⟨_, rfl, { h.coh with tp := h1, tw := h2, vel := fun hcc => ?_, aba := fun _ => ?_ }⟩
  · exact h.wf.aba_vel fext o b.c.velDone b.vaf h.coh.vel hcc
  · exact Sys.aba_cache_ok h.tree.parLt tau fext o b.c.velDone b.c.abaDone b.vaf b.c.aba h.coh.aba

theorem inertiaInverseAba_run (h : Inv E b) : Step E b b.inertiaInverseAba.2 ∧
    ∃ done k A0, (done = true → b.fresh.AbaOK k) ∧
      b.inertiaInverseAba.1 =
        (b.fresh.inertiaInverseAba (fun i => b.sub.getD i []) done k A0).1 := by
  unfold inertiaInverseAba
  split
  · next hd => exact ⟨Step.refl h, h.coh.abaInv hd⟩
  · rw [h.view]
    refine ⟨?_, _, _, _, h.coh.aba, rfl⟩
    obtain ⟨d1, T1, d2, T2, e, h1, h2⟩ := touch_shape h b.hasChild false
    simp only [e]
    refine ⟨_, rfl, { h.coh with tp := h1, tw := h2, aba := fun _ => ?_, abaInv := fun _ => ?_ }⟩
    · exact Sys.inv_cache_ok h.tree.parLt _ _ _ _ h.coh.aba
    · exact ⟨_, _, _, h.coh.aba, rfl⟩

/-! ## Derivatives -/

theorem forcedID_step (h : Inv E b) (ddq : ℕ → ℝ) (fext : FExt) (o : IDOpts) :
    Step E b (b.forcedID ddq fext o) := by
  unfold forcedID
  have h0 : Step E b { b with c := { b.c with crbaDone := false } } :=
    ⟨_, rfl, { h.coh with crba := fun x => by cases x }⟩
  have h1 := inverseDynamics_step (h.step h0) ddq fext o
  obtain ⟨c', e, hc'⟩ := h0.trans h1
  have key : (({ b with c := { b.c with crbaDone := false } } : Body).inverseDynamics
      ddq fext o).2.c.A = b.c.A ∧
    (({ b with c := { b.c with crbaDone := false } } : Body).inverseDynamics
      ddq fext o).2.c.Ic = b.c.Ic := by
    unfold inverseDynamics
    simp only [Bool.false_and, Bool.false_eq_true, if_false]
    obtain ⟨d1, T1, d2, T2, e, -, -⟩ :=
      touch_shape (h.step h0) (({ b with c := { b.c with crbaDone := false } } : Body).hasChild)
      ((o.gravity && ({ b with c := { b.c with crbaDone := false } } : Body).hasRoot) ||
        ({ b with c := { b.c with crbaDone := false } } : Body).hasExt fext)
    rw [e]
    exact ⟨rfl, rfl⟩
  simp only
  rw [e] at key ⊢
  refine ⟨_, rfl, { hc' with crba := fun hd => ?_ }⟩
  obtain ⟨Ic0, e1, e2⟩ := h.coh.crba hd
  exact ⟨Ic0, key.1.trans e1, key.2.trans e2⟩

theorem velocityDerivative_step (h : Inv E b) (ddq : ℕ → ℝ) (fext : FExt) (o : IDOpts) :
    Step E b (b.velocityDerivative ddq fext o).2 := by
  unfold velocityDerivative
  split
  · exact Step.refl h
  · have h1 := forcedID_step h ddq fext o
    exact h1.trans (touch_step (h.step h1) _ _)

theorem positionDerivative_step (h : Inv E b) {ddq : ℕ → ℝ} {fext : FExt} {o : IDOpts}
    {r : (ℕ → ℕ → ℝ) × Body} (hr : b.positionDerivative ddq fext o = .ok r) : Step E b r.2 := by
  unfold positionDerivative at hr
  split at hr
  · cases hr
  · simp only [Out.ok.injEq] at hr
    rw [← hr]
    have h1 := forcedID_step h ddq fext o
    obtain ⟨c', e, hc'⟩ := h1.trans (touch_step (h.step h1) false
      ((o.gravity && (b.forcedID ddq fext o).hasRoot) || (b.forcedID ddq fext o).hasExt fext))
    simp only
    rw [e]
    exact ⟨_, rfl, { hc' with }⟩

end Body
end SpatialDyn
