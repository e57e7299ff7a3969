import Verif.Lemmas.OpsSteps

/-! Every reachable body satisfies the cache invariant. -/

namespace SpatialDyn

/-- No result is cached. -/
structure Cache.Clear (c : Cache) : Prop where
  tp : c.tpDone = false
  tw : c.twDone = false
  vel : c.velDone = false
  jac : c.jacDone = false
  cc : c.ccDone = false
  grav : c.gravDone = false
  crba : c.crbaDone = false
  inv : c.invDone = false
  aba : c.abaDone = false
  abaInv : c.abaInvDone = false
  opsInv : c.ops.lambdaInvDone = false
  opsLam : c.ops.lambdaDone = false
  opsJbar : c.ops.jbarDone = false
  opsAbaInv : c.opsAba.lambdaInvDone = false
  opsAbaLam : c.opsAba.lambdaDone = false

theorem Cache.clear_clearQ (c : Cache) : c.clearQ.Clear := by constructor <;> rfl
theorem Cache.clear_expand (c : Cache) (i : ℕ) : (c.expand i).Clear := by constructor <;> rfl

namespace Sys
variable (σ : Sys) (d : ℕ → ℝ) (g : Motion)

/-- Change the velocity and gravity of a system. -/
def withDG (σ : Sys) (d : ℕ → ℝ) (g : Motion) : Sys := { σ with dq := d, g := g }

theorem crbaWalk_dg (i k : ℕ) (p : Option ℕ) (c : ℕ) (f : Force) (A : ℕ → ℕ → ℝ) :
    (σ.withDG d g).crbaWalk i k p c f A = σ.crbaWalk i k p c f A := by
  induction k generalizing p c f A with
  | zero => rfl
  | succ k ih =>
    cases p with
    | none => rfl
    | some j => exact ih _ _ _ _

theorem crbaStep_dg : (σ.withDG d g).crbaStep = σ.crbaStep := by
  funext s i
  unfold crbaStep
  simp only [crbaWalk_dg]
  rfl

theorem crba_dg : (σ.withDG d g).crba = σ.crba := by
  funext Ic0
  unfold crba
  rw [crbaStep_dg]
  rfl

theorem artRed_dg : (σ.withDG d g).artRed = σ.artRed := rfl

theorem abaOK_dg (c : AbaCache) : (σ.withDG d g).AbaOK c ↔ σ.AbaOK c := Iff.rfl

theorem invBackward_dg : (σ.withDG d g).invBackward = σ.invBackward := rfl

theorem invFwdInner_dg : (σ.withDG d g).invFwdInner = σ.invFwdInner := rfl

theorem inertiaInverseAba_dg : (σ.withDG d g).inertiaInverseAba = σ.inertiaInverseAba := by
  funext sub done c A0
  unfold inertiaInverseAba
  rw [invBackward_dg]
  unfold invForward
  rw [invFwdInner_dg]
  rfl

theorem unload_dg : (σ.withDG d g).unload = σ.unload.withDG d g := rfl

theorem opsBackward_dg : (σ.withDG d g).opsBackward = σ.opsBackward := by
  funext done c a f
  unfold opsBackward
  have e : (σ.withDG d g).abaDdq (fun _ => 0) ⟨false, false, false, 0⟩ =
      σ.abaDdq (fun _ => 0) ⟨false, false, false, 0⟩ := by
    funext i x y
    simp [abaDdq, withDG]
  unfold abaBackward
  rw [e]
  rfl

theorem opsForward_dg : (σ.withDG d g).opsForward = σ.opsForward := rfl

end Sys

namespace Body
variable {b : Body} {E : Ext}

theorem CohC.of_clear {c : Cache} (h : c.Clear) (b : Body) : CohC E b c := by
  constructor <;> intro x
  · rw [h.tp] at x; cases x
  · rw [h.tw] at x; cases x
  · rw [h.vel] at x; cases x
  · rw [h.jac] at x; cases x
  · rw [h.cc] at x; cases x
  · rw [h.cc] at x; cases x
  · rw [h.grav] at x; cases x
  · rw [h.crba] at x; cases x
  · rw [h.inv] at x; cases x
  · rw [h.aba] at x; cases x
  · rw [h.abaInv] at x; cases x
  · rw [h.opsInv] at x; cases x
  · rw [h.opsLam] at x; cases x
  · rw [h.opsJbar] at x; cases x
  · rw [h.opsAbaInv] at x; cases x
  · rw [h.opsAbaLam] at x; cases x

/-! ## Mutators -/

theorem setQ_inv (h : Inv E b) {q : List ℝ} {b' : Body} (hs : b.setQ q = .ok b') :
    Inv E b' ∧ (b'.q ≠ b.q → b'.c.Clear) ∧ (b'.q = b.q → b' = b) := by
  unfold setQ at hs
  split at hs
  · cases hs
  · next hl =>
    split at hs
    · cases hs; exact ⟨h, fun hne => absurd rfl hne, fun _ => rfl⟩
    · next hne =>
      cases hs
      refine ⟨⟨⟨not_not.1 hl, h.tree.ldq, h.tree.lanc, h.tree.lsub, h.tree.ids, h.tree.anc_mem,
        h.tree.anc_sorted, h.tree.sub_mem, h.tree.sub_sorted⟩, ⟨h.rigid.base, h.rigid.link⟩,
        CohC.of_clear b.c.clear_clearQ _⟩, fun _ => b.c.clear_clearQ, fun he => absurd he.symm hne⟩

/-- Inertia-like results do not depend on velocity and gravity. -/
theorem CohC.dg {c : Cache} (h : CohC E b c) (b' : Body) (d : ℕ → ℝ) (g : Motion)
    (hf : b'.fresh = b.fresh.withDG d g) (hn : b'.dof = b.dof) (hs : b'.sub = b.sub)
    (ha : b'.anc = b.anc) (hT : b'.freshTw = b.freshTw) (hl : b'.load = b.load) :
    (c.crbaDone = true → ∃ Ic0, c.A = (b'.fresh.crba Ic0).2 ∧ c.Ic = (b'.fresh.crba Ic0).1) ∧
    (c.invDone = true → IsA b'.fresh c.Afact) ∧
    (c.abaInvDone = true → ∃ done k A0, (done = true → b'.fresh.AbaOK k) ∧
      c.abaInv = (b'.fresh.inertiaInverseAba (fun i => b'.sub.getD i []) done k A0).1) ∧
    (c.ops.lambdaInvDone = true → c.ops.J.cols = b'.dof ∧ ∃ A, IsA b'.fresh A ∧
      c.ops.AinvJT = ainvJT E b'.dof A c.ops.J ∧ c.ops.LambdaInv = c.ops.J.mul c.ops.AinvJT) ∧
    (c.opsAba.lambdaInvDone = true → (∀ k, b'.load k = none) ∧ c.opsAba.idx < b'.dof ∧
      ∃ done k, (done = true → b'.fresh.unload.AbaOK k) ∧
        c.opsAba.LambdaInv = lambdaInvAba b' done k c.opsAba.idx) := by
  unfold IsA lambdaInvAba
  rw [hf, hn, hs, ha, hT, hl, Sys.unload_dg, Sys.crba_dg, Sys.inertiaInverseAba_dg,
    Sys.opsBackward_dg, Sys.opsForward_dg]
  simp only [Sys.abaOK_dg]
  exact ⟨h.crba, h.inv, h.abaInv, h.opsInv, h.opsAbaInv⟩

theorem setDq_inv (h : Inv E b) {dq : List ℝ} {b' : Body} (hs : b.setDq dq = .ok b') :
    Inv E b' ∧ b'.q = b.q ∧ (b.c.Clear → b'.c.Clear) := by
  unfold setDq at hs
  split at hs
  · cases hs
  · next hl =>
    split at hs
    · cases hs; exact ⟨h, rfl, id⟩
    · cases hs
      refine ⟨⟨⟨h.tree.lq, not_not.1 hl, h.tree.lanc, h.tree.lsub, h.tree.ids, h.tree.anc_mem,
        h.tree.anc_sorted, h.tree.sub_mem, h.tree.sub_sorted⟩, ⟨h.rigid.base, h.rigid.link⟩, ?_⟩,
        rfl, fun hc => ?_⟩
      · obtain ⟨k1, k2, k3, k4, k5⟩ := CohC.dg h.coh { b with dq := dq, c := b.c.clearDq }
          (fun i => dq.getD i 0) ⟨b.g, 0⟩ rfl rfl rfl rfl rfl rfl
        exact {
          tp := h.coh.tp
          tw := h.coh.tw
          vel := fun x => absurd x Bool.false_ne_true
          jac := h.coh.jac
          cc := fun x => absurd x Bool.false_ne_true
          cC := fun x => absurd x Bool.false_ne_true
          grav := h.coh.grav
          crba := k1
          inv := k2
          aba := fun x => absurd x Bool.false_ne_true
          abaInv := k3
          opsInv := k4
          opsLam := h.coh.opsLam
          opsJbar := h.coh.opsJbar
          opsAbaInv := k5
          opsAbaLam := h.coh.opsAbaLam }
      · exact ⟨hc.tp, hc.tw, rfl, hc.jac, rfl, hc.grav, hc.crba, hc.inv, rfl, hc.abaInv, hc.opsInv,
          hc.opsLam, hc.opsJbar, hc.opsAbaInv, hc.opsAbaLam⟩

theorem setG_inv (h : Inv E b) (g : Vec3) :
    Inv E (b.setG g) ∧ (b.c.Clear → (b.setG g).c.Clear) := by
  refine ⟨⟨⟨h.tree.lq, h.tree.ldq, h.tree.lanc, h.tree.lsub, h.tree.ids, h.tree.anc_mem,
        h.tree.anc_sorted, h.tree.sub_mem, h.tree.sub_sorted⟩, ⟨h.rigid.base, h.rigid.link⟩, ?_⟩,
        fun hc => ?_⟩
  · obtain ⟨k1, k2, k3, k4, k5⟩ := CohC.dg h.coh (b.setG g)
      (fun i => b.dq.getD i 0) ⟨g, 0⟩ rfl rfl rfl rfl rfl rfl
    exact {
      tp := h.coh.tp
      tw := h.coh.tw
      vel := h.coh.vel
      jac := h.coh.jac
      cc := h.coh.cc
      cC := h.coh.cC
      grav := fun x => absurd x Bool.false_ne_true
      crba := k1
      inv := k2
      aba := fun x => absurd x Bool.false_ne_true
      abaInv := k3
      opsInv := k4
      opsLam := h.coh.opsLam
      opsJbar := h.coh.opsJbar
      opsAbaInv := k5
      opsAbaLam := h.coh.opsAbaLam }
  · exact ⟨hc.tp, hc.tw, hc.vel, hc.jac, hc.cc, rfl, hc.crba, hc.inv, rfl, hc.abaInv, hc.opsInv,
      hc.opsLam, hc.opsJbar, hc.opsAbaInv, hc.opsAbaLam⟩

theorem load_inv (h : Inv E b) (l : ℤ → Option Inertia) :
    Inv E { b with load := l, c := b.c.clearDynamics } ∧
      (b.c.Clear → b.c.clearDynamics.Clear) := by
  refine ⟨⟨⟨h.tree.lq, h.tree.ldq, h.tree.lanc, h.tree.lsub, h.tree.ids, h.tree.anc_mem,
        h.tree.anc_sorted, h.tree.sub_mem, h.tree.sub_sorted⟩, ⟨h.rigid.base, h.rigid.link⟩, ?_⟩,
        fun hc => ?_⟩
  · exact {
      tp := h.coh.tp
      tw := h.coh.tw
      vel := h.coh.vel
      jac := h.coh.jac
      cc := fun x => absurd x Bool.false_ne_true
      cC := fun x => absurd x Bool.false_ne_true
      grav := fun x => absurd x Bool.false_ne_true
      crba := fun x => absurd x Bool.false_ne_true
      inv := fun x => absurd x Bool.false_ne_true
      aba := fun x => absurd x Bool.false_ne_true
      abaInv := fun x => absurd x Bool.false_ne_true
      opsInv := fun x => absurd x Bool.false_ne_true
      opsLam := fun x => absurd x Bool.false_ne_true
      opsJbar := fun x => absurd x Bool.false_ne_true
      opsAbaInv := fun x => absurd x Bool.false_ne_true
      opsAbaLam := fun x => absurd x Bool.false_ne_true }
  · exact ⟨hc.tp, hc.tw, hc.vel, hc.jac, rfl, rfl, rfl, rfl, rfl, rfl, rfl, rfl, rfl, rfl, rfl⟩

theorem setBase_inv (h : Inv E b) (hc : b.c.Clear) {T : Iso} (hT : T.Valid) :
    Inv E (b.setBase T) :=
  ⟨⟨h.tree.lq, h.tree.ldq, h.tree.lanc, h.tree.lsub, h.tree.ids, h.tree.anc_mem,
    h.tree.anc_sorted, h.tree.sub_mem, h.tree.sub_sorted⟩, ⟨hT, h.rigid.link⟩,
    CohC.of_clear hc _⟩

theorem setInertiaBase_inv (h : Inv E b) {I : Inertia} {b' : Body}
    (hs : b.setInertiaBase I = .ok b') : Inv E b' ∧ b'.q = b.q ∧ b'.c = b.c := by
  unfold setInertiaBase at hs
  split at hs
  · cases hs
  · cases hs
    exact ⟨⟨⟨h.tree.lq, h.tree.ldq, h.tree.lanc, h.tree.lsub, h.tree.ids, h.tree.anc_mem,
      h.tree.anc_sorted, h.tree.sub_mem, h.tree.sub_sorted⟩, ⟨h.rigid.base, h.rigid.link⟩,
      ⟨h.coh.tp, h.coh.tw, h.coh.vel, h.coh.jac, h.coh.cc, h.coh.cC, h.coh.grav, h.coh.crba,
        h.coh.inv, h.coh.aba, h.coh.abaInv, h.coh.opsInv, h.coh.opsLam, h.coh.opsJbar,
        h.coh.opsAbaInv, h.coh.opsAbaLam⟩⟩, rfl, rfl⟩

theorem addRigidBody_inv (h : Inv E b) {rb : RB} (hrb : rb.T.Valid) {p : ℤ} {id : ℕ} {b' : Body}
    (hs : b.addRigidBody rb p = .ok (id, b')) : Inv E b' ∧ b'.c.Clear := by
  have hr := addRigidBody_rb hs
  have hd := addRigidBody_dof hs
  have hc : b'.c.Clear ∧ b'.T0 = b.T0 := by
    obtain ⟨-, -, -, rfl⟩ := addRigidBody_ok hs
    exact ⟨b.c.clear_expand _, rfl⟩
  refine ⟨⟨h.tree.addRigidBody hs, ⟨hc.2 ▸ h.rigid.base, fun i hi => ?_⟩,
    CohC.of_clear hc.1 _⟩, hc.1⟩
  rw [hr i]
  split
  · exact hrb
  · exact h.rigid.link i (by omega)

/-! ## Integration -/

theorem accel_step (h : Inv E b) (tau : ℕ → ℝ) (fext : FExt) (o : IntOpts) :
    Step E b (b.accel E tau fext o).2 := by
  unfold accel
  split
  · exact forwardDynamicsAba_step h tau fext o.fd
  · exact fd_step h tau fext o.fd

theorem setState_inv (h : Inv E b) {lim : Bool} {q dq : ℕ → ℝ} {b' : Body}
    (hs : b.setState lim q dq = .ok b') : Inv E b' := by
  obtain ⟨b1, h1, hs⟩ := Out.bind_ok hs
  exact (setDq_inv (setQ_inv h h1).1 hs).1

theorem integrate_inv (h : Inv E b) {tau : ℕ → ℝ} {dt : ℝ} {fext : FExt} {o : IntOpts} {b' : Body}
    (hs : b.integrate E tau dt fext o = .ok b') : Inv E b' := by
  unfold integrate integrateWith at hs
  have h0 := h.step (accel_step h tau fext o)
  simp only at hs
  split at hs
  · exact setState_inv h0 hs
  · obtain ⟨b1, h1, hs⟩ := Out.bind_ok hs
    have i1 := setState_inv h0 h1
    exact setState_inv (i1.step (accel_step i1 tau fext o)) hs
  · obtain ⟨b1, h1, hs⟩ := Out.bind_ok hs
    have i1 := setState_inv h0 h1
    obtain ⟨b2, h2, hs⟩ := Out.bind_ok hs
    have i2 := setState_inv (i1.step (accel_step i1 tau fext o)) h2
    obtain ⟨b3, h3, hs⟩ := Out.bind_ok hs
    have i3 := setState_inv (i2.step (accel_step i2 tau fext o)) h3
    exact setState_inv (i3.step (accel_step i3 tau fext o)) hs

theorem discreteIntegrate_inv (h : Inv E b) {tau : ℕ → ℝ} {dt : ℝ} {fext : FExt} {o : DIntOpts}
    {b' : Body} (hs : b.discreteIntegrate E tau dt fext o = .ok b') : Inv E b' := by
  unfold discreteIntegrate at hs
  obtain ⟨b1, h1, hs⟩ := Out.bind_ok hs
  obtain ⟨b2, h2, hs⟩ := Out.bind_ok hs
  cases hs
  have i0 := h.step (fd_step h tau fext ⟨o.gravity, true, false, 0.01⟩)
  have i1 := fun u => i0.step (discreteLoop_step tau dt fext o o.maxIter (u, _) i0)
  have i2 := (setDq_inv (setQ_inv (i1 _) h1).1 h2).1
  exact i2.step (drnea_step i2 _)

end Body

open Body

theorem Out.exec_cases {E : Ext} {b b' : Body} {op : Op} (h : op.exec E b = some b') :
    op.step E b = .ok b' ∨ (op.step E b = .throws ∧ b' = b) := by
  unfold Op.exec at h
  cases hs : op.step E b with
  | ok x => rw [hs] at h; cases h; exact .inl rfl
  | throws => rw [hs] at h; cases h; exact .inr ⟨rfl, rfl⟩
  | ub => rw [hs] at h; cases h

/-- One allowed call preserves the invariant. -/
theorem Op.step_inv {E : Ext} {b b' : Body} {d : Bool} {op : Op} (h : Inv E b)
    (hd : d = false → b.c.Clear) (ho : op.Safe b d) (hs : op.step E b = .ok b') :
    Inv E b' ∧ (op.dirty b b' d = false → b'.c.Clear) := by
  cases op with
  | addRigidBody rb p =>
    obtain ⟨⟨id, b1⟩, h1, rfl⟩ := Out.map_ok hs
    obtain ⟨h2, h3⟩ := addRigidBody_inv h ho h1
    exact ⟨h2, fun _ => h3⟩
  | setQ q =>
    obtain ⟨h1, h2, h3⟩ := setQ_inv h hs
    refine ⟨h1, fun hx => ?_⟩
    by_cases he : b'.q = b.q
    · rw [h3 he]
      simp only [Op.dirty, if_pos he] at hx
      exact hd hx
    · exact h2 he
  | setDq dq =>
    obtain ⟨h1, h2, h3⟩ := setDq_inv h hs
    refine ⟨h1, fun hx => h3 (hd ?_)⟩
    simpa only [Op.dirty, if_pos h2] using hx
  | setG g =>
    cases hs
    obtain ⟨h1, h2⟩ := setG_inv h g
    refine ⟨h1, fun hx => h2 (hd ?_)⟩
    have e : (b.setG g).q = b.q := rfl
    simpa only [Op.dirty, if_pos e] using hx
  | addLoad I i =>
    cases hs
    obtain ⟨h1, h2⟩ := load_inv h (b.addLoad I i).load
    refine ⟨h1, fun hx => h2 (hd ?_)⟩
    have e : (b.addLoad I i).q = b.q := rfl
    simpa only [Op.dirty, if_pos e] using hx
  | replaceLoad I i =>
    cases hs
    obtain ⟨h1, h2⟩ := load_inv h (b.replaceLoad I i).load
    refine ⟨h1, fun hx => h2 (hd ?_)⟩
    have e : (b.replaceLoad I i).q = b.q := rfl
    simpa only [Op.dirty, if_pos e] using hx
  | clearLoad i =>
    cases hs
    obtain ⟨h1, h2⟩ := load_inv h (b.clearLoad i).load
    refine ⟨h1, fun hx => h2 (hd ?_)⟩
    have e : (b.clearLoad i).q = b.q := rfl
    simpa only [Op.dirty, if_pos e] using hx
  | setBase T =>
    cases hs
    exact ⟨setBase_inv h (hd ho.2) ho.1, fun _ => hd ho.2⟩
  | setInertiaBase I =>
    obtain ⟨h1, h2, h3⟩ := setInertiaBase_inv h hs
    refine ⟨h1, fun hx => h3 ▸ hd ?_⟩
    simpa only [Op.dirty, if_pos h2] using hx
  | query x =>
    obtain ⟨r, hr, rfl⟩ := Out.map_ok hs
    exact ⟨h.step (x.run_step h ho hr), fun hx => absurd hx.symm Bool.false_ne_true⟩
  | integrate t dt f o =>
    exact ⟨integrate_inv h hs, fun hx => absurd hx.symm Bool.false_ne_true⟩
  | discreteIntegrate t dt f o =>
    exact ⟨discreteIntegrate_inv h hs, fun hx => absurd hx.symm Bool.false_ne_true⟩

theorem Reach.inv' {E : Ext} {b : Body} {d : Bool} (h : Reach E b d) :
    Inv E b ∧ (d = false → b.c.Clear) := by
  induction h with
  | init c =>
    have hc : (Body.init c).c.Clear := by constructor <;> rfl
    exact ⟨⟨tree_init c, ⟨Iso.valid_one, fun i hi => absurd hi (Nat.not_lt_zero i)⟩,
      CohC.of_clear hc _⟩, fun _ => hc⟩
  | @step b b' d op _ ho hs ih =>
    rcases Out.exec_cases hs with h1 | ⟨h1, rfl⟩
    · exact Op.step_inv ih.1 ih.2 ho h1
    · refine ⟨ih.1, fun hx => ih.2 ?_⟩
      cases op <;> first
        | exact absurd hx.symm Bool.false_ne_true
        | simpa [Op.dirty] using hx

theorem Reach.inv {E : Ext} {b : Body} {d : Bool} (h : Reach E b d) : Inv E b := h.inv'.1

end SpatialDyn
