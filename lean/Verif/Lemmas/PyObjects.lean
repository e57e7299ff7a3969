import Verif.Spec.PyObjects
import Verif.Lemmas.Rebuild

/-! What changes of link objects preserve. -/

namespace SpatialDyn
namespace Sys
variable (σ : Sys) (f : ℕ → Fric)

/-- Change the friction coefficients of a system. -/
def withFr (σ : Sys) (f : ℕ → Fric) : Sys := { σ with fr := f }

theorem crbaWalk_fr (i k : ℕ) (p : Option ℕ) (c : ℕ) (x : Force) (A : ℕ → ℕ → ℝ) :
    (σ.withFr f).crbaWalk i k p c x A = σ.crbaWalk i k p c x A := by
  induction k generalizing p c x A with
  | zero => rfl
  | succ k ih =>
    cases p with
    | none => rfl
    | some j => exact ih _ _ _ _

theorem crba_fr : (σ.withFr f).crba = σ.crba := by
  have e : (σ.withFr f).crbaStep = σ.crbaStep := by
    funext s i
    unfold crbaStep
    simp only [crbaWalk_fr]
    rfl
  funext Ic0
  unfold crba
  rw [e]
  rfl

theorem abaOK_fr (c : AbaCache) : (σ.withFr f).AbaOK c ↔ σ.AbaOK c := Iff.rfl

theorem inertiaInverseAba_fr : (σ.withFr f).inertiaInverseAba = σ.inertiaInverseAba := by
  funext sub done c A0
  unfold inertiaInverseAba
  rw [show (σ.withFr f).invBackward = σ.invBackward from rfl]
  unfold invForward
  rw [show (σ.withFr f).invFwdInner = σ.invFwdInner from rfl]
  rfl

theorem opsBackward_fr : (σ.withFr f).opsBackward = σ.opsBackward := by
  funext done c a x
  unfold opsBackward
  have e : (σ.withFr f).abaDdq (fun _ => 0) ⟨false, false, false, 0⟩ =
      σ.abaDdq (fun _ => 0) ⟨false, false, false, 0⟩ := by
    funext i x y
    simp [abaDdq, withFr]
  unfold abaBackward
  rw [e]
  rfl

end Sys

namespace Body
variable {E : Ext} {b b' : Body}

/-- Cached results do not depend on limits and friction. -/
theorem CohC.fr {c : Cache} (h : CohC E b c) (f : ℕ → Fric) (hf : b'.fresh = b.fresh.withFr f)
    (hn : b'.dof = b.dof) (hs : b'.sub = b.sub) (ha : b'.anc = b.anc)
    (hTp : b'.freshTp = b.freshTp) (hTw : b'.freshTw = b.freshTw) (hl : b'.load = b.load)
    (hj : b'.jacLoop = b.jacLoop) : CohC E b' c := by
  have hu : b'.fresh.unload = b.fresh.unload.withFr f := by rw [hf]; rfl
  constructor
  · rw [hn, hTp]; exact h.tp
  · rw [hn, hTw]; exact h.tw
  · rw [hf]; exact h.vel
  · rw [hn, hj, hTw, ha]; exact h.jac
  · rw [hn, hf]; exact h.cc
  · rw [hn, hTw, hf]; exact h.cC
  · rw [hn, hf]; exact h.grav
  · rw [hf, Sys.crba_fr]; exact h.crba
  · unfold IsA; rw [hf, Sys.crba_fr]; exact h.inv
  · rw [hf]; exact fun x => (Sys.abaOK_fr _ _ _).2 (h.aba x)
  · rw [hf, hs, Sys.inertiaInverseAba_fr]; simp only [Sys.abaOK_fr]; exact h.abaInv
  · unfold IsA; rw [hn, hf, Sys.crba_fr]; exact h.opsInv
  · exact h.opsLam
  · exact h.opsJbar
  · unfold lambdaInvAba
    rw [hl, hn, hTw, ha, hu, Sys.opsBackward_fr]
    simp only [Sys.abaOK_fr]
    exact h.opsAbaInv
  · exact h.opsAbaLam

/-- Same state and same tree: only the contents of links and loads may differ. -/
structure Reshaped (b b' : Body) : Prop where
  dof : b'.dof = b.dof
  q : b'.q = b.q
  dq : b'.dq = b.dq
  g : b'.g = b.g
  T0 : b'.T0 = b.T0
  anc : b'.anc = b.anc
  sub : b'.sub = b.sub
  c : b'.c = b.c
  id : ∀ i, (b'.rb i).id = (b.rb i).id
  idParent : ∀ i, (b'.rb i).idParent = (b.rb i).idParent

theorem Reshaped.par (h : Reshaped b b') : b'.par = b.par := by
  funext i
  unfold Body.par
  rw [h.idParent]

theorem Reshaped.tree (h : Reshaped b b') (ht : b.Tree) : b'.Tree := by
  constructor
  · rw [h.q, h.dof]; exact ht.lq
  · rw [h.dq, h.dof]; exact ht.ldq
  · rw [h.anc, h.dof]; exact ht.lanc
  · rw [h.sub, h.dof]; exact ht.lsub
  · intro i hi
    rw [h.id, h.idParent]
    exact ht.ids i (h.dof ▸ hi)
  · rw [h.anc, h.dof, h.par]; exact ht.anc_mem
  · rw [h.anc, h.dof]; exact ht.anc_sorted
  · rw [h.sub, h.dof, h.par]; exact ht.sub_mem
  · rw [h.sub, h.dof]; exact ht.sub_sorted

theorem _root_.SpatialDyn.LinkEdit.app_ids {e : LinkEdit} {r r' : RB} (h : e.app r = .ok r') :
    r'.id = r.id ∧ r'.idParent = r.idParent := by
  cases e with
  | inertia I =>
    unfold LinkEdit.app at h
    dsimp only at h
    split at h
    · cases h
    · cases h; exact ⟨rfl, rfl⟩
  | jointField o =>
    unfold LinkEdit.app at h
    dsimp only at h
    split at h
    · cases h
    · cases h; exact ⟨rfl, rfl⟩
  | _ => cases h; exact ⟨rfl, rfl⟩

theorem rb_set (k : ℕ) (r : RB) (i : ℕ) :
    ({ b with rbs := b.rbs.set k r } : Body).rb i = if k = i ∧ i < b.dof then r else b.rb i := by
  unfold rb dof
  simp only [List.getD_eq_getElem?_getD, List.getElem?_set]
  by_cases hk : k = i
  · subst hk
    by_cases h2 : k < b.rbs.length
    · simp [h2]
    · simp [h2, List.getElem?_eq_none (not_lt.1 h2)]
  · simp [hk]

theorem editLink_ok {k : ℕ} {e : LinkEdit} (h : b.editLink k e = .ok b') :
    ∃ r, e.app (b.rb k) = .ok r ∧ b' = { b with rbs := b.rbs.set k r } := by
  obtain ⟨r, h1, h2⟩ := Out.bind_ok h
  cases h2
  exact ⟨r, h1, rfl⟩

theorem editLink_reshaped {k : ℕ} {e : LinkEdit} (h : b.editLink k e = .ok b') :
    Reshaped b b' := by
  obtain ⟨r, h1, rfl⟩ := editLink_ok h
  obtain ⟨h2, h3⟩ := LinkEdit.app_ids h1
  refine ⟨by simp [Body.dof], rfl, rfl, rfl, rfl, rfl, rfl, rfl, fun i => ?_, fun i => ?_⟩
  · rw [rb_set]
    split
    · next hk => rw [h2, hk.1]
    · rfl
  · rw [rb_set]
    split
    · next hk => rw [h3, hk.1]
    · rfl

theorem editLoad_ok {k : ℤ} {e : InertiaEdit} (h : b.editLoad k e = .ok b') :
    ∃ I, b.load k = some I ∧ b' = { b with load := Function.update b.load k (some (e.app I)) } := by
  unfold editLoad at h
  split at h
  · cases h
  · next I hI => cases h; exact ⟨I, hI, rfl⟩

theorem _root_.SpatialDyn.Edit.step_reshaped {e : Edit} (h : e.step b = .ok b') :
    Reshaped b b' := by
  cases e with
  | link i e =>
    obtain ⟨k, -, h2⟩ := Out.bind_ok h
    exact editLink_reshaped h2
  | load k e =>
    obtain ⟨I, -, rfl⟩ := editLoad_ok h
    exact ⟨rfl, rfl, rfl, rfl, rfl, rfl, rfl, rfl, fun _ => rfl, fun _ => rfl⟩
  | base e =>
    cases h
    exact ⟨rfl, rfl, rfl, rfl, rfl, rfl, rfl, rfl, fun _ => rfl, fun _ => rfl⟩

theorem _root_.SpatialDyn.LinkEdit.app_T {i : ℤ} {e : LinkEdit} (he : (Edit.link i e).RigidArg)
    {r r' : RB} (h : e.app r = .ok r') (hr : r.T.Valid) : r'.T.Valid := by
  cases e with
  | pose T => cases h; exact he
  | inertia I =>
    unfold LinkEdit.app at h
    dsimp only at h
    split at h
    · cases h
    · cases h; exact hr
  | jointField o =>
    unfold LinkEdit.app at h
    dsimp only at h
    split at h
    · cases h
    · cases h; exact hr
  | _ => cases h; exact hr

theorem _root_.SpatialDyn.Edit.step_rigid {e : Edit} (he : e.RigidArg) (hr : b.Rigid)
    (h : e.step b = .ok b') : b'.Rigid := by
  have hs := Edit.step_reshaped h
  refine ⟨hs.T0 ▸ hr.base, fun i hi => ?_⟩
  rw [hs.dof] at hi
  cases e with
  | link j e =>
    obtain ⟨k, -, h2⟩ := Out.bind_ok h
    obtain ⟨r, h3, rfl⟩ := editLink_ok h2
    rw [rb_set]
    split
    · next hk => exact LinkEdit.app_T he h3 (hk.1 ▸ hr.link i hi)
    · exact hr.link i hi
  | load k e =>
    obtain ⟨I, -, rfl⟩ := editLoad_ok h
    exact hr.link i hi
  | base e => cases h; exact hr.link i hi

theorem _root_.SpatialDyn.Edit.step_loadFin {e : Edit} (hl : b.LoadFin)
    (h : e.step b = .ok b') : b'.LoadFin := by
  obtain ⟨l, hl⟩ := hl
  cases e with
  | link j e =>
    obtain ⟨k, -, h2⟩ := Out.bind_ok h
    obtain ⟨r, h3, rfl⟩ := editLink_ok h2
    exact ⟨l, hl⟩
  | load k e =>
    obtain ⟨I, hI, rfl⟩ := editLoad_ok h
    refine ⟨l, fun j hj => ?_⟩
    have : j ≠ k := by rintro rfl; rw [hl j hj] at hI; cases hI
    exact (Function.update_of_ne this _ _).trans (hl j hj)
  | base e => cases h; exact ⟨l, hl⟩

/-- A setter of limits or friction keeps the type of the joint. -/
theorem _root_.SpatialDyn.Joint.step_quiet (j : Joint) {o : Joint.Op} (ho : o.Quiet) :
    (j.step o).joint.type = j.type ∧ (j.step o).joint.subspace = j.subspace := by
  cases o <;> simp only [Joint.step, Joint.setQMin, Joint.setQMax,
    Joint.setQLimits, Joint.setDqMax, Joint.setFqMax, Joint.setFCoulomb, Joint.setFViscous,
    Joint.setFStiction]
  · exact ho.elim
  all_goals split <;> exact ⟨rfl, rfl⟩

/-- A quiet change keeps poses, inertias, axes and loads. -/
theorem _root_.SpatialDyn.Edit.quiet_rb {e : Edit} (he : e.Quiet) (h : e.step b = .ok b') :
    b'.load = b.load ∧ ∀ i, (b'.rb i).T = (b.rb i).T ∧ (b'.rb i).inertia = (b.rb i).inertia ∧
      (b'.rb i).joint.type = (b.rb i).joint.type ∧
      (b'.rb i).joint.subspace = (b.rb i).joint.subspace := by
  cases e with
  | link j e =>
    cases e with
    | jointField o =>
      obtain ⟨k, -, h2⟩ := Out.bind_ok h
      obtain ⟨r, h3, rfl⟩ := editLink_ok h2
      refine ⟨rfl, fun i => ?_⟩
      unfold LinkEdit.app at h3
      dsimp only at h3
      split at h3
      · cases h3
      · cases h3
        rw [rb_set]
        split
        · next hk =>
          obtain ⟨q1, q2⟩ := Joint.step_quiet (b.rb i).joint he
          rw [hk.1]
          exact ⟨rfl, rfl, q1, q2⟩
        · exact ⟨rfl, rfl, rfl, rfl⟩
    | _ => exact he.elim
  | load k e => exact he.elim
  | base e => cases h; exact ⟨rfl, fun _ => ⟨rfl, rfl, rfl, rfl⟩⟩

theorem _root_.SpatialDyn.Edit.step_inv {e : Edit} (hi : Inv E b) (he : e.RigidArg)
    (hq : e.Quiet ∨ b.c.Clear) (h : e.step b = .ok b') : Inv E b' := by
  have hs := Edit.step_reshaped h
  refine ⟨hs.tree hi.tree, Edit.step_rigid he hi.rigid h, ?_⟩
  rw [hs.c]
  rcases hq with hq | hq
  · obtain ⟨hl, hr⟩ := Edit.quiet_rb hq h
    have hA : b'.TpAt = b.TpAt := by
      funext i x
      unfold Body.TpAt
      rw [(hr i).1, (hr i).2.2.1]
    have hTp : b'.freshTp = b.freshTp := by
      funext i
      unfold Body.freshTp
      rw [hA, hs.q]
    have hTw : b'.freshTw = b.freshTw := by
      unfold Body.freshTw
      rw [hTp, hs.dof, hs.par, hs.T0]
    refine hi.coh.fr (fun i => fric (b'.rb i).joint) ?_ hs.dof hs.sub hs.anc hTp hTw hl ?_
    · unfold Body.fresh sysWith Sys.withFr
      rw [hTp, hTw, hs.dof, hs.par, hs.dq, hs.g, hl]
      congr 1
      · funext i; exact (hr i).2.2.2
      · funext i; exact (hr i).2.1
    · funext Tw ancs p
      unfold Body.jacLoop
      simp only [(hr _).2.2.2]
  · exact CohC.of_clear hq _

end Body

open Body

theorem PyOp.edit_cases {E : Ext} {b b' : Body} {e : Edit} (h : (PyOp.edit e).exec E b = some b') :
    e.step b = .ok b' ∨ (e.step b = .throws ∧ b' = b) := by
  unfold PyOp.exec at h
  dsimp only at h
  cases hs : e.step b with
  | ok x => rw [hs] at h; cases h; exact .inl rfl
  | throws => rw [hs] at h; cases h; exact .inr ⟨rfl, rfl⟩
  | ub => rw [hs] at h; cases h

theorem Op.exec_clear {E : Ext} {b b' : Body} {d : Bool} {op : Op} (hi : Inv E b)
    (hd : d = false → b.c.Clear) (ho : op.Safe b d) (hs : op.exec E b = some b') :
    Inv E b' ∧ (op.dirty b b' d = false → b'.c.Clear) := by
  rcases Out.exec_cases hs with h1 | ⟨h1, rfl⟩
  · exact Op.step_inv hi hd ho h1
  · refine ⟨hi, fun hx => hd ?_⟩
    cases op <;> first
      | exact absurd hx.symm Bool.false_ne_true
      | simpa [Op.dirty] using hx

theorem PyReach.inv' {E : Ext} {b : Body} {d : Bool} (h : PyReach E b d) :
    Inv E b ∧ (d = false → b.c.Clear) ∧ b.LoadFin := by
  induction h with
  | init c =>
    obtain ⟨h1, h2⟩ := (Reach.init (E := E) c).inv'
    exact ⟨h1, h2, [], fun _ _ => rfl⟩
  | @call b b' d op _ ho hs ih =>
    obtain ⟨h1, h2⟩ := Op.exec_clear ih.1 ih.2.1 ho hs
    refine ⟨h1, h2, ?_⟩
    rcases Out.exec_cases hs with h3 | ⟨-, rfl⟩
    · exact ih.2.2.step ih.1.tree h3
    · exact ih.2.2
  | @edit b b' d e _ hr hq hs ih =>
    rcases PyOp.edit_cases hs with h1 | ⟨-, rfl⟩
    · have hs' := Edit.step_reshaped h1
      refine ⟨Edit.step_inv ih.1 hr (hq.imp_right ih.2.1) h1, fun hd => ?_,
        Edit.step_loadFin ih.2.2 h1⟩
      rw [hs'.c]
      exact ih.2.1 hd
    · exact ih

theorem PyReach.inv {E : Ext} {b : Body} {d : Bool} (h : PyReach E b d) : Inv E b := h.inv'.1

/-- Poses given by a statement are rigid. -/
def PyOp.RigidArg : PyOp → Prop
  | .call o => o.RigidArg
  | .edit e => e.RigidArg

theorem PyOp.exec_rigid {E : Ext} {b b' : Body} {o : PyOp} (ht : b.Tree) (hr : b.Rigid)
    (ho : o.RigidArg) (h : o.exec E b = some b') : b'.Tree ∧ b'.Rigid := by
  cases o with
  | call o =>
    rcases Out.exec_cases h with h1 | ⟨-, rfl⟩
    · exact ⟨Op.step_tree ht h1, Op.step_rigid ht hr ho h1⟩
    · exact ⟨ht, hr⟩
  | edit e =>
    rcases PyOp.edit_cases h with h1 | ⟨-, rfl⟩
    · exact ⟨(Edit.step_reshaped h1).tree ht, Edit.step_rigid ho hr h1⟩
    · exact ⟨ht, hr⟩

theorem pyExecAll_rigid {E : Ext} : ∀ (l : List PyOp) {b b' : Body}, b.Tree → b.Rigid →
    (∀ o ∈ l, o.RigidArg) → pyExecAll E b l = some b' → b'.Tree ∧ b'.Rigid
  | [], _, _, ht, hr, _, h => by cases h; exact ⟨ht, hr⟩
  | o :: l, b, b', ht, hr, ho, h => by
    unfold pyExecAll at h
    obtain ⟨b1, h1, h2⟩ := Option.bind_eq_some_iff.1 h
    obtain ⟨k1, k2⟩ := PyOp.exec_rigid ht hr (ho o (List.mem_cons_self ..)) h1
    exact pyExecAll_rigid l k1 k2 (fun o h => ho o (List.mem_cons_of_mem _ h)) h2

/-- A call of the body adds a link or leaves all links as they are. -/
theorem Op.step_links {E : Ext} {b b' : Body} {op : Op} (ht : b.Tree) (hs : op.step E b = .ok b') :
    (∃ r p, op = .addRigidBody r p ∧
      b'.rbs = b.rbs ++ [{ r with id := b.dof, idParent := p }]) ∨
      ((∀ r p, op ≠ .addRigidBody r p) ∧ b'.rbs = b.rbs) := by
  cases op with
  | addRigidBody r p =>
    obtain ⟨⟨id, b1⟩, h1, rfl⟩ := Out.map_ok hs
    obtain ⟨-, -, -, rfl⟩ := addRigidBody_ok h1
    exact .inl ⟨r, p, rfl, rfl⟩
  | setQ q => exact .inr ⟨by simp, (setQ_stateOnly ht.lq hs).rbs⟩
  | setDq dq => exact .inr ⟨by simp, (setDq_stateOnly ht.ldq hs).rbs⟩
  | setG g => cases hs; exact .inr ⟨by simp, rfl⟩
  | addLoad I i => cases hs; exact .inr ⟨by simp, rfl⟩
  | replaceLoad I i => cases hs; exact .inr ⟨by simp, rfl⟩
  | clearLoad i => cases hs; exact .inr ⟨by simp, rfl⟩
  | setBase T => cases hs; exact .inr ⟨by simp, rfl⟩
  | setInertiaBase I =>
    change b.setInertiaBase I = .ok b' at hs
    unfold Body.setInertiaBase at hs
    split at hs
    · cases hs
    · cases hs; exact .inr ⟨by simp, rfl⟩
  | query x =>
    obtain ⟨r, hr, rfl⟩ := Out.map_ok hs
    exact .inr ⟨by simp, (x.run_same hr).stateOnly.rbs⟩
  | integrate t dt f o => exact .inr ⟨by simp, (integrate_stateOnly ht hs).rbs⟩
  | discreteIntegrate t dt f o => exact .inr ⟨by simp, (discreteIntegrate_stateOnly ht hs).rbs⟩

end SpatialDyn
