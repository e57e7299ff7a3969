import Verif.Props.Index
import Verif.Lemmas.Transparent

/-! Every reachable observable state can be set up from a new body without any query. -/

namespace SpatialDyn

/-- Calls that only describe the model and its state. -/
def Op.Setup : Op → Prop
  | .addRigidBody .. | .setQ _ | .setDq _ | .setG _ | .replaceLoad .. | .setBase _ => True
  | _ => False

namespace Body
variable {E : Ext} {b : Body}

/-- Set up from a new body with cache contents `c` by allowed calls without queries. -/
def SetupTo (E : Ext) (c : Cache) (b : Body) (d : Bool) : Prop :=
  (∃ h, (∀ op ∈ h, op.Setup) ∧ execAll E (init c) h = some b) ∧ Reach E b d

theorem SetupTo.step {c : Cache} {b b' : Body} {d : Bool} (h : SetupTo E c b d) (op : Op)
    (ho : op.Setup) (hs : op.Safe b d) (he : op.exec E b = some b') :
    SetupTo E c b' (op.dirty b b' d) := by
  obtain ⟨⟨l, hl, hx⟩, hr⟩ := h
  refine ⟨⟨l ++ [op], ?_, ?_⟩, hr.step op hs he⟩
  · intro o h
    rcases List.mem_append.1 h with h | h
    · exact hl o h
    · rw [List.mem_singleton.1 h]; exact ho
  · rw [exec_append, hx]
    simp [execAll, he]

/-- Only finitely many links carry a load. -/
def LoadFin (b : Body) : Prop := ∃ l : List ℤ, ∀ k, k ∉ l → b.load k = none

theorem LoadFin.step {b' : Body} {op : Op} (ht : b.Tree) (h : b.LoadFin)
    (h1 : op.step E b = .ok b') : b'.LoadFin := by
  obtain ⟨l, hl⟩ := h
  have e := Op.step_load ht h1
  cases op with
  | addLoad I i =>
    refine ⟨b.resolve i :: l, fun k hk => ?_⟩
    simp only [List.mem_cons, not_or] at hk
    rw [e]
    simp only [addLoad]
    rw [Function.update_of_ne hk.1, hl k hk.2]
  | replaceLoad I i =>
    refine ⟨b.resolve i :: l, fun k hk => ?_⟩
    simp only [List.mem_cons, not_or] at hk
    rw [e]
    simp only [replaceLoad]
    rw [Function.update_of_ne hk.1, hl k hk.2]
  | clearLoad i =>
    refine ⟨b.resolve i :: l, fun k hk => ?_⟩
    simp only [List.mem_cons, not_or] at hk
    rw [e]
    simp only [clearLoad]
    rw [Function.update_of_ne hk.1, hl k hk.2]
  | _ => exact ⟨l, fun k hk => by rw [e]; exact hl k hk⟩

theorem Reach.loadFin {d : Bool} (h : Reach E b d) : b.LoadFin := by
  induction h with
  | init c => exact ⟨[], fun _ _ => rfl⟩
  | @step b b' d op hr ho hs ih =>
    rcases Out.exec_cases hs with h1 | ⟨h1, rfl⟩
    · exact ih.step hr.inv.tree h1
    · exact ih

theorem setup_bodies (c : Cache) (ht : b.Tree) (hr : b.Rigid) (k : ℕ) (hk : k ≤ b.dof) :
    ∃ b', SetupTo E c b' false ∧ b'.rbs = b.rbs.take k ∧ b'.T0 = b.T0 ∧ b'.load = fun _ => none := by
  induction k with
  | zero =>
    have h0 : SetupTo E c (init c) false := ⟨⟨[], by simp, rfl⟩, .init c⟩
    have h1 := h0.step (b' := (init c).setBase b.T0) (.setBase b.T0) trivial ⟨hr.base, rfl⟩ rfl
    have e : (Op.setBase b.T0).dirty (init c) ((init c).setBase b.T0) false = false := by
      simp [Op.dirty, setBase]
    rw [e] at h1
    exact ⟨_, h1, by simp [setBase, init], rfl, rfl⟩
  | succ k ih =>
    obtain ⟨b1, h1, h2, h3, h4⟩ := ih (by omega)
    have hk' : k < b.rbs.length := hk
    have hrb : b.rbs[k] = b.rb k := by simp [rb, hk']
    have hd1 : b1.rbs.length = k := by rw [h2, List.length_take]; omega
    obtain ⟨hid, hp1, hp2⟩ := ht.ids k hk
    have hadd : ∃ b2, b1.addRigidBody (b.rb k) (b.rb k).idParent = .ok (k, b2) := by
      unfold addRigidBody
      simp only [hd1]
      rw [if_neg (by omega)]
      exact ⟨_, rfl⟩
    obtain ⟨b2, hb2⟩ := hadd
    have hx : (Op.addRigidBody (b.rb k) (b.rb k).idParent).exec E b1 = some b2 := by
      simp [Op.exec, Op.step, hb2, Out.map, Out.bind]
    have h5 := h1.step (.addRigidBody (b.rb k) (b.rb k).idParent) trivial (hr.link k hk) hx
    obtain ⟨-, -, -, e2⟩ := addRigidBody_ok hb2
    have ed : (Op.addRigidBody (b.rb k) (b.rb k).idParent).dirty b1 b2 false = false := by
      simp [Op.dirty]
    rw [ed] at h5
    refine ⟨b2, h5, ?_, ?_, ?_⟩
    · rw [e2]
      simp only
      rw [h2, List.take_add_one, List.getElem?_eq_getElem hk', Option.toList_some, hrb]
      congr 2
      have : b1.dof = k := hd1
      rw [this, ← hid]
    · rw [e2]; exact h3
    · rw [e2]; exact h4

theorem tree_lists {b b' : Body} (h : b.Tree) (h' : b'.Tree) (e : b.rbs = b'.rbs) :
    b.anc = b'.anc ∧ b.sub = b'.sub := by
  have hd : b'.dof = b.dof := by unfold dof; rw [e]
  have hp : b'.par = b.par := by unfold par rb; rw [e]
  have key : ∀ {l l' : List (List ℕ)}, l.length = b.dof → l'.length = b.dof →
      (∀ i < b.dof, l.getD i [] = l'.getD i []) → l = l' := by
    intro l l' h1 h2 h3
    apply List.ext_getElem (h1.trans h2.symm)
    intro i hi hi'
    have := h3 i (h1 ▸ hi)
    simpa [List.getD_eq_getElem?_getD, hi, hi'] using this
  constructor
  · refine key h.lanc (h'.lanc.trans hd) fun i hi => ?_
    refine sorted_unique (h.anc_sorted i hi) (h'.anc_sorted i (hd ▸ hi)) fun j => ?_
    rw [h.anc_mem i hi, h'.anc_mem i (hd ▸ hi), hp]
  · refine key h.lsub (h'.lsub.trans hd) fun i hi => ?_
    refine sorted_unique (h.sub_sorted i hi) (h'.sub_sorted i (hd ▸ hi)) fun j => ?_
    rw [h.sub_mem i hi, h'.sub_mem i (hd ▸ hi), hp, hd]

theorem setup_loads (c : Cache) (f : ℤ → Option Inertia) (l : List ℤ) {b1 : Body} {d : Bool}
    (h : SetupTo E c b1 d) : ∃ b' d', SetupTo E c b' d' ∧ b'.rbs = b1.rbs ∧ b'.T0 = b1.T0 ∧
      b'.q = b1.q ∧ b'.dq = b1.dq ∧ b'.g = b1.g ∧
      ∀ k, b'.load k = if k ∈ l ∧ f k ≠ none then f k else b1.load k := by
  induction l with
  | nil => exact ⟨b1, d, h, rfl, rfl, rfl, rfl, rfl, by simp⟩
  | cons a l ih =>
    obtain ⟨b2, d2, h2, e1, e2, e3, e4, e5, e6⟩ := ih
    cases hf : f a with
    | none =>
      refine ⟨b2, d2, h2, e1, e2, e3, e4, e5, fun k => ?_⟩
      rw [e6 k]
      by_cases hk : k = a
      · subst hk; simp [hf]
      · simp [hk]
    | some I =>
      set i : ℤ := if a < 0 then a - b2.dof else a with hi
      have hres : b2.resolve i = a := by
        unfold resolve
        rw [hi]
        by_cases ha : a < 0
        · simp only [ha, if_true]; rw [if_pos (by omega)]; omega
        · simp [ha]
      refine ⟨b2.replaceLoad I i, _, h2.step (.replaceLoad I i) trivial trivial rfl, e1, e2, e3, e4,
        e5, fun k => ?_⟩
      simp only [replaceLoad, hres]
      by_cases hk : k = a
      · subst hk; simp [hf]
      · rw [Function.update_of_ne hk, e6 k]
        simp [hk]

/-- Every observable state of a body that satisfies the invariant can be set up without queries. -/
theorem Inv.setup (hi : Inv E b) (h : b.LoadFin) (c : Cache) :
    ∃ b' d', SetupTo E c b' d' ∧ b.ObsEq b' := by
  obtain ⟨l, hl⟩ := h
  obtain ⟨b1, h1, e1, e2, e3⟩ := setup_bodies (E := E) c hi.tree hi.rigid b.dof le_rfl
  rw [show b.rbs.take b.dof = b.rbs from List.take_length] at e1
  have hd1 : b1.dof = b.dof := by unfold dof; rw [e1]
  obtain ⟨b2, h2, q2⟩ : ∃ b2, b1.setQ b.q = .ok b2 ∧ b2.q = b.q ∧ b2.rbs = b1.rbs ∧ b2.T0 = b1.T0 ∧
      b2.load = b1.load := by
    unfold setQ
    rw [if_neg (by rw [hd1, hi.tree.lq]; simp)]
    split
    · next hq => exact ⟨_, rfl, hq, rfl, rfl, rfl⟩
    · exact ⟨_, rfl, rfl, rfl, rfl, rfl⟩
  have h2' := h1.step (b' := b2) (.setQ b.q) trivial trivial (by simp [Op.exec, Op.step, h2])
  have hd2 : b2.dof = b.dof := by unfold dof; rw [q2.2.1, e1]
  obtain ⟨b3, h3, q3⟩ : ∃ b3, b2.setDq b.dq = .ok b3 ∧ b3.dq = b.dq ∧ b3.q = b2.q ∧
      b3.rbs = b2.rbs ∧ b3.T0 = b2.T0 ∧ b3.load = b2.load := by
    unfold setDq
    rw [if_neg (by rw [hd2, hi.tree.ldq]; simp)]
    split
    · next hq => exact ⟨_, rfl, hq, rfl, rfl, rfl, rfl⟩
    · exact ⟨_, rfl, rfl, rfl, rfl, rfl, rfl⟩
  have h3' := h2'.step (b' := b3) (.setDq b.dq) trivial trivial (by simp [Op.exec, Op.step, h3])
  have h4 := h3'.step (b' := b3.setG b.g) (.setG b.g) trivial trivial rfl
  obtain ⟨b5, d5, h5, f1, f2, f3, f4, f5, f6⟩ := setup_loads c b.load l h4
  have er : b.rbs = b5.rbs := by rw [f1]; exact (q3.2.2.1.trans (q2.2.1.trans e1)).symm
  obtain ⟨ha, hs⟩ := tree_lists hi.tree h5.2.inv.tree er
  refine ⟨b5, d5, h5, er, ?_, ?_, ?_, ?_, ?_, ha, hs⟩
  · rw [f3]; exact (q3.2.1.trans q2.1).symm
  · rw [f4]; exact q3.1.symm
  · rw [f5]; rfl
  · funext k
    rw [f6 k]
    have hb3 : (b3.setG b.g).load k = none := by
      show b3.load k = none
      rw [q3.2.2.2.2, q2.2.2.2, e3]
    rw [hb3]
    by_cases hk : k ∈ l
    · by_cases hn : b.load k = none <;> simp [hk, hn]
    · simp [hk, hl k hk]
  · rw [f2]; exact (q3.2.2.2.1.trans (q2.2.2.1.trans e2)).symm

/-- Every reachable observable state can be set up without queries. -/
theorem Reach.setup {d : Bool} (h : Reach E b d) (c : Cache) :
    ∃ b' d', SetupTo E c b' d' ∧ b.ObsEq b' := h.inv.setup (Reach.loadFin h) c

/-! ## Rigid transforms in arbitrary histories -/

/-- All transforms passed in are rigid. -/
def _root_.SpatialDyn.Op.RigidArg : Op → Prop
  | .addRigidBody rb _ => rb.T.Valid
  | .setBase T => T.Valid
  | _ => True

theorem Op.step_rigid {b b' : Body} {op : Op} (ht : b.Tree) (h : b.Rigid) (ho : op.RigidArg)
    (hs : op.step E b = .ok b') : b'.Rigid := by
  have key : ∀ {b' : Body}, StateOnly b b' → b'.Rigid := by
    intro b' hk
    have hd : b'.dof = b.dof := by unfold dof; rw [hk.rbs]
    have hr : b'.rb = b.rb := by unfold rb; rw [hk.rbs]
    exact ⟨hk.T0 ▸ h.base, fun i hi => hr ▸ h.link i (hd ▸ hi)⟩
  cases op with
  | addRigidBody rb p =>
    obtain ⟨⟨id, b1⟩, h1, rfl⟩ := Out.map_ok hs
    have hr := addRigidBody_rb h1
    have hd := addRigidBody_dof h1
    have hT : b1.T0 = b.T0 := by obtain ⟨-, -, -, rfl⟩ := addRigidBody_ok h1; rfl
    refine ⟨?_, fun i hi => ?_⟩
    · show b1.T0.Valid
      rw [hT]; exact h.base
    · show (b1.rb i).T.Valid
      have hi' : i < b1.dof := hi
      rw [hr i]
      split
      · exact ho
      · exact h.link i (by omega)
  | setQ q => exact key (setQ_stateOnly ht.lq hs)
  | setDq dq => exact key (setDq_stateOnly ht.ldq hs)
  | setG g => cases hs; exact ⟨h.base, h.link⟩
  | addLoad I i => cases hs; exact ⟨h.base, h.link⟩
  | replaceLoad I i => cases hs; exact ⟨h.base, h.link⟩
  | clearLoad i => cases hs; exact ⟨h.base, h.link⟩
  | setBase T => cases hs; exact ⟨ho, h.link⟩
  | setInertiaBase I =>
    change b.setInertiaBase I = .ok b' at hs
    unfold Body.setInertiaBase at hs
    split at hs
    · cases hs
    · cases hs; exact ⟨h.base, h.link⟩
  | query x =>
    obtain ⟨r, hr, rfl⟩ := Out.map_ok hs
    exact key (x.run_same hr).stateOnly
  | integrate t dt f o => exact key (integrate_stateOnly ht hs)
  | discreteIntegrate t dt f o => exact key (discreteIntegrate_stateOnly ht hs)

theorem execAll_rigid : ∀ (l : List Op) {b b' : Body}, b.Tree → b.Rigid → (∀ op ∈ l, op.RigidArg) →
    execAll E b l = some b' → b'.Rigid
  | [], _, _, _, h, _, hs => by cases hs; exact h
  | op :: l, b, b', ht, h, ho, hs => by
    unfold execAll at hs
    obtain ⟨b1, h1, h2⟩ := Option.bind_eq_some_iff.1 hs
    have ho' : ∀ op ∈ l, op.RigidArg := fun o h => ho o (List.mem_cons_of_mem _ h)
    rcases Out.exec_cases h1 with h3 | ⟨-, rfl⟩
    · exact execAll_rigid l (Op.step_tree ht h3)
        (Op.step_rigid ht h (ho op (List.mem_cons_self ..)) h3) ho' h2
    · exact execAll_rigid l ht h ho' h2

end Body
end SpatialDyn
