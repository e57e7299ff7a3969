import Verif.Lemmas.Demo

/-! # Properties C09-C13, C49: tree, state, indices, loads -/

namespace SpatialDyn
open Body

theorem Built.tree {E : Ext} {b : Body} (h : Built E b) : b.Tree := by
  obtain ⟨c, l, hl⟩ := h
  exact execAll_tree l (tree_init c) hl

theorem Built.init {E : Ext} (c : Cache) : Built E (Body.init c) := ⟨c, [], rfl⟩

theorem Built.exec {E : Ext} {b b' : Body} {op : Op} (h : Built E b) (hs : op.exec E b = some b') :
    Built E b' := by
  obtain ⟨c, l, hl⟩ := h
  refine ⟨c, l ++ [op], ?_⟩
  rw [exec_append, hl]
  simp [execAll, hs]

/-- The witness body can be built. -/
theorem demo_built (E : Ext) : Built E demo := ⟨cache0, demoOps, demo_exec E⟩

/-! ## C09 -/

/-- C09: `AddRigidBody` succeeds exactly for `-1 ≤ p < dof`, otherwise it throws; it never has
undefined behaviour. -/
theorem C09_add_accepts (b : Body) (rb : RB) (p : ℤ) :
    ((∃ r, b.addRigidBody rb p = .ok r) ↔ -1 ≤ p ∧ p < b.dof) ∧
      (¬ (-1 ≤ p ∧ p < b.dof) → b.addRigidBody rb p = .throws) := by
  have key : (p ≥ b.rbs.length ∨ p < -1) ↔ ¬ (-1 ≤ p ∧ p < b.dof) := by unfold dof; omega
  by_cases h : -1 ≤ p ∧ p < b.dof
  · refine ⟨⟨fun _ => h, fun _ => ?_⟩, fun hn => absurd h hn⟩
    unfold addRigidBody
    simp only
    rw [if_neg (by rw [key]; exact not_not.2 h)]
    exact ⟨_, rfl⟩
  · have e : b.addRigidBody rb p = .throws := by
      unfold addRigidBody
      simp only
      rw [if_pos (key.2 h)]
    exact ⟨⟨(fun hr => by obtain ⟨r, hr⟩ := hr; rw [e] at hr; cases hr), fun h' => absurd h' h⟩, fun _ => e⟩

/-- C09: a rejected `AddRigidBody` changes nothing. -/
theorem C09_reject_no_change (E : Ext) (b : Body) (rb : RB) (p : ℤ) (hp : p < -1 ∨ b.dof ≤ p) :
    (Op.addRigidBody rb p).exec E b = some b := by
  have := (C09_add_accepts b rb p).2 (by omega)
  simp [Op.exec, Op.step, this, Out.map, Out.bind]

/-- C09: a successful `AddRigidBody` returns the old `dof`, keeps every previous body, state entry,
load, gravity and base, and appends the given body at rest. -/
theorem C09_add_additive {E : Ext} {b : Body} (hb : Built E b) {rb : RB} {p : ℤ} {id : ℕ} {b' : Body}
    (h : b.addRigidBody rb p = .ok (id, b')) :
    id = b.dof ∧ b'.dof = b.dof + 1 ∧
    (∀ i : ℕ, i < b.dof → b'.rigidBody i = b.rigidBody i ∧ b'.qAt i = b.qAt i ∧ b'.dqAt i = b.dqAt i) ∧
    b'.rigidBody id = .ok { rb with id := (id : ℤ), idParent := p } ∧
    b'.qAt id = .ok 0 ∧ b'.dqAt id = .ok 0 ∧ b'.q.length = b'.dof ∧ b'.dq.length = b'.dof ∧
    b'.load = b.load ∧ b'.g = b.g ∧ b'.T0 = b.T0 ∧ b'.inertiaBase = b.inertiaBase := by
  have hr := addRigidBody_rb h
  have hd := addRigidBody_dof h
  have ht := hb.tree
  have ht' := ht.addRigidBody h
  obtain ⟨rfl, hp1, hp2, hb'⟩ := addRigidBody_ok h
  have hix : ∀ i : ℕ, i < b'.dof → b'.index (i : ℤ) = .ok i := fun i hi => index_ofNat hi
  have hq : b'.q = b.q ++ [0] := by rw [hb']
  have hdq : b'.dq = b.dq ++ [0] := by rw [hb']
  refine ⟨rfl, hd, fun i hi => ⟨?_, ?_, ?_⟩, ?_, ?_, ?_, ht'.lq, ht'.ldq, ?_⟩
  · unfold rigidBody
    rw [hix i (by omega), index_ofNat hi]
    simp only [Out.bind]
    rw [hr i, if_neg (by omega)]
  · unfold qAt
    rw [hix i (by omega), index_ofNat hi]
    simp only [Out.bind]
    rw [hq, getD_append_one, if_neg (by rw [ht.lq]; omega)]
  · unfold dqAt
    rw [hix i (by omega), index_ofNat hi]
    simp only [Out.bind]
    rw [hdq, getD_append_one, if_neg (by rw [ht.ldq]; omega)]
  · unfold rigidBody
    rw [hix _ (by omega)]
    simp only [Out.bind]
    rw [hr, if_pos rfl]
  · unfold qAt
    rw [hix _ (by omega)]
    simp only [Out.bind]
    rw [hq, getD_append_one, if_pos ht.lq.symm]
  · unfold dqAt
    rw [hix _ (by omega)]
    simp only [Out.bind]
    rw [hdq, getD_append_one, if_pos ht.ldq.symm]
  · rw [hb']; exact ⟨rfl, rfl, rfl, rfl⟩

/-- Witness for C09: a fourth body can be added to the witness body under body 1, and a parent index
equal to `dof` is refused. -/
example : (∃ r, demo.addRigidBody (mkRB .py) 1 = .ok r) ∧ demo.addRigidBody (mkRB .py) 3 = .throws :=
  ⟨(C09_add_accepts demo (mkRB .py) 1).1.2 (by decide),
    (C09_add_accepts demo (mkRB .py) 3).2 (by decide)⟩

/-! ## C10 -/

/-- The path from a root to body `i`, read off the parent links one by one. -/
inductive RootPath (parent : ℕ → ℤ) : ℕ → List ℕ → Prop
  | root {i : ℕ} : parent i = -1 → RootPath parent i [i]
  | step {i p : ℕ} {l : List ℕ} : parent i = p → RootPath parent p l →
      RootPath parent i (l ++ [i])

theorem RootPath.mem {b : Body} {i : ℕ} {l : List ℕ}
    (h : RootPath (fun k => (b.rb k).idParent) i l) (j : ℕ) : j ∈ l ↔ Anc b.par j i := by
  induction h with
  | @root i hi =>
    have : b.par i = none := par_eq_none.2 (by omega)
    rw [anc_root this]; simp
  | @step i p l hi _ ih =>
    have : b.par i = some p := par_eq_some.2 hi
    rw [anc_step this, ← ih]; simp [or_comm]

theorem RootPath.sorted {b : Body} (ht : b.Tree) {i : ℕ} {l : List ℕ} (hi : i < b.dof)
    (h : RootPath (fun k => (b.rb k).idParent) i l) : l.Pairwise (· < ·) ∧ ∀ j ∈ l, j ≤ i := by
  induction h with
  | root _ => simp
  | @step i p l hp _ ih =>
    have hlt : p < i := ht.parLt i hi p (par_eq_some.2 hp)
    obtain ⟨h1, h2⟩ := ih (by omega)
    refine ⟨List.pairwise_append.2 ⟨h1, by simp, fun a ha c hc => ?_⟩, fun j hj => ?_⟩
    · simp only [List.mem_singleton] at hc
      have := h2 a ha
      omega
    · simp only [List.mem_append, List.mem_singleton] at hj
      rcases hj with hj | rfl
      · have := h2 j hj; omega
      · exact le_rfl

theorem Body.Tree.exists_path {b : Body} (ht : b.Tree) (i : ℕ) (hi : i < b.dof) :
    ∃ l, RootPath (fun k => (b.rb k).idParent) i l := by
  induction i using Nat.strong_induction_on with
  | _ i ih =>
    obtain ⟨-, h1, h2⟩ := ht.ids i hi
    by_cases hr : (b.rb i).idParent = -1
    · exact ⟨_, .root hr⟩
    · obtain ⟨p, hp⟩ : ∃ p : ℕ, (b.rb i).idParent = p := ⟨(b.rb i).idParent.toNat, by omega⟩
      obtain ⟨l, hl⟩ := ih p (by omega) (by omega)
      exact ⟨_, .step hp hl⟩

theorem sorted_unique {l m : List ℕ} (hl : l.Pairwise (· < ·)) (hm : m.Pairwise (· < ·))
    (h : ∀ j, j ∈ l ↔ j ∈ m) : l = m := by
  apply List.Perm.eq_of_pairwise (le := (· < ·)) (fun a b _ _ h1 h2 => absurd h1 (by omega)) hl hm
  exact (List.perm_ext_iff_of_nodup (hl.imp (fun h => Nat.ne_of_lt h))
    (hm.imp (fun h => Nat.ne_of_lt h))).2 h

/-- C10: in every reachable state body `i` has id `i` and an earlier parent, `ancestors(i)` is the
path from a root to `i`, strictly increasing, `subtree(i)` is strictly increasing, starts with `i`,
and contains exactly the bodies that have `i` among their ancestors. -/
theorem C10_tree_well_formed {E : Ext} {b : Body} (hb : Built E b) (i : ℕ) (hi : i < b.dof) :
    ∃ r anc sub, b.rigidBody i = .ok r ∧ b.ancestors i = .ok anc ∧ b.subtree i = .ok sub ∧
      r.id = i ∧ -1 ≤ r.idParent ∧ r.idParent < i ∧
      RootPath (fun k => (b.rb k).idParent) i anc ∧ anc.Pairwise (· < ·) ∧
      sub.Pairwise (· < ·) ∧ (∃ t, sub = i :: t) ∧
      ∀ j, j ∈ sub ↔ j < b.dof ∧ ∃ a, b.ancestors j = .ok a ∧ i ∈ a := by
  have ht := hb.tree
  have hx := index_ofNat hi
  refine ⟨b.rb i, b.anc.getD i [], b.sub.getD i [], by rw [rigidBody, hx]; rfl,
    by rw [ancestors, hx]; rfl, by rw [subtree, hx]; rfl, (ht.ids i hi).1, (ht.ids i hi).2.1,
    (ht.ids i hi).2.2, ?_, ht.anc_sorted i hi, ht.sub_sorted i hi, ?_, ?_⟩
  · obtain ⟨l, hl⟩ := ht.exists_path i hi
    have : b.anc.getD i [] = l := sorted_unique (ht.anc_sorted i hi) (hl.sorted ht hi).1
      fun j => by rw [ht.anc_mem i hi, hl.mem]
    rw [this]; exact hl
  · have hmem : i ∈ b.sub.getD i [] := (ht.sub_mem i hi i).2 ⟨hi, .refl⟩
    have hs := ht.sub_sorted i hi
    cases hsub : b.sub.getD i [] with
    | nil => rw [hsub] at hmem; cases hmem
    | cons a t =>
      rw [hsub] at hmem hs
      have ha : a ∈ b.sub.getD i [] := by rw [hsub]; exact List.mem_cons_self ..
      have hle := Anc.le ht.parLt ((ht.sub_mem i hi a).1 ha).2 ((ht.sub_mem i hi a).1 ha).1
      rcases List.mem_cons.1 hmem with h | h
      · rw [h]; exact ⟨t, rfl⟩
      · have := List.rel_of_pairwise_cons hs h
        omega
  · intro j
    rw [ht.sub_mem i hi j]
    constructor
    · rintro ⟨hj, ha⟩
      refine ⟨hj, _, by rw [ancestors, index_ofNat hj]; rfl, (ht.anc_mem j hj i).2 ha⟩
    · rintro ⟨hj, a, ha, hia⟩
      rw [ancestors, index_ofNat hj] at ha
      cases ha
      exact ⟨hj, (ht.anc_mem j hj i).1 hia⟩

/-- Witness for C10: in the branching witness body the subtree of the root is everything and the two
children have different ancestor lists. -/
example : demo.subtree 0 = .ok [0, 1, 2] ∧ demo.ancestors 1 = .ok [0, 1] ∧
    demo.ancestors 2 = .ok [0, 2] := ⟨rfl, rfl, rfl⟩

/-! ## C11 -/

/-- C11: `set_q` throws exactly on a size mismatch, and then changes nothing; otherwise the position
reads back, and nothing else that can be observed changes. -/
theorem C11_set_q (E : Ext) (b : Body) (q : List ℝ) :
    (q.length ≠ b.dof → b.setQ q = .throws ∧ (Op.setQ q).exec E b = some b) ∧
    (q.length = b.dof → ∃ b', b.setQ q = .ok b' ∧ b'.q = q ∧
      (∀ i : ℕ, i < b.dof → b'.qAt i = .ok (q.getD i 0)) ∧ b'.dq = b.dq ∧ b'.rbs = b.rbs ∧
      b'.g = b.g ∧ b'.load = b.load ∧ b'.T0 = b.T0 ∧ b'.inertiaBase = b.inertiaBase ∧
      b'.anc = b.anc ∧ b'.sub = b.sub) := by
  constructor
  · intro h
    have : b.setQ q = .throws := by unfold setQ; rw [if_pos h]
    exact ⟨this, by simp [Op.exec, Op.step, this]⟩
  · intro h
    unfold setQ
    rw [if_neg (not_not.2 h)]
    split
    · next he =>
      subst he
      exact ⟨b, rfl, rfl, fun i hi => by rw [qAt, index_ofNat hi]; rfl, rfl, rfl, rfl, rfl, rfl, rfl,
        rfl, rfl⟩
    · refine ⟨_, rfl, rfl, fun i hi => ?_, rfl, rfl, rfl, rfl, rfl, rfl, rfl, rfl⟩
      rw [qAt, index_ofNat (by exact hi)]; rfl

/-- C11: the same for `set_dq`. -/
theorem C11_set_dq (E : Ext) (b : Body) (dq : List ℝ) :
    (dq.length ≠ b.dof → b.setDq dq = .throws ∧ (Op.setDq dq).exec E b = some b) ∧
    (dq.length = b.dof → ∃ b', b.setDq dq = .ok b' ∧ b'.dq = dq ∧
      (∀ i : ℕ, i < b.dof → b'.dqAt i = .ok (dq.getD i 0)) ∧ b'.q = b.q ∧ b'.rbs = b.rbs ∧
      b'.g = b.g ∧ b'.load = b.load ∧ b'.T0 = b.T0 ∧ b'.inertiaBase = b.inertiaBase ∧
      b'.anc = b.anc ∧ b'.sub = b.sub) := by
  constructor
  · intro h
    have : b.setDq dq = .throws := by unfold setDq; rw [if_pos h]
    exact ⟨this, by simp [Op.exec, Op.step, this]⟩
  · intro h
    unfold setDq
    rw [if_neg (not_not.2 h)]
    split
    · next he =>
      subst he
      exact ⟨b, rfl, rfl, fun i hi => by rw [dqAt, index_ofNat hi]; rfl, rfl, rfl, rfl, rfl, rfl, rfl,
        rfl, rfl⟩
    · refine ⟨_, rfl, rfl, fun i hi => ?_, rfl, rfl, rfl, rfl, rfl, rfl, rfl, rfl⟩
      rw [dqAt, index_ofNat (by exact hi)]; rfl

/-- C11: `set_g` and `set_T_base_to_world` read back what was written and change no other
observable; `set_inertia_base` rejects exactly negative masses, changing nothing, and otherwise reads
back the inertia when its rotational part is symmetric (only six of its entries are stored). -/
theorem C11_set_other (E : Ext) (b : Body) (g : Vec3) (T : Iso) (I : Inertia) :
    ((b.setG g).g = g ∧ (b.setG g).q = b.q ∧ (b.setG g).dq = b.dq ∧ (b.setG g).rbs = b.rbs ∧
      (b.setG g).load = b.load ∧ (b.setG g).T0 = b.T0) ∧
    ((b.setBase T).T0 = T ∧ (b.setBase T).q = b.q ∧ (b.setBase T).dq = b.dq ∧
      (b.setBase T).rbs = b.rbs ∧ (b.setBase T).load = b.load ∧ (b.setBase T).g = b.g) ∧
    (I.mass < 0 → b.setInertiaBase I = .throws ∧ (Op.setInertiaBase I).exec E b = some b) ∧
    (0 ≤ I.mass → ∃ b', b.setInertiaBase I = .ok b' ∧ b'.inertiaBase.mass = I.mass ∧
      b'.inertiaBase.com = I.com ∧ (I.Icom.IsSymm → b'.inertiaBase = I) ∧
      b' = { b with inertiaBase := b'.inertiaBase }) := by
  refine ⟨⟨rfl, rfl, rfl, rfl, rfl, rfl⟩, ⟨rfl, rfl, rfl, rfl, rfl, rfl⟩, fun h => ?_, fun h => ?_⟩
  · have : b.setInertiaBase I = .throws := by unfold setInertiaBase; rw [if_pos h]
    exact ⟨this, by simp [Op.exec, Op.step, this]⟩
  · unfold setInertiaBase
    rw [if_neg (by linarith)]
    exact ⟨_, rfl, rfl, rfl, fun hs => C05_flat_round_trip I hs, rfl⟩

/-- Witness for C11: the new position is really stored. -/
example : ∃ b', demo.setQ [4, 5, 6] = .ok b' ∧ b'.qAt 1 = .ok 5 := by
  obtain ⟨b', h1, -, h2, -⟩ := (C11_set_q ext0 demo [4, 5, 6]).2 rfl
  exact ⟨b', h1, h2 1 (by decide)⟩

/-! ## C49 -/

/-- C49: no query, in any state, changes anything but the cache. -/
theorem C49_query_preserves (E : Ext) (b : Body) (x : Query) (a : Ans) (b' : Body)
    (h : x.run E b = .ok (a, b')) :
    b'.rbs = b.rbs ∧ b'.q = b.q ∧ b'.dq = b.dq ∧ b'.g = b.g ∧ b'.load = b.load ∧ b'.T0 = b.T0 ∧
      b'.inertiaBase = b.inertiaBase ∧ b'.anc = b.anc ∧ b'.sub = b.sub ∧ b'.dof = b.dof := by
  have hs : b.Same b' := x.run_same h
  unfold Same at hs
  rw [hs]
  exact ⟨rfl, rfl, rfl, rfl, rfl, rfl, rfl, rfl, rfl, rfl⟩

/-- C49 over histories: any sequence of queries leaves the observable state alone. -/
theorem C49_queries_preserve (E : Ext) (xs : List Query) (b b' : Body)
    (h : execAll E b (xs.map .query) = some b') : ObsEq b b' ∧ b'.inertiaBase = b.inertiaBase := by
  induction xs generalizing b with
  | nil => cases h; exact ⟨⟨rfl, rfl, rfl, rfl, rfl, rfl, rfl, rfl⟩, rfl⟩
  | cons x xs ih =>
    simp only [List.map_cons, execAll] at h
    obtain ⟨b1, h1, h2⟩ := Option.bind_eq_some_iff.1 h
    obtain ⟨k1, k2⟩ := ih b1 h2
    rcases Out.exec_cases h1 with h3 | ⟨-, rfl⟩
    · obtain ⟨r, hr, rfl⟩ := Out.map_ok h3
      obtain ⟨e1, e2, e3, e4, e5, e6, e7, e8, e9, -⟩ := C49_query_preserves E b x r.1 r.2 hr
      exact ⟨⟨e1 ▸ k1.rbs, e2 ▸ k1.q, e3 ▸ k1.dq, e4 ▸ k1.g, e5 ▸ k1.load, e6 ▸ k1.T0, e8 ▸ k1.anc,
        e9 ▸ k1.sub⟩, k2.trans e7⟩
    · exact ⟨k1, k2⟩

end SpatialDyn
