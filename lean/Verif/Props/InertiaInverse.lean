import Verif.Props.Forward
import Verif.Lemmas.InvAba

/-!
# Articulated-body inverse inertia (C31)
-/

namespace SpatialDyn
open Finset Body

variable {E : Ext} {b : Body} {d : Bool}

theorem subOK (h : Reach E b d) : b.fresh.SubOK fun i => b.sub.getD i [] :=
  ⟨h.inv.tree.sub_mem, fun i hi => (h.inv.tree.sub_sorted i hi).imp fun h => ne_of_lt h⟩

/-- The entries of `InertiaInverseAba` in terms of the columns of the inverse of the inertia. -/
theorem inertiaInverseAba_val (h : Reach E b d) (hm : b.Massive)
    (hn : DefiniteForm b.dof b.inertia.1)
    {y : ℕ → ℕ → ℝ} (hy : ∀ j < b.dof, ∀ i < b.dof, ∑ k ∈ range b.dof, b.inertia.1 i k * y k j =
      if i = j then 1 else 0) :
    ∃ A0 : ℕ → ℕ → ℝ, (b.c.abaInvDone = false → A0 = b.c.abaInv) ∧ ∀ i < b.dof, ∀ j < b.dof,
      b.inertiaInverseAba.1 i j = if j ∈ b.sub.getD i [] then y i j
        else if i ∈ b.sub.getD j [] then y j i else A0 i j := by
  have hpd := Body.fresh_massPD h hm hn
  have hd : ∀ i < b.fresh.n, b.fresh.artD i ≠ 0 :=
    fun i hi => (h.inv.wf.artD_pos hm.symI hpd i hi).ne'
  obtain ⟨x, hx, hMx⟩ := h.inv.wf.unit_response hm.symI hd
  have hxy : ∀ j < b.dof, ∀ i < b.dof, x j i = y i j := by
    intro j hj
    refine Sys.solve_unique (y := fun i => y i j) (fresh_det h hm hn) fun i hi => ?_
    have e1 := hMx j i hi
    have e2 := hy j hj i hi
    rw [show b.fresh.n = b.dof from rfl] at e1
    rw [e1, ← e2]
    exact sum_congr rfl fun k hk => by rw [inertia_entry h hm i k hi (mem_range.1 hk)]
  obtain ⟨A0, hA0, done, k, hk, e⟩ : ∃ A0 : ℕ → ℕ → ℝ,
      (b.c.abaInvDone = false → A0 = b.c.abaInv) ∧ ∃ done k, (done = true → b.fresh.AbaOK k) ∧
      b.inertiaInverseAba.1 =
        (b.fresh.inertiaInverseAba (fun i => b.sub.getD i []) done k A0).1 := by
    unfold Body.inertiaInverseAba
    split
    · next hdone =>
      obtain ⟨done, k, A0, hk, e⟩ := h.inv.coh.abaInv hdone
      exact ⟨A0, (fun hf => by rw [hdone] at hf; cases hf), done, k, hk, e⟩
    · exact ⟨b.c.abaInv, fun _ => rfl, b.c.abaDone, b.c.aba, h.inv.coh.aba, by rw [h.inv.view]⟩
  refine ⟨A0, hA0, fun i hi j hj => ?_⟩
  rw [e, h.inv.wf.inv_entries (subOK h) done k A0 hk x hx i j hi hj, hxy j hj i hi, hxy i hi j hj]

/-- C31 on any tree: an entry between a joint and one on its root path is the entry of the inverse of
the inertia.  Missing: entries between branches, which are not written (`C31_between_branches`,
`C31_violated`). -/
theorem C31_related_partial (h : Reach E b d) (hm : b.Massive)
    (hn : DefiniteForm b.dof b.inertia.1)
    {y : ℕ → ℕ → ℝ} (hy : ∀ j < b.dof, ∀ i < b.dof, ∑ k ∈ range b.dof, b.inertia.1 i k * y k j =
      if i = j then 1 else 0) {i j : ℕ} (hi : i < b.dof) (hj : j < b.dof) {li lj : List ℕ}
    (hli : RootPath (fun k => (b.rb k).idParent) i li)
    (hlj : RootPath (fun k => (b.rb k).idParent) j lj) (hrel : i ∈ lj ∨ j ∈ li) :
    b.inertiaInverseAba.1 i j = y i j := by
  obtain ⟨A0, -, hv⟩ := inertiaInverseAba_val h hm hn hy
  have hsym : y j i = y i j := by
    -- `y` is symmetric because the inertia is
    have key : ∀ a < b.dof, ∀ c < b.dof, ∑ i ∈ range b.dof, ∑ k ∈ range b.dof,
        y i a * (b.inertia.1 i k * y k c) = y c a := by
      intro a ha c hc
      have : ∀ i ∈ range b.dof, ∑ k ∈ range b.dof, y i a * (b.inertia.1 i k * y k c) =
          y i a * if i = c then 1 else 0 := by
        intro i hi
        rw [← mul_sum, hy c hc i (mem_range.1 hi)]
      rw [sum_congr rfl this, sum_eq_single c]
      · simp
      · intro k _ hk; simp [hk]
      · intro hk; exact absurd (mem_range.2 hc) hk
    rw [← key i hi j hj, ← key j hj i hi, sum_comm]
    refine sum_congr rfl fun k hk => sum_congr rfl fun l hl => ?_
    rw [C24_symmetric h hm l k (mem_range.1 hl) (mem_range.1 hk)]
    ring
  rw [hv i hi j hj]
  rcases hrel with hr | hr
  · rw [if_pos ((h.inv.tree.sub_mem i hi j).2 ⟨hj, (hlj.mem i).1 hr⟩)]
  · rw [hsym]
    have := (h.inv.tree.sub_mem j hj i).2 ⟨hi, (hli.mem j).1 hr⟩
    rw [if_pos this, ite_self]

/-- A positive definite matrix has a right inverse. -/
theorem DefiniteForm.exists_inv {n : ℕ} {A : ℕ → ℕ → ℝ} (hn : DefiniteForm n A) :
    ∃ y : ℕ → ℕ → ℝ, ∀ j < n, ∀ i < n, ∑ k ∈ range n, A i k * y k j = if i = j then 1 else 0 := by
  classical
  have : ∀ j, ∃ x, ldltSolve n A (fun i => if i = j then 1 else 0) = some x := by
    intro j
    unfold ldltSolve
    rw [if_pos hn.mat]
    exact ⟨_, rfl⟩
  choose x hx using this
  exact ⟨fun k j => x j k, fun j _ i hi => Sys.ldltSolve_sound (hx j) i hi⟩

/-- C31: on a serial chain `InertiaInverseAba` is the inverse of `Inertia`. -/
theorem C31_chain (h : Reach E b d) (hm : b.Massive)
    (hn : DefiniteForm b.dof b.inertia.1)
    (hch : ∀ k < b.dof, (b.rb k).idParent = (k : ℤ) - 1) (i j : ℕ) (hi : i < b.dof)
    (hj : j < b.dof) :
    ∑ k ∈ range b.dof, b.inertia.1 i k * b.inertiaInverseAba.1 k j = if i = j then 1 else 0 := by
  obtain ⟨y, hy⟩ := hn.exists_inv
  have hanc : ∀ k < b.dof, ∀ l ≤ k, Anc b.par l k := by
    intro k hk
    induction k with
    | zero => intro l hl; rw [Nat.le_zero.1 hl]; exact Anc.refl
    | succ k ih =>
      intro l hl
      rcases Nat.lt_succ_iff_lt_or_eq.1 (Nat.lt_succ_of_le hl) with h1 | h1
      · refine Anc.step (p := k) (par_eq_some.2 ?_) (ih (by omega) l (by omega))
        rw [hch (k + 1) hk]; push_cast; ring
      · rw [h1]; exact Anc.refl
  rw [← hy j hj i hi]
  refine sum_congr rfl fun k hk => ?_
  have hk := mem_range.1 hk
  congr 1
  obtain ⟨lk, hlk⟩ := h.inv.tree.exists_path k hk
  obtain ⟨lj, hlj⟩ := h.inv.tree.exists_path j hj
  refine C31_related_partial h hm hn hy hk hj hlk hlj ?_
  rcases le_total k j with hle | hle
  · exact .inl ((hlj.mem k).2 (hanc j hj k hle))
  · exact .inr ((hlk.mem j).2 (hanc k hk j hle))

/-- Entries of `InertiaInverseAba` between different branches are whatever the memory held. -/
theorem C31_between_branches (h : Reach E b d) (hm : b.Massive)
    (hn : DefiniteForm b.dof b.inertia.1)
    (hnew : b.c.abaInvDone = false) {i j : ℕ} (hi : i < b.dof) (hj : j < b.dof) {li lj : List ℕ}
    (hli : RootPath (fun k => (b.rb k).idParent) i li)
    (hlj : RootPath (fun k => (b.rb k).idParent) j lj) (h1 : i ∉ lj) (h2 : j ∉ li) :
    b.inertiaInverseAba.1 i j = b.c.abaInv i j := by
  obtain ⟨y, hy⟩ := hn.exists_inv
  obtain ⟨A0, hA0, hv⟩ := inertiaInverseAba_val h hm hn hy
  rw [hv i hi j hj, if_neg, if_neg, hA0 hnew]
  · intro hm; exact h2 ((hli.mem j).2 ((h.inv.tree.sub_mem j hj i).1 hm).2)
  · intro hm; exact h1 ((hlj.mem i).2 ((h.inv.tree.sub_mem i hi j).1 hm).2)

/-! ## Violation of C31 on a branching tree -/

namespace Body

/-- The branching witness built in a body whose memory for the inverse held `x`. -/
noncomputable def demoMem (x : ℝ) : Body :=
  { demo with c := ((((init { cache0 with abaInv := fun _ _ => x }).c.expand 0).expand 1).expand
      2).clearQ.clearDq }

theorem demoMem_reach (E : Ext) (x : ℝ) : ∃ d, Reach E (demoMem x) d := by
  refine reach_execAll demoOps (Reach.init { cache0 with abaInv := fun _ _ => x }) ?_ ?_
  · intro op hop
    simp only [demoOps, List.mem_cons, List.not_mem_nil, or_false] at hop
    rcases hop with rfl | rfl | rfl | rfl | rfl <;> first | trivial | exact quarterTurn_valid
  · simp [demoOps, execAll, Op.exec, Op.step, addRigidBody, setQ, setDq, Out.map, Out.bind, init,
      dof, pushSub, demo, demoMem]

theorem demoMem_definite (x : ℝ) : (demoMem x).Definite :=
  ⟨demo_definite.mass, demo_definite.symm, demo_definite.pd, demo_definite.load, demo_definite.axes⟩

end Body

/-- Negation of C31 on branching trees: two bodies with the same observable state, built by the same
calls, for which `InertiaInverseAba` differs; so it is not the inverse of the inertia for one of
them. -/
theorem C31_violated (E : Ext) : ∃ (b b' : Body) (d d' : Bool), Reach E b d ∧ Reach E b' d' ∧
    b.Definite ∧ b'.Definite ∧ b.ObsEq b' ∧ b.inertiaInverseAba.1 1 2 ≠ b'.inertiaInverseAba.1 1 2 ∧
    ¬((∀ i < b.dof, ∀ j < b.dof, ∑ k ∈ range b.dof, b.inertia.1 i k * b.inertiaInverseAba.1 k j =
        if i = j then 1 else 0) ∧
      ∀ i < b'.dof, ∀ j < b'.dof, ∑ k ∈ range b'.dof, b'.inertia.1 i k * b'.inertiaInverseAba.1 k j =
        if i = j then 1 else 0) := by
  have hval : ∀ x, (demoMem x).inertiaInverseAba.1 1 2 = x := by
    intro x
    obtain ⟨d, h⟩ := demoMem_reach E x
    have hd := demoMem_definite x
    have h0 : RootPath (fun k => ((demoMem x).rb k).idParent) 0 [0] := .root rfl
    exact C31_between_branches h (hd.massive h.inv.tree) (hd.form h) rfl
      (i := 1) (j := 2) (by show 1 < 3; omega) (by show 2 < 3; omega)
      (.step (p := 0) rfl h0) (.step (p := 0) rfl h0) (by simp) (by simp)
  obtain ⟨d, h⟩ := demoMem_reach E 0
  obtain ⟨d', h'⟩ := demoMem_reach E 1
  have hd := demoMem_definite 0
  have hd' := demoMem_definite 1
  refine ⟨demoMem 0, demoMem 1, d, d', h, h', hd, hd', ⟨rfl, rfl, rfl, rfl, rfl, rfl, rfl, rfl⟩, ?_,
    ?_⟩
  · rw [hval, hval]; norm_num
  · rintro ⟨h1, h2⟩
    have hdet := fresh_det h (hd.massive h.inv.tree) (hd.form h)
    have := Sys.solve_unique (x := fun k => (demoMem 0).inertiaInverseAba.1 k 2)
      (y := fun k => (demoMem 1).inertiaInverseAba.1 k 2) hdet (fun i hi => ?_) 1
      (by show 1 < 3; omega)
    · beta_reduce at this
      rw [hval, hval] at this
      norm_num at this
    · have e1 := h1 i hi 2 (by show 2 < 3; omega)
      have e2 := h2 i hi 2 (by show 2 < 3; omega)
      rw [← e2] at e1
      refine Eq.trans ?_ (e1.trans ?_)
      · exact sum_congr rfl fun k hk => by
          rw [inertia_entry h (hd.massive h.inv.tree) i k hi (mem_range.1 hk)]
      · exact sum_congr rfl fun k hk => by
          rw [inertia_entry h' (hd'.massive h'.inv.tree) i k hi (mem_range.1 hk)]
          rfl

/-- A chain that meets the hypotheses of `C31_chain`: the first two links of the witness. -/
noncomputable def chainOps : List Op :=
  [.addRigidBody (mkRB .rz) (-1), .addRigidBody (mkRB .px) 0, .addRigidBody (mkRB .rx) 1,
   .setQ [1, 2, 3], .setDq [1, -1, 2]]

example (E : Ext) : ∃ b d, Reach E b d ∧ b.dof = 3 ∧ b.Massive ∧
    DefiniteForm b.dof b.inertia.1 ∧
    ∀ k < b.dof, (b.rb k).idParent = (k : ℤ) - 1 := by
  have he : ∃ b, execAll E (Body.init cache0) chainOps = some b ∧ b.rbs =
      [{ mkRB .rz with id := 0, idParent := -1 }, { mkRB .px with id := 1, idParent := 0 },
       { mkRB .rx with id := 2, idParent := 1 }] ∧ b.load = fun _ => none := by
    simp [chainOps, execAll, Op.exec, Op.step, addRigidBody, setQ, setDq, Out.map, Out.bind, init,
      Body.dof, pushSub]
  obtain ⟨b, hb, hr, hl⟩ := he
  obtain ⟨d, h⟩ := reach_execAll chainOps (Reach.init cache0) (by
    intro op hop
    simp only [chainOps, List.mem_cons, List.not_mem_nil, or_false] at hop
    rcases hop with rfl | rfl | rfl | rfl | rfl <;> first | trivial | exact quarterTurn_valid) hb
  have hdof : b.dof = 3 := by unfold Body.dof; rw [hr]; rfl
  have hlt : ∀ k < b.dof, k = 0 ∨ k = 1 ∨ k = 2 := by intro k hk; rw [hdof] at hk; omega
  have hrb : ∀ k, b.rb k = ([{ mkRB .rz with id := 0, idParent := -1 },
      { mkRB .px with id := 1, idParent := 0 }, { mkRB .rx with id := 2, idParent := 1 }] :
        List RB).getD k {} := by
    intro k; unfold Body.rb; rw [hr]
  have hI : ∀ k < b.dof, (b.rb k).inertia = unitInertia := by
    intro k hk
    rw [hrb]
    rcases hlt k hk with rfl | rfl | rfl <;> rfl
  have hd : b.Definite := by
    refine ⟨fun k hk => ?_, fun k hk => ?_, fun k hk v hv => ?_, fun k hk L hL => ?_, fun k hk h0 => ?_⟩
    · rw [hI k hk]; norm_num [unitInertia]
    · rw [hI k hk]; exact unitInertia_phys.2.1
    · rw [hI k hk]; exact unitInertia_pd v hv
    · rw [hl] at hL; cases hL
    · rw [hrb] at h0
      rcases hlt k hk with rfl | rfl | rfl
      · exact demo_axes 0 (by show 0 < 3; omega) h0
      · exact demo_axes 1 (by show 1 < 3; omega) h0
      · exact demo_axes 2 (by show 2 < 3; omega) h0
  refine ⟨b, d, h, hdof, hd.massive h.inv.tree, hd.form h, fun k hk => ?_⟩
  rw [hrb]
  rcases hlt k hk with rfl | rfl | rfl <;> rfl

end SpatialDyn
