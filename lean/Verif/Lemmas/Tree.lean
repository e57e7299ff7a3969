import Verif.Model.Body
import Verif.Lemmas.World

/-! The tree invariant and its preservation by `AddRigidBody`. -/

namespace SpatialDyn

theorem Anc.congr {par par' : ℕ → Option ℕ} {n : ℕ} (hp : ParLt n par)
    (h : ∀ i < n, par' i = par i) {i : ℕ} (hi : i < n) (j : ℕ) :
    Anc par' j i ↔ Anc par j i := by
  induction i using Nat.strong_induction_on with
  | _ i ih =>
    cases hpar : par i with
    | none => rw [anc_root hpar, anc_root ((h i hi).trans hpar)]
    | some p =>
      have hlt := hp i hi p hpar
      rw [anc_step hpar, anc_step ((h i hi).trans hpar), ih p hlt (by omega)]

namespace Body
variable {b : Body}

/-- Well-formed tree bookkeeping. -/
structure Tree (b : Body) : Prop where
  lq : b.q.length = b.dof
  ldq : b.dq.length = b.dof
  lanc : b.anc.length = b.dof
  lsub : b.sub.length = b.dof
  ids : ∀ i < b.dof, (b.rb i).id = i ∧ -1 ≤ (b.rb i).idParent ∧ (b.rb i).idParent < i
  anc_mem : ∀ i < b.dof, ∀ j, j ∈ b.anc.getD i [] ↔ Anc b.par j i
  anc_sorted : ∀ i < b.dof, (b.anc.getD i []).Pairwise (· < ·)
  sub_mem : ∀ i < b.dof, ∀ j, j ∈ b.sub.getD i [] ↔ j < b.dof ∧ Anc b.par i j
  sub_sorted : ∀ i < b.dof, (b.sub.getD i []).Pairwise (· < ·)

theorem par_eq_some {i p : ℕ} : b.par i = some p ↔ (b.rb i).idParent = p := by
  unfold par
  simp only
  split
  · constructor
    · intro h; cases h
    · intro h; omega
  · rw [Option.some.injEq]; omega

theorem par_eq_none {i : ℕ} : b.par i = none ↔ (b.rb i).idParent < 0 := by
  unfold par
  simp only
  split
  · simp_all
  · simp_all

theorem Tree.parLt (h : b.Tree) : ParLt b.dof b.par := by
  intro i hi p hp
  have := (h.ids i hi).2.2
  rw [par_eq_some.1 hp] at this
  omega

theorem tree_init (c : Cache) : (init c).Tree := by
  refine ⟨rfl, rfl, rfl, rfl, ?_, ?_, ?_, ?_, ?_⟩ <;>
    exact fun i hi => absurd hi (Nat.not_lt_zero i)

theorem pushSub_length (sub : List (List ℕ)) (ancs : List ℕ) (id : ℕ) :
    (pushSub sub ancs id).length = sub.length := by
  unfold pushSub
  induction ancs generalizing sub with
  | nil => rfl
  | cons a l ih => rw [List.foldl_cons, ih, List.length_set]

theorem pushSub_getD (sub : List (List ℕ)) (ancs : List ℕ) (id i : ℕ) (hn : ancs.Nodup)
    (hi : i < sub.length) :
    (pushSub sub ancs id).getD i [] = sub.getD i [] ++ (if i ∈ ancs then [id] else []) := by
  unfold pushSub
  induction ancs generalizing sub with
  | nil => simp
  | cons a l ih =>
    rw [List.foldl_cons, ih _ hn.tail (by simpa using hi)]
    have ha : a ∉ l := (List.nodup_cons.1 hn).1
    by_cases hia : i = a
    · subst hia
      simp only [List.mem_cons, true_or, if_true, ha, if_false]
      rw [List.append_nil]
      simp only [List.getD_eq_getElem?_getD, List.getElem?_set_self hi, Option.getD_some]
    · simp only [List.mem_cons, hia, false_or]
      congr 1
      simp only [List.getD_eq_getElem?_getD]
      rw [List.getElem?_set_ne (by omega)]

/-- The state after a successful `AddRigidBody`. -/
theorem addRigidBody_ok {rb : RB} {p : ℤ} {id : ℕ} {b' : Body}
    (h : b.addRigidBody rb p = .ok (id, b')) :
    id = b.dof ∧ -1 ≤ p ∧ p < b.dof ∧
      b' = { b with
        rbs := b.rbs ++ [{ rb with id := (b.dof : ℤ), idParent := p }]
        q := b.q ++ [0]
        dq := b.dq ++ [0]
        anc := b.anc ++ [(if p < 0 then [] else b.anc.getD p.toNat []) ++ [b.dof]]
        sub := pushSub b.sub (if p < 0 then [] else b.anc.getD p.toNat []) b.dof ++ [[b.dof]]
        c := b.c.expand b.dof } := by
  unfold addRigidBody at h
  simp only at h
  split at h
  · cases h
  · next hc =>
    simp only [Out.ok.injEq, Prod.mk.injEq] at h
    push Not at hc
    refine ⟨h.1.symm, hc.2, hc.1, h.2.symm⟩

theorem addRigidBody_rb {rb : RB} {p : ℤ} {id : ℕ} {b' : Body}
    (h : b.addRigidBody rb p = .ok (id, b')) (i : ℕ) :
    b'.rb i = if i = b.dof then { rb with id := (b.dof : ℤ), idParent := p } else b.rb i := by
  obtain ⟨-, -, -, rfl⟩ := addRigidBody_ok h
  unfold Body.rb dof
  simp only [List.getD_eq_getElem?_getD]
  by_cases hi : i < b.rbs.length
  · rw [List.getElem?_append_left hi, if_neg (by omega)]
  · by_cases he : i = b.rbs.length
    · subst he; simp
    · rw [if_neg he, List.getElem?_append_right (by omega),
        List.getElem?_eq_none (by simp; omega), List.getElem?_eq_none (by omega)]

theorem addRigidBody_dof {rb : RB} {p : ℤ} {id : ℕ} {b' : Body}
    (h : b.addRigidBody rb p = .ok (id, b')) : b'.dof = b.dof + 1 := by
  obtain ⟨-, -, -, rfl⟩ := addRigidBody_ok h
  simp [dof]

theorem getD_append_one {α : Type*} (l : List α) (x d : α) (i : ℕ) :
    (l ++ [x]).getD i d = if i = l.length then x else l.getD i d := by
  simp only [List.getD_eq_getElem?_getD]
  by_cases hi : i < l.length
  · rw [List.getElem?_append_left hi, if_neg (by omega)]
  · by_cases he : i = l.length
    · subst he; simp
    · rw [if_neg he, List.getElem?_append_right (by omega),
        List.getElem?_eq_none (by simp; omega), List.getElem?_eq_none (by omega)]

theorem Tree.addRigidBody (ht : b.Tree) {rb : RB} {p : ℤ} {id : ℕ} {b' : Body}
    (h : b.addRigidBody rb p = .ok (id, b')) : b'.Tree := by
  have hrb := addRigidBody_rb h
  have hdof := addRigidBody_dof h
  obtain ⟨-, hp1, hp2, hb'⟩ := addRigidBody_ok h
  have hpar : ∀ i < b.dof, b'.par i = b.par i := by
    intro i hi
    have e : b'.rb i = b.rb i := by rw [hrb i, if_neg (show ¬ i = b.dof by omega)]
    unfold par
    rw [e]
  have hparn : b'.par b.dof = if p < 0 then none else some p.toNat := by
    have e : b'.rb b.dof = { rb with id := (b.dof : ℤ), idParent := p } := by rw [hrb, if_pos rfl]
    unfold par
    rw [e]
  have hids : ∀ i < b'.dof, (b'.rb i).id = i ∧ -1 ≤ (b'.rb i).idParent ∧ (b'.rb i).idParent < i := by
    intro i hi
    rw [hrb i]
    split
    · next he => subst he; exact ⟨rfl, hp1, hp2⟩
    · exact ht.ids i (by omega)
  have hplt : ParLt b'.dof b'.par := by
    intro i hi q hq
    have := (hids i hi).2.2
    rw [par_eq_some.1 hq] at this
    omega
  have hanc : ∀ i < b.dof, ∀ j, Anc b'.par j i ↔ Anc b.par j i := fun i hi j =>
    Anc.congr ht.parLt hpar hi j
  set ancP := (if p < 0 then ([] : List ℕ) else b.anc.getD p.toNat []) with hancP
  have hancn : ∀ j, Anc b'.par j b.dof ↔ j = b.dof ∨ j ∈ ancP := by
    intro j
    by_cases hneg : p < 0
    · rw [if_pos hneg] at hparn
      rw [anc_root hparn, hancP, if_pos hneg]
      simp
    · rw [if_neg hneg] at hparn
      have hlt : p.toNat < b.dof := by omega
      rw [anc_step hparn, hancP, if_neg hneg, ht.anc_mem _ hlt, hanc _ hlt]
  have hancPlt : ∀ j ∈ ancP, j < b.dof := by
    intro j hj
    by_cases hneg : p < 0
    · rw [hancP, if_pos hneg] at hj; cases hj
    · rw [hancP, if_neg hneg] at hj
      have hlt : p.toNat < b.dof := by omega
      have := ((ht.anc_mem _ hlt j).1 hj).le ht.parLt hlt
      omega
  have hancPs : ancP.Pairwise (· < ·) := by
    rw [hancP]
    split
    · exact List.Pairwise.nil
    · exact ht.anc_sorted _ (by omega)
  have hnd : ancP.Nodup := hancPs.imp fun h => Nat.ne_of_lt h
  have hgetanc : ∀ i, b'.anc.getD i [] = if i = b.dof then ancP ++ [b.dof] else b.anc.getD i [] := by
    intro i
    rw [hb']
    show (b.anc ++ [ancP ++ [b.dof]]).getD i [] = _
    rw [getD_append_one, ht.lanc]
  have hgetsub : ∀ i ≤ b.dof, b'.sub.getD i [] =
      if i = b.dof then [b.dof] else b.sub.getD i [] ++ (if i ∈ ancP then [b.dof] else []) := by
    intro i hi
    rw [hb']
    show (pushSub b.sub ancP b.dof ++ [[b.dof]]).getD i [] = _
    rw [getD_append_one, pushSub_length, ht.lsub]
    split
    · rfl
    · exact pushSub_getD _ _ _ _ hnd (by rw [ht.lsub]; omega)
  refine ⟨?_, ?_, ?_, ?_, hids, ?_, ?_, ?_, ?_⟩
  · rw [hdof, hb']; simp [ht.lq]
  · rw [hdof, hb']; simp [ht.ldq]
  · rw [hdof, hb']; simp [ht.lanc]
  · rw [hdof, hb']; simp [pushSub_length, ht.lsub]
  · intro i hi j
    rw [hgetanc]
    split
    · next he => subst he; rw [hancn]; simp [or_comm]
    · rw [ht.anc_mem i (by omega), hanc i (by omega)]
  · intro i hi
    rw [hgetanc]
    split
    · rw [List.pairwise_append]
      exact ⟨hancPs, List.pairwise_singleton _ _, fun a ha c hc => by
        rw [List.mem_singleton] at hc; rw [hc]; exact hancPlt a ha⟩
    · exact ht.anc_sorted i (by omega)
  · intro i hi j
    rw [hgetsub i (by omega)]
    split
    · next he =>
      subst he
      rw [List.mem_singleton]
      constructor
      · rintro rfl; exact ⟨by omega, .refl⟩
      · rintro ⟨hj, ha⟩
        have := ha.le hplt hj
        omega
    · next hne =>
      have hi' : i < b.dof := by omega
      rw [List.mem_append, ht.sub_mem i hi']
      constructor
      · rintro (⟨hj, ha⟩ | hj)
        · exact ⟨by omega, (hanc j hj i).2 ha⟩
        · split at hj
          · next hm =>
            rw [List.mem_singleton] at hj
            subst hj
            exact ⟨by omega, (hancn i).2 (.inr hm)⟩
          · cases hj
      · rintro ⟨hj, ha⟩
        by_cases hjn : j = b.dof
        · subst hjn
          rcases (hancn i).1 ha with h | h
          · omega
          · right; rw [if_pos h]; simp
        · left
          exact ⟨by omega, (hanc j (by omega) i).1 ha⟩
  · intro i hi
    rw [hgetsub i (by omega)]
    split
    · exact List.pairwise_singleton _ _
    · next hne =>
      have hi' : i < b.dof := by omega
      rw [List.pairwise_append]
      refine ⟨ht.sub_sorted i hi', ?_, ?_⟩
      · split
        · exact List.pairwise_singleton _ _
        · exact List.Pairwise.nil
      · intro a ha c hc
        split at hc
        · rw [List.mem_singleton] at hc
          rw [hc]
          exact ((ht.sub_mem i hi' a).1 ha).1
        · cases hc

end Body
end SpatialDyn
