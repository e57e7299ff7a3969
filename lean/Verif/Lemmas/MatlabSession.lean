import Verif.Spec.MatlabSession
import Mathlib.Data.Set.Card

/-!
# Addresses and references
-/

namespace SpatialDyn
namespace Mex

open Function

variable {E : Ext} {C : Ctl} {X : UrdfExt} {A : Alloc}

/-- Address of a reference when robot `k` is at `m k`. -/
def Ref.addr (m : ℕ → ℕ) : Ref → ℕ
  | .null => 0
  | .robot k => m k

theorem World.robot_lt {w : World} {k : ℕ} {b : Body} (h : w.robot k = some b) : k < w.robots.length := by
  by_contra hc
  unfold World.robot at h
  rw [List.getElem?_eq_none (not_lt.1 hc)] at h
  cases h

/-- The session `s` stands for the world `w`, with robot `k` at address `m k`.  In a strict session
addresses are not used twice. -/
structure Rep (strict : Prop) (m : ℕ → ℕ) (w : World) (s : Session) : Prop where
  vars : ∀ x, s.vars x = (w.vars x).map (Ref.addr m)
  refs : ∀ x k, w.vars x = some (.robot k) → k < w.robots.length
  notNull : ∀ k < w.robots.length, m k ≠ 0
  live : ∀ k b, w.robot k = some b → s.heap (m k) = some b
  inj : ∀ j k b c, w.robot j = some b → w.robot k = some c → m j = m k → j = k
  only : ∀ a b, s.heap a = some b → ∃ k, w.robot k = some b ∧ m k = a
  ik : s.ik = w.ik
  old : strict → ∀ k < w.robots.length, m k ≤ s.time
  dead : strict → ∀ k < w.robots.length, w.robot k = none → s.heap (m k) = none

variable {strict : Prop} {m : ℕ → ℕ} {w : World} {s : Session}

theorem Rep.tick (h : Rep strict m w s) : Rep strict m w { s with time := s.time + 1 } :=
  ⟨h.vars, h.refs, h.notNull, h.live, h.inj, h.only, h.ik, fun hs k hk => (h.old hs k hk).trans (Nat.le_succ _),
    h.dead⟩

/-- There is an unused address. -/
theorem Rep.room (h : Rep strict m w s) : ∃ a ≠ 0, s.heap a = none := by
  by_contra hc
  push Not at hc
  have hfin : (Set.Ici 1 : Set ℕ) ⊆ ((Finset.range w.robots.length).image m : Set ℕ) := by
    intro a ha
    obtain ⟨b, hb⟩ := Option.ne_none_iff_exists'.1 (hc a (Nat.one_le_iff_ne_zero.1 ha))
    obtain ⟨k, hk, rfl⟩ := h.only a b hb
    simp only [Finset.coe_image, Set.mem_image, Finset.coe_range, Set.mem_Iio]
    exact ⟨k, World.robot_lt hk, rfl⟩
  exact Set.Ici_infinite 1 ((Finset.finite_toSet _).subset hfin)

theorem Rep.setVar (h : Rep strict m w s) (x : ℕ) {r : Ref} (hr : ∀ k, r = .robot k → k < w.robots.length) :
    Rep strict m { w with vars := update w.vars x (some r) }
      { s with vars := update s.vars x (some (r.addr m)) } := by
  refine ⟨fun y => ?_, fun y k hy => ?_, h.notNull, h.live, h.inj, h.only, h.ik, h.old, h.dead⟩
  · by_cases e : y = x
    · subst e; simp
    · simp only [update_of_ne e]; exact h.vars y
  · by_cases e : y = x
    · subst e
      simp only [update_self, Option.some.injEq] at hy
      exact hr k hy
    · simp only [update_of_ne e] at hy
      exact h.refs y k hy

theorem Rep.clear (h : Rep strict m w s) (x : ℕ) :
    Rep strict m { w with vars := update w.vars x none } { s with vars := update s.vars x none } := by
  refine ⟨fun y => ?_, fun y k hy => ?_, h.notNull, h.live, h.inj, h.only, h.ik, h.old, h.dead⟩
  · by_cases e : y = x
    · subst e; simp
    · simp only [update_of_ne e]; exact h.vars y
  · by_cases e : y = x
    · subst e
      simp at hy
    · simp only [update_of_ne e] at hy
      exact h.refs y k hy

theorem robot_set {k j : ℕ} {o : Option Body} (hk : k < w.robots.length) :
    (⟨w.vars, w.robots.set k o, w.ik⟩ : World).robot j = if j = k then o else w.robot j := by
  unfold World.robot
  by_cases e : j = k
  · subst e; simp [hk]
  · rw [List.getElem?_set_ne (Ne.symm e), if_neg e]

theorem robot_append {j : ℕ} {b : Body} :
    (⟨w.vars, w.robots ++ [some b], w.ik⟩ : World).robot j =
      if j = w.robots.length then some b else w.robot j := by
  unfold World.robot
  by_cases e : j = w.robots.length
  · subst e; simp
  · rw [if_neg e]
    by_cases hj : j < w.robots.length
    · rw [List.getElem?_append_left hj]
    · rw [List.getElem?_eq_none (by simp; omega), List.getElem?_eq_none (by omega)]

/-- A robot is changed or deleted. -/
theorem Rep.write (h : Rep strict m w s) {k : ℕ} {b : Body} (hk : w.robot k = some b) (o : Option Body)
    (i : Option ℕ) : Rep strict m { w with robots := w.robots.set k o, ik := i }
      { s with heap := update s.heap (m k) o, ik := i } := by
  have hl := World.robot_lt hk
  have hr : ∀ j, (⟨w.vars, w.robots.set k o, i⟩ : World).robot j = if j = k then o else w.robot j :=
    fun j => robot_set hl
  have hlen : (w.robots.set k o).length = w.robots.length := List.length_set
  refine ⟨h.vars, ?_, ?_, ?_, ?_, ?_, rfl, ?_, ?_⟩
  · intro x j hx; show j < _; rw [hlen]; exact h.refs x j hx
  · intro j hj; exact h.notNull j (by rw [← hlen]; exact hj)
  · intro j c hj
    rw [hr] at hj
    by_cases e : j = k
    · subst e; rw [if_pos rfl] at hj; simp [hj]
    · rw [if_neg e] at hj
      dsimp only
      rw [update_of_ne fun e' => e (h.inj j k c b hj hk e')]
      exact h.live j c hj
  · intro j j' c c' hj hj' e
    rw [hr] at hj hj'
    have hz : ∀ {j c}, (if j = k then o else w.robot j) = some c → ∃ c, w.robot j = some c := by
      intro j c hj
      by_cases e : j = k
      · subst e; exact ⟨b, hk⟩
      · rw [if_neg e] at hj; exact ⟨c, hj⟩
    obtain ⟨c, hj⟩ := hz hj
    obtain ⟨c', hj'⟩ := hz hj'
    exact h.inj j j' c c' hj hj' e
  · intro a c ha
    dsimp only at ha
    by_cases e : a = m k
    · subst e
      rw [update_self] at ha
      exact ⟨k, by rw [hr, if_pos rfl, ha], rfl⟩
    · rw [update_of_ne e] at ha
      obtain ⟨j, hj, rfl⟩ := h.only a c ha
      exact ⟨j, by rw [hr, if_neg fun e' => e (by rw [e']), hj], rfl⟩
  · intro hs j hj; exact h.old hs j (by rw [← hlen]; exact hj)
  · intro hs j hj hd
    rw [hr] at hd
    dsimp only
    by_cases e : j = k
    · subst e
      rw [if_pos rfl] at hd
      rw [update_self, hd]
    · rw [if_neg e] at hd
      have h0 := h.dead hs j (by rw [← hlen]; exact hj) hd
      rw [update_of_ne]
      · exact h0
      · intro e'
        rw [e', h.live k b hk] at h0
        cases h0

/-- A robot is loaded. -/
theorem Rep.load (h : Rep strict m w s) (b : Body) (x : ℕ) {a : ℕ} (h0 : a ≠ 0) (hf : s.heap a = none)
    {t : ℕ} (ht : s.time ≤ t) (ho : strict → s.time < a ∧ a ≤ t) : Rep strict (update m w.robots.length a)
      { w with vars := update w.vars x (some (.robot w.robots.length)), robots := w.robots ++ [some b] }
      { s with vars := update s.vars x (some a), heap := update s.heap a (some b), time := t } := by
  have hr : ∀ j v, (⟨v, w.robots ++ [some b], w.ik⟩ : World).robot j =
      if j = w.robots.length then some b else w.robot j := fun j v => robot_append
  have hm : ∀ k < w.robots.length, update m w.robots.length a k = m k := fun k hk =>
    update_of_ne (by omega) _ _
  have hlen : (w.robots ++ [some b]).length = w.robots.length + 1 := by simp
  have hmu : update m w.robots.length a w.robots.length = a := update_self ..
  generalize hM : update m w.robots.length a = m' at *
  have hfa : ∀ k c, w.robot k = some c → m k ≠ a := by
    intro k c hk e
    have := h.live k c hk
    rw [e, hf] at this
    cases this
  refine ⟨?_, ?_, ?_, ?_, ?_, ?_, h.ik, ?_, ?_⟩
  · intro y
    dsimp only
    by_cases e : y = x
    · subst e; simp [Ref.addr, hmu]
    · rw [update_of_ne e, update_of_ne e, h.vars y]
      cases hy : w.vars y with
      | none => rfl
      | some r =>
        cases r with
        | null => rfl
        | robot k => simp [Ref.addr, hm k (h.refs y k hy)]
  · intro y k hy
    dsimp only at hy ⊢
    by_cases e : y = x
    · subst e
      rw [update_self] at hy
      cases hy
      omega
    · rw [update_of_ne e] at hy
      have := h.refs y k hy
      omega
  · intro k hk
    dsimp only at hk
    by_cases e : k = w.robots.length
    · subst e; rw [hmu]; exact h0
    · rw [hm k (by omega)]; exact h.notNull k (by omega)
  · intro k c hk
    rw [hr] at hk
    dsimp only
    by_cases e : k = w.robots.length
    · rw [if_pos e] at hk
      rw [e, hmu, update_self, hk]
    · rw [if_neg e] at hk
      rw [hm k (World.robot_lt hk), update_of_ne (hfa k c hk)]
      exact h.live k c hk
  · intro j k c c' hj hk e
    rw [hr] at hj hk
    by_cases e1 : j = w.robots.length <;> by_cases e2 : k = w.robots.length
    · rw [e1, e2]
    · rw [if_neg e2] at hk
      rw [e1, hmu, hm k (World.robot_lt hk)] at e
      exact absurd e.symm (hfa k c' hk)
    · rw [if_neg e1] at hj
      rw [e2, hmu, hm j (World.robot_lt hj)] at e
      exact absurd e (hfa j c hj)
    · rw [if_neg e1] at hj
      rw [if_neg e2] at hk
      rw [hm j (World.robot_lt hj), hm k (World.robot_lt hk)] at e
      exact h.inj j k c c' hj hk e
  · intro a' c ha
    dsimp only at ha
    by_cases e : a' = a
    · subst e
      rw [update_self] at ha
      exact ⟨w.robots.length, by rw [hr, if_pos rfl, ha], hmu⟩
    · rw [update_of_ne e] at ha
      obtain ⟨k, hk, rfl⟩ := h.only a' c ha
      have := World.robot_lt hk
      exact ⟨k, by rw [hr, if_neg (by omega), hk], hm k this⟩
  · intro hs k hk
    dsimp only at hk ⊢
    by_cases e : k = w.robots.length
    · subst e; rw [hmu]; exact (ho hs).2
    · rw [hm k (by omega)]
      exact (h.old hs k (by omega)).trans ht
  · intro hs k hk hd
    rw [hr] at hd
    dsimp only at hk ⊢
    by_cases e : k = w.robots.length
    · rw [if_pos e] at hd; cases hd
    · rw [if_neg e] at hd
      have h1 := h.old hs k (by omega)
      have h2 := (ho hs).1
      rw [hm k (by omega), update_of_ne (by omega)]
      exact h.dead hs k (by omega) hd

end Mex
end SpatialDyn
