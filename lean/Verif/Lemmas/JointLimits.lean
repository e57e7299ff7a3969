import Verif.Spec.JointLimits
import Verif.Props.Forward
import Verif.Props.Integrate
import Verif.Props.OpsCache

/-! Impulses of the joint limits: linear algebra and the list of joints. -/

namespace SpatialDyn
open Finset

/-! ## A positive definite matrix and unit torques -/

section
variable {n : ℕ} {M : ℕ → ℕ → ℝ} {E : Ext} {L : List (ℕ × Bool)}

theorem hat_solves (hdet : PosMat (toMat n M)) (l j : ℕ) (hl : l < n) :
    ∑ i ∈ range n, M l i * Body.impulseHat E n M L i j =
      if l = (L.getD j (0, false)).1 then 1 else 0 := by
  unfold Body.impulseHat Ext.solve
  obtain ⟨x, hx⟩ : ∃ x, ldltSolve n M (fun k => if k = (L.getD j (0, false)).1 then 1 else 0) =
      some x := by
    unfold ldltSolve
    rw [if_pos hdet]
    exact ⟨_, rfl⟩
  rw [hx]
  exact Sys.ldltSolve_sound hx l hl

/-- Applying the inertia to a combination of responses gives the torques back. -/
theorem hat_torque (hdet : PosMat (toMat n M)) (x : ℕ → ℝ) (m l : ℕ) (hl : l < n) :
    ∑ i ∈ range n, M l i * ∑ j ∈ range m, Body.impulseHat E n M L i j * x j =
      ∑ j ∈ range m, if l = (L.getD j (0, false)).1 then x j else 0 := by
  simp only [mul_sum]
  rw [sum_comm]
  refine sum_congr rfl fun j _ => ?_
  have := hat_solves (E := E) (L := L) hdet l j hl
  calc ∑ i ∈ range n, M l i * (Body.impulseHat E n M L i j * x j)
      = (∑ i ∈ range n, M l i * Body.impulseHat E n M L i j) * x j := by
        rw [sum_mul]; exact sum_congr rfl fun i _ => by ring
    _ = _ := by rw [this]; split <;> simp

/-- The response at one joint to a torque at another is symmetric. -/
theorem hat_symm (hdet : PosMat (toMat n M)) (hs : ∀ i < n, ∀ j < n, M i j = M j i) {i j : ℕ}
    (hi : (L.getD i (0, false)).1 < n) (hj : (L.getD j (0, false)).1 < n) :
    Body.impulseHat E n M L (L.getD i (0, false)).1 j =
      Body.impulseHat E n M L (L.getD j (0, false)).1 i := by
  set H := Body.impulseHat E n M L with hH
  have key : ∀ i j : ℕ, (L.getD i (0, false)).1 < n →
      ∑ l ∈ range n, H l j * ∑ k ∈ range n, M l k * H k i = H (L.getD i (0, false)).1 j := by
    intro i j hi
    rw [sum_congr rfl fun l hl => by rw [hat_solves hdet l i (mem_range.1 hl)]]
    rw [sum_eq_single (L.getD i (0, false)).1]
    · rw [if_pos rfl, mul_one]
    · intro l _ hne
      rw [if_neg hne, mul_zero]
    · intro hne
      exact absurd (mem_range.2 hi) hne
  rw [← key i j hi, ← key j i hj]
  simp only [mul_sum]
  rw [sum_comm]
  refine sum_congr rfl fun k hk => sum_congr rfl fun l hl => ?_
  rw [hs l (mem_range.1 hl) k (mem_range.1 hk)]
  ring

/-- The responses of distinct joints at these joints form a nonsingular matrix. -/
theorem hat_nonsingular (hdet : PosMat (toMat n M))
    (hpd : ∀ u : ℕ → ℝ, (∃ i < n, u i ≠ 0) → 0 < ∑ i ∈ range n, u i * ∑ j ∈ range n, M i j * u j)
    {m : ℕ} (hL : ∀ k < m, (L.getD k (0, false)).1 < n)
    (hinj : ∀ k < m, ∀ l < m, (L.getD k (0, false)).1 = (L.getD l (0, false)).1 → k = l) :
    Nonsingular m fun i j => Body.impulseHat E n M L (L.getD i (0, false)).1 j := by
  intro v hv
  set H := Body.impulseHat E n M L with hH
  set u : ℕ → ℝ := fun i => ∑ j ∈ range m, H i j * v j with hu
  have ht : ∀ l < n, ∑ i ∈ range n, M l i * u i =
      ∑ j ∈ range m, if l = (L.getD j (0, false)).1 then v j else 0 :=
    fun l hl => hat_torque hdet v m l hl
  have hz : ∑ i ∈ range n, u i * ∑ j ∈ range n, M i j * u j = 0 := by
    rw [sum_congr rfl fun i hi => by rw [ht i (mem_range.1 hi), mul_sum]]
    rw [sum_comm]
    refine sum_eq_zero fun j hj => ?_
    rw [sum_eq_single (L.getD j (0, false)).1]
    · rw [if_pos rfl]
      have : u (L.getD j (0, false)).1 = 0 := hv j (mem_range.1 hj)
      rw [this, zero_mul]
    · intro i _ hne
      rw [if_neg hne, mul_zero]
    · intro hne
      exact absurd (mem_range.2 (hL j (mem_range.1 hj))) hne
  have hu0 : ∀ i < n, u i = 0 := by
    intro i hi
    by_contra hne
    exact absurd hz (hpd u ⟨i, hi, hne⟩).ne'
  intro k hk
  have h1 := ht _ (hL k hk)
  rw [sum_eq_zero fun i hi => by rw [hu0 i (mem_range.1 hi), mul_zero],
    sum_eq_single k] at h1
  · rw [if_pos rfl] at h1; exact h1.symm
  · intro l hl hne
    exact if_neg fun e => hne (hinj k hk l (mem_range.1 hl) e).symm
  · intro hne
    exact absurd (mem_range.2 hk) hne

theorem Nonsingular.solvable {m : ℕ} {A : ℕ → ℕ → ℝ} (h : Nonsingular m A) (c : ℕ → ℝ) :
    ∃ x : ℕ → ℝ, ∀ i < m, ∑ j ∈ range m, A i j * x j = c i := Sys.solve_exists h.det_ne c

/-- What the solver reads: the transposed matrix. -/
theorem colMajor_getD {m : ℕ} (A : ℕ → ℕ → ℝ) {i j : ℕ} (hi : i < m) (hj : j < m) :
    (colMajor m A).getD (i * m + j) 0 = A j i := by
  have hlt : i * m + j < m * m := by
    calc i * m + j < i * m + m := by omega
      _ = (i + 1) * m := by ring
      _ ≤ m * m := Nat.mul_le_mul_right m hi
  have e1 : (i * m + j) % m = j := by rw [Nat.add_comm, Nat.add_mul_mod_self_right, Nat.mod_eq_of_lt hj]
  have e2 : (i * m + j) / m = i := by
    rw [Nat.add_comm, Nat.add_mul_div_right _ _ (by omega), Nat.div_eq_of_lt hj, Nat.zero_add]
  unfold colMajor
  rw [List.getD_eq_getElem?_getD, List.getElem?_map, List.getElem?_range hlt]
  simp [e1, e2]

theorem map_range_getD {m : ℕ} (f : ℕ → ℝ) {i : ℕ} (hi : i < m) :
    ((List.range m).map f).getD i 0 = f i := by
  rw [List.getD_eq_getElem?_getD, List.getElem?_map, List.getElem?_range hi]
  simp

end

/-! ## The joints at their limits -/

namespace Body
variable {b : Body} {E : Ext} {Q : Qp}

theorem atMax_iff (hl : ∀ i < b.dof, (b.rb i).joint.LimitsOK) {i : ℕ} (hi : i < b.dof) (x : ℝ) :
    (b.rb i).joint.qMax.Le (.fin x) ↔ b.AtMax i x :=
  Dbl.le_iff (hl i hi).max_nan (by simp)

theorem atMin_iff (hl : ∀ i < b.dof, (b.rb i).joint.LimitsOK) {i : ℕ} (hi : i < b.dof) (x : ℝ) :
    (Dbl.fin x).Le (b.rb i).joint.qMin ↔ b.AtMin i x :=
  Dbl.le_iff (by simp) (hl i hi).min_nan

theorem limited_mem (hl : ∀ i < b.dof, (b.rb i).joint.LimitsOK) {p : ℕ × Bool} (h : p ∈ b.limited) :
    p.1 < b.dof ∧ (p.2 = true → b.AtMax p.1 (b.q.getD p.1 0)) ∧
      (p.2 = false → ¬ b.AtMax p.1 (b.q.getD p.1 0) ∧ b.AtMin p.1 (b.q.getD p.1 0)) := by
  unfold limited at h
  obtain ⟨i, hi, hp⟩ := List.mem_filterMap.1 h
  have hi := List.mem_range.1 hi
  by_cases h1 : b.AtMax i (b.q.getD i 0)
  · rw [if_pos ((atMax_iff hl hi _).2 h1)] at hp
    cases hp
    exact ⟨hi, fun _ => h1, fun e => (Bool.false_ne_true e.symm).elim⟩
  · rw [if_neg (fun h => h1 ((atMax_iff hl hi _).1 h))] at hp
    by_cases h2 : b.AtMin i (b.q.getD i 0)
    · rw [if_pos ((atMin_iff hl hi _).2 h2)] at hp
      cases hp
      exact ⟨hi, fun e => (Bool.false_ne_true e).elim, fun _ => ⟨h1, h2⟩⟩
    · rw [if_neg (fun h => h2 ((atMin_iff hl hi _).1 h))] at hp
      cases hp

theorem limited_of_max (hl : ∀ i < b.dof, (b.rb i).joint.LimitsOK) {i : ℕ} (hi : i < b.dof)
    (h : b.AtMax i (b.q.getD i 0)) : (i, true) ∈ b.limited := by
  unfold limited
  refine List.mem_filterMap.2 ⟨i, List.mem_range.2 hi, ?_⟩
  rw [if_pos ((atMax_iff hl hi _).2 h)]

theorem limited_of_min (hl : ∀ i < b.dof, (b.rb i).joint.LimitsOK) {i : ℕ} (hi : i < b.dof)
    (h1 : ¬ b.AtMax i (b.q.getD i 0)) (h : b.AtMin i (b.q.getD i 0)) : (i, false) ∈ b.limited := by
  unfold limited
  refine List.mem_filterMap.2 ⟨i, List.mem_range.2 hi, ?_⟩
  rw [if_neg (fun h' => h1 ((atMax_iff hl hi _).1 h')),
    if_pos ((atMin_iff hl hi _).2 h)]

open Classical in
theorem limited_nodup (b : Body) : (b.limited.map Prod.fst).Nodup := by
  unfold limited
  rw [List.map_filterMap]
  refine List.Nodup.filterMap (fun i i' p h1 h2 => ?_) List.nodup_range
  simp only [Option.mem_def, Option.map_eq_some_iff] at h1 h2
  obtain ⟨u, hu, rfl⟩ := h1
  obtain ⟨v, hv, e⟩ := h2
  have f : ∀ {i : ℕ} {u : ℕ × Bool}, (if (b.rb i).joint.qMax.Le (.fin (b.q.getD i 0)) then
      some (i, true) else if (Dbl.fin (b.q.getD i 0)).Le (b.rb i).joint.qMin then some (i, false)
      else none) = some u → u.1 = i := by
    intro i u h
    split at h
    · cases h; rfl
    · split at h
      · cases h; rfl
      · cases h
  rw [← f hu, ← f hv, e]

theorem getD_lt {l : List (ℕ × Bool)} {k : ℕ} (hk : k < l.length) :
    l.getD k (0, false) = l[k] := by
  rw [List.getD_eq_getElem?_getD, List.getElem?_eq_getElem hk]
  rfl

theorem limited_get {k : ℕ} (hk : k < b.limited.length) :
    b.limited.getD k (0, false) ∈ b.limited := by
  rw [getD_lt hk]
  exact List.getElem_mem hk

theorem limited_inj {k l : ℕ} (hk : k < b.limited.length) (hl : l < b.limited.length)
    (h : (b.limited.getD k (0, false)).1 = (b.limited.getD l (0, false)).1) : k = l := by
  rw [getD_lt hk, getD_lt hl] at h
  have := (List.Nodup.getElem_inj_iff (limited_nodup b) (i := k) (j := l)
    (hi := by simpa using hk) (hj := by simpa using hl)).1 (by simpa using h)
  exact this

theorem limited_index {p : ℕ × Bool} (h : p ∈ b.limited) :
    ∃ k < b.limited.length, b.limited.getD k (0, false) = p := by
  obtain ⟨k, hk, e⟩ := List.mem_iff_getElem.1 h
  exact ⟨k, hk, by rw [getD_lt hk, e]⟩

/-! ## The impulse -/

theorem limitImpulse_none (h : b.limited = []) (ddq : ℕ → ℝ) :
    b.limitImpulse E Q ddq = (fun _ => 0, b) := by
  unfold limitImpulse
  simp [h]

theorem limitImpulse_same (ddq : ℕ → ℝ) : b.Same (b.limitImpulse E Q ddq).2 := by
  unfold limitImpulse
  simp only
  split
  · rfl
  · exact inertiaInverse_same

theorem limitImpulse_some (hne : b.limited.length ≠ 0) (ddq : ℕ → ℝ) :
    ∃ A v : List ℝ, A = colMajor b.limited.length (fun i j => limitSign b.limited i *
        impulseHat E b.dof b.inertiaInverse.1 b.limited (b.limited.getD i (0, false)).1 j) ∧
      v = (List.range b.limited.length).map (fun i => -limitSign b.limited i *
        ddq (b.limited.getD i (0, false)).1) ∧
      (b.limitImpulse E Q ddq).1 = fun i => ∑ j ∈ Finset.range b.limited.length,
        impulseHat E b.dof b.inertiaInverse.1 b.limited i j *
          (Q.run b.limited.length A v).getD j 0 := by
  refine ⟨_, _, rfl, rfl, ?_⟩
  unfold limitImpulse
  simp only [hne, if_false]

section
variable (h : Inv E b) (hD : b.Definite)
include h hD

theorem inv_mass (i j : ℕ) (hi : i < b.dof) (hj : j < b.dof) :
    b.inertiaInverse.1 i j = b.fresh.massSpec i j :=
  (inertiaInverse_run h).2.mass h.wf (hD.massive h.tree).symI ((hD.massive h.tree).posMass h.tree)
    i j hi hj

theorem inv_det : PosMat (toMat b.dof b.inertiaInverse.1) := by
  rw [Sys.toMat_congr fun i hi j hj => inv_mass h hD i j hi hj]
  exact (hD.massPD h).mat

theorem inv_symm (i : ℕ) (hi : i < b.dof) (j : ℕ) (hj : j < b.dof) :
    b.inertiaInverse.1 i j = b.inertiaInverse.1 j i := by
  rw [inv_mass h hD i j hi hj, inv_mass h hD j i hj hi]
  unfold Sys.massSpec
  exact sum_congr rfl fun k hk => h.wf.Iw_symm (hD.massive h.tree).symI (mem_range.1 hk) _ _

theorem inv_pd (u : ℕ → ℝ) (hu : ∃ i < b.dof, u i ≠ 0) :
    0 < ∑ i ∈ range b.dof, u i * ∑ j ∈ range b.dof, b.inertiaInverse.1 i j * u j := by
  have := hD.massPD h u hu
  rw [Sys.energy2_eq] at this
  refine lt_of_lt_of_eq this (sum_congr rfl fun i hi => ?_)
  congr 1
  exact sum_congr rfl fun j hj => by rw [inv_mass h hD i j (mem_range.1 hi) (mem_range.1 hj)]

/-- The torques of the impulse act on the joints at their limits only. -/
theorem limitImpulse_torque (hl : ∀ i < b.dof, (b.rb i).joint.LimitsOK) (ddq : ℕ → ℝ) :
    b.OnlyStops (fun i => b.q.getD i 0) fun i => ∑ j ∈ range b.dof,
      b.inertiaInverse.1 i j * (b.limitImpulse E Q ddq).1 j := by
  intro i hi h1 h2
  by_cases hne : b.limited.length = 0
  · rw [limitImpulse_none (List.length_eq_zero_iff.1 hne)]
    simp
  · obtain ⟨A, v, -, -, e⟩ := limitImpulse_some (E := E) (Q := Q) hne ddq
    simp only [e]
    rw [hat_torque (inv_det h hD) _ _ i hi]
    refine sum_eq_zero fun j hj => if_neg fun hij => ?_
    obtain ⟨-, m1, m2⟩ := limited_mem hl (limited_get (mem_range.1 hj))
    rw [← hij] at m1 m2
    cases hb : (b.limited.getD j (0, false)).2 with
    | true => exact h1 (m1 hb)
    | false => exact h2 (m2 hb).2

omit h hD in
/-- Where no joint is pushed outwards the impulse is zero. -/
theorem limitImpulse_idle (hQ : Q.Exact) (hl : ∀ i < b.dof, (b.rb i).joint.LimitsOK) {ddq : ℕ → ℝ}
    (hn : b.NoPush (fun i => b.q.getD i 0) ddq) (i : ℕ) : (b.limitImpulse E Q ddq).1 i = 0 := by
  by_cases hne : b.limited.length = 0
  · rw [limitImpulse_none (List.length_eq_zero_iff.1 hne)]
  · obtain ⟨A, v, hA, hv, e⟩ := limitImpulse_some (E := E) (Q := Q) hne ddq
    have hz : QpFeasible b.limited.length A v fun _ => 0 := by
      intro k hk
      rw [hv, map_range_getD _ hk]
      simp only [mul_zero, sum_const_zero]
      obtain ⟨m0, m1, m2⟩ := limited_mem hl (limited_get hk)
      unfold limitSign
      cases hb : (b.limited.getD k (0, false)).2 with
      | true =>
        have := (hn _ m0).1 (m1 hb)
        simp only [if_true]
        linarith
      | false =>
        have := (hn _ m0).2 (m2 hb).1 (m2 hb).2
        simp only [Bool.false_eq_true, if_false]
        linarith
    have h2 := (hQ _ A v ⟨_, hz⟩).2 _ hz
    have h3 : ∀ j ∈ range b.limited.length, (Q.run b.limited.length A v).getD j 0 ^ 2 = 0 := by
      rw [← sum_eq_zero_iff_of_nonneg fun j _ => sq_nonneg _]
      refine le_antisymm (h2.trans ?_) (sum_nonneg fun j _ => sq_nonneg _)
      simp
    rw [e]
    refine sum_eq_zero fun j hj => ?_
    rw [pow_eq_zero_iff two_ne_zero |>.1 (h3 j hj), mul_zero]

/-- Where all joints at limits are at limits on the same side, none is pushed outwards afterwards. -/
theorem limitImpulse_stops (hQ : Q.Exact) (hl : ∀ i < b.dof, (b.rb i).joint.LimitsOK) (ddq : ℕ → ℝ)
    (h1 : b.OneSided fun i => b.q.getD i 0) :
    b.NoPush (fun i => b.q.getD i 0) fun i => ddq i + (b.limitImpulse E Q ddq).1 i := by
  by_cases hne : b.limited.length = 0
  · have hnil := List.length_eq_zero_iff.1 hne
    intro i hi
    refine ⟨fun hm => ?_, fun hm hm' => ?_⟩
    · exact absurd (limited_of_max hl hi hm) (by rw [hnil]; exact List.not_mem_nil)
    · exact absurd (limited_of_min hl hi hm hm') (by rw [hnil]; exact List.not_mem_nil)
  · obtain ⟨A, v, hA, hv, e⟩ := limitImpulse_some (E := E) (Q := Q) hne ddq
    set L := b.limited with hL
    set H := impulseHat E b.dof b.inertiaInverse.1 L with hH
    -- one sign for all
    obtain ⟨s, hs2, hs⟩ : ∃ s : ℝ, s * s = 1 ∧ ∀ k < L.length, limitSign L k = s := by
      rcases h1 with h1 | h1
      · refine ⟨1, by norm_num, fun k hk => ?_⟩
        obtain ⟨m0, m1, m2⟩ := limited_mem hl (limited_get hk)
        unfold limitSign
        cases hb : (L.getD k (0, false)).2 with
        | true => rfl
        | false => exact absurd (h1 _ m0 (m2 hb).2) (m2 hb).1
      · refine ⟨-1, by norm_num, fun k hk => ?_⟩
        obtain ⟨m0, m1, m2⟩ := limited_mem hl (limited_get hk)
        unfold limitSign
        cases hb : (L.getD k (0, false)).2 with
        | true => exact absurd (m1 hb) (h1 _ m0)
        | false => rfl
    have hidx : ∀ k < L.length, (L.getD k (0, false)).1 < b.dof := fun k hk =>
      (limited_mem hl (limited_get hk)).1
    have hrow : ∀ k < L.length, ∀ x : ℕ → ℝ, ∑ j ∈ range L.length, A.getD (k * L.length + j) 0 * x j =
        s * ∑ j ∈ range L.length, H (L.getD k (0, false)).1 j * x j := by
      intro k hk x
      rw [mul_sum]
      refine sum_congr rfl fun j hj => ?_
      have hj := mem_range.1 hj
      rw [hA, colMajor_getD _ hk hj, hs j hj,
        show H (L.getD j (0, false)).1 k = H (L.getD k (0, false)).1 j from
          hat_symm (inv_det h hD) (inv_symm h hD) (hidx j hj) (hidx k hk)]
      ring
    have hf : ∃ x, QpFeasible L.length A v x := by
      obtain ⟨x, hx⟩ := (hat_nonsingular (E := E) (L := L) (inv_det h hD) (inv_pd h hD) hidx
        fun k hk l hl' => limited_inj hk hl').solvable fun i => -ddq (L.getD i (0, false)).1
      refine ⟨x, fun k hk => ?_⟩
      rw [hrow k hk, hx k hk, hv, map_range_getD _ hk, hs k hk]
      apply le_of_eq
      ring
    have hfe := (hQ _ A v hf).1
    have key : ∀ k < L.length, s * (ddq (L.getD k (0, false)).1 +
        (b.limitImpulse E Q ddq).1 (L.getD k (0, false)).1) ≤ 0 := by
      intro k hk
      have h5 := hfe k hk
      have hvk : v.getD k 0 = -s * ddq (L.getD k (0, false)).1 := by
        rw [hv, map_range_getD _ hk, hs k hk]
      rw [hrow k hk, hvk] at h5
      rw [e, mul_add]
      beta_reduce at h5 ⊢
      linarith
    intro i hi
    refine ⟨fun hm => ?_, fun hm hm' => ?_⟩
    · obtain ⟨k, hk, ek⟩ := limited_index (limited_of_max hl hi hm)
      have h6 := key k hk
      have hsk := hs k hk
      rw [ek] at h6
      unfold limitSign at hsk
      rw [← hL] at ek
      rw [ek, if_pos rfl] at hsk
      rw [← hsk] at h6
      linarith
    · obtain ⟨k, hk, ek⟩ := limited_index (limited_of_min hl hi hm hm')
      have h6 := key k hk
      have hsk := hs k hk
      rw [ek] at h6
      unfold limitSign at hsk
      rw [← hL] at ek
      rw [ek, if_neg Bool.false_ne_true] at hsk
      rw [← hsk] at h6
      linarith

end

/-! ## The impulse depends on the state only -/

variable {b1 b2 : Body}

theorem AtState.limited {y : State b.dof} (h1 : AtState E b y b1) (h2 : AtState E b y b2) :
    b1.limited = b2.limited := by
  unfold Body.limited
  rw [h1.dof, h2.dof, h1.rb, h2.rb, h1.q, h2.q]

theorem AtState.obsEq {y : State b.dof} (h1 : AtState E b y b1) (h2 : AtState E b y b2) :
    b1.ObsEq b2 :=
  ⟨h1.only.rbs.trans h2.only.rbs.symm, h1.q.trans h2.q.symm, h1.dq.trans h2.dq.symm,
    h1.only.g.trans h2.only.g.symm, h1.only.load.trans h2.only.load.symm,
    h1.only.T0.trans h2.only.T0.symm, h1.only.anc.trans h2.only.anc.symm,
    h1.only.sub.trans h2.only.sub.symm⟩

theorem AtState.limitImpulse {y : State b.dof} (h1 : AtState E b y b1) (h2 : AtState E b y b2)
    (hl : ∀ i < b.dof, (b.rb i).joint.LimitsOK) {d1 d2 : ℕ → ℝ}
    (hd : ∀ i < b.dof, d1 i = d2 i) :
    (b1.limitImpulse E Q d1).1 = (b2.limitImpulse E Q d2).1 := by
  have hL := h1.limited h2
  have hl1 : ∀ i < b1.dof, (b1.rb i).joint.LimitsOK := by
    rw [h1.dof, h1.rb]; exact hl
  have hn : b1.dof = b2.dof := h1.dof.trans h2.dof.symm
  by_cases hne : b1.limited.length = 0
  · have e1 := List.length_eq_zero_iff.1 hne
    rw [limitImpulse_none e1, limitImpulse_none (hL ▸ e1)]
  · have hA : ∀ i < b1.dof, ∀ j < b1.dof, b1.inertiaInverse.1 i j = b2.inertiaInverse.1 i j :=
      (inertiaInverse_run h1.inv).2.unique h1.inv.wf
        ((h1.obsEq h2).fresh_eq ▸ (inertiaInverse_run h2.inv).2)
    have hH : impulseHat E b1.dof b1.inertiaInverse.1 b1.limited =
        impulseHat E b2.dof b2.inertiaInverse.1 b2.limited := by
      funext i j
      unfold impulseHat
      rw [← hL, ← hn]
      exact congrFun (E.solve_congr hA fun _ _ => rfl) i
    obtain ⟨A, v, hA1, hv1, e1⟩ := limitImpulse_some (E := E) (Q := Q) hne d1
    obtain ⟨A', v', hA2, hv2, e2⟩ := limitImpulse_some (E := E) (Q := Q) (hL ▸ hne) d2
    have hv : v = v' := by
      rw [hv1, hv2, ← hL]
      refine List.map_congr_left fun k hk => ?_
      rw [hd _ (h1.dof ▸ (limited_mem hl1 (limited_get (List.mem_range.1 hk))).1)]
    rw [e1, e2, hA1, hA2, hv, hH, ← hL]

theorem AtState.limitImpulse_at {y : State b.dof} (h1 : AtState E b y b1) (d : ℕ → ℝ) :
    AtState E b y (b1.limitImpulse E Q d).2 := by
  have hs := limitImpulse_same (b := b1) (E := E) (Q := Q) d
  refine ⟨h1.only.trans hs.stateOnly, ?_, by rw [hs]; exact h1.q, by rw [hs]; exact h1.dq⟩
  unfold Body.limitImpulse
  simp only
  split
  · exact h1.inv
  · exact h1.inv.step (inertiaInverse_run h1.inv).1

theorem inState_at (h : Inv E b) {c : Cache} (hc : c.Clear) (y : State b.dof) :
    AtState E b y (b.inState c y) :=
  ⟨⟨rfl, rfl, rfl, rfl, rfl, rfl, rfl, by simp [inState, h.tree.lq, Body.dof],
    by simp [inState, h.tree.ldq, Body.dof]⟩, inState_inv h hc y, rfl, rfl⟩

/-- The equations of motion with the impulses of the limits. -/
noncomputable def stopField (E : Ext) (Q : Qp) (b : Body) (c : Cache) (tau : ℕ → ℝ) (fext : FExt)
    (o : IntOpts) (y : State b.dof) : State b.dof :=
  (y.2, fun i => ((b.inState c y).accelL E Q tau fext o).1 i)

theorem AtState.accelL {y : State b.dof} (g1 : AtState E b y b1) (h0 : Inv E b) (hs : b.fresh.SymI)
    (hm : b.fresh.PosMass) (hl : ∀ i < b.dof, (b.rb i).joint.LimitsOK) {c : Cache} (hc : c.Clear)
    (tau : ℕ → ℝ) (fext : FExt) (o : IntOpts) :
    (∀ i : Fin b.dof, (b1.accelL E Q tau fext o).1 i = (b.stopField E Q c tau fext o y).2 i) ∧
      AtState E b y (b1.accelL E Q tau fext o).2 := by
  have g2 := inState_at h0 hc y
  obtain ⟨a1, k1⟩ := g1.accel h0 hs hm hc tau fext o
  obtain ⟨a2, k2⟩ := g2.accel h0 hs hm hc tau fext o
  unfold stopField Body.accelL
  simp only
  cases o.jointLimits with
  | true =>
    simp only [if_true]
    refine ⟨fun i => ?_, k1.limitImpulse_at _⟩
    rw [a1 i, a2 i, k1.limitImpulse k2 hl fun i hi => (a1 ⟨i, hi⟩).trans (a2 ⟨i, hi⟩).symm]
  | false =>
    simp only [Bool.false_eq_true, if_false]
    exact ⟨fun i => (a1 i).trans (a2 i).symm, k1⟩

/-! ## Two joints at limits -/

theorem limited_iff (hl : ∀ i < b.dof, (b.rb i).joint.LimitsOK) {p : ℕ × Bool} :
    p ∈ b.limited ↔ p.1 < b.dof ∧ b.AtLimit p.1 (b.q.getD p.1 0) p.2 := by
  obtain ⟨i, s⟩ := p
  constructor
  · intro h
    obtain ⟨h1, h2, h3⟩ := limited_mem hl h
    refine ⟨h1, ?_⟩
    cases s with
    | true => exact h2 rfl
    | false => exact h3 rfl
  · rintro ⟨h1, h2⟩
    cases s with
    | true => exact limited_of_max hl h1 h2
    | false => exact limited_of_min hl h1 h2.1 h2.2

open Classical in
theorem limited_sorted (b : Body) : b.limited.Pairwise fun p r => p.1 < r.1 := by
  unfold limited
  rw [List.pairwise_filterMap]
  refine List.Pairwise.imp ?_ List.pairwise_lt_range
  have f : ∀ {i : ℕ} {u : ℕ × Bool}, (if (b.rb i).joint.qMax.Le (.fin (b.q.getD i 0)) then
      some (i, true) else if (Dbl.fin (b.q.getD i 0)).Le (b.rb i).joint.qMin then some (i, false)
      else none) = some u → u.1 = i := by
    intro i u hu
    split at hu
    · cases hu; rfl
    · split at hu
      · cases hu; rfl
      · cases hu
  intro i j hij u hu v hv
  rw [f hu, f hv]
  exact hij

theorem limited_two (hl : ∀ i < b.dof, (b.rb i).joint.LimitsOK) {i j : ℕ} {s t : Bool} (hij : i < j)
    (h : b.TwoLimits (fun i => b.q.getD i 0) i j s t) : b.limited = [(i, s), (j, t)] := by
  obtain ⟨hi, hj, hs, ht, ho⟩ := h
  have hun : ∀ {k : ℕ} {x : ℝ} {s t : Bool}, b.AtLimit k x s → b.AtLimit k x t → s = t := by
    intro k x s t h1 h2
    cases s <;> cases t
    · rfl
    · exact absurd h2 h1.1
    · exact absurd h1 h2.1
    · rfl
  have hw : [(i, s), (j, t)].Pairwise fun p r : ℕ × Bool => p.1 < r.1 := by
    simp [hij]
  have hnd : ∀ {l : List (ℕ × Bool)}, (l.Pairwise fun p r => p.1 < r.1) → l.Nodup := fun h =>
    h.imp fun h e => absurd h (by rw [e]; exact lt_irrefl _)
  refine List.Perm.eq_of_pairwise (le := fun p r => p.1 < r.1) (fun _ _ _ _ h1 h2 => absurd h1 h2.asymm)
    (limited_sorted b) hw ((List.perm_ext_iff_of_nodup (hnd (limited_sorted b)) (hnd hw)).2 ?_)
  intro p
  rw [limited_iff hl]
  constructor
  · rintro ⟨h1, h2⟩
    by_cases e1 : p.1 = i
    · have : p.2 = s := hun h2 (by rw [e1]; exact hs)
      simp [← e1, ← this]
    · by_cases e2 : p.1 = j
      · have : p.2 = t := hun h2 (by rw [e2]; exact ht)
        simp [← e2, ← this]
      · obtain ⟨n1, n2⟩ := ho p.1 h1 e1 e2
        cases hp : p.2 with
        | true => rw [hp] at h2; exact absurd h2 n1
        | false => rw [hp] at h2; exact absurd h2.2 n2
  · intro h
    simp only [List.mem_cons, List.not_mem_nil, or_false] at h
    rcases h with rfl | rfl
    · exact ⟨hi, hs⟩
    · exact ⟨hj, ht⟩

theorem inertia_inv (h : Inv E b) (hD : b.Definite) (i j : ℕ) (hi : i < b.dof) (hj : j < b.dof) :
    b.inertia.1 i j = b.inertiaInverse.1 i j := by
  rw [inv_mass h hD i j hi hj]
  exact (inertia_run h).2.1.mass h.wf (hD.massive h.tree).symI ((hD.massive h.tree).posMass h.tree)
    i j hi hj

/-- The four numbers of two joints at limits: a positive diagonal, and the coupling. -/
theorem two_hat (h : Inv E b) (hD : b.Definite) {i j : ℕ} {s t : Bool} (hi : i < b.dof)
    (hj : j < b.dof) {u : ℕ → ℝ} (hu : b.Response j u) :
    let H := impulseHat E b.dof b.inertiaInverse.1 [(i, s), (j, t)]
    0 < H i 0 ∧ 0 < H j 1 ∧ H i 1 = u i ∧ H j 0 = u i := by
  intro H
  have hsol : ∀ k l, l < b.dof → ∑ m ∈ range b.dof, b.inertiaInverse.1 l m * H m k =
      if l = ([(i, s), (j, t)].getD k (0, false)).1 then 1 else 0 := fun k l hl =>
    hat_solves (E := E) (L := [(i, s), (j, t)]) (inv_det h hD) l k hl
  have pos : ∀ k, ∀ p < b.dof, ([(i, s), (j, t)].getD k (0, false)).1 = p → 0 < H p k := by
    intro k p hp e
    have h1 : ∑ l ∈ range b.dof, H l k * ∑ m ∈ range b.dof, b.inertiaInverse.1 l m * H m k =
        H p k := by
      rw [sum_congr rfl fun l hl => by rw [hsol k l (mem_range.1 hl)]]
      simp only [e, mul_ite, mul_one, mul_zero]
      rw [sum_ite_eq' (range b.dof) p, if_pos (mem_range.2 hp)]
    rw [← h1]
    refine inv_pd h hD (fun l => H l k) ?_
    by_contra hne
    push Not at hne
    have h2 := hsol k p hp
    rw [e, if_pos rfl, sum_eq_zero] at h2
    · exact zero_ne_one h2
    · intro m hm
      rw [hne m (mem_range.1 hm), mul_zero]
  have e1 : H i 1 = u i := by
    refine Sys.solve_unique (y := u) (inv_det h hD).det_ne (fun l hl => ?_) i hi (x := fun l => H l 1)
    rw [hsol 1 l hl]
    have := hu l hl
    rw [sum_congr rfl fun k hk => by rw [inertia_inv h hD l k hl (mem_range.1 hk)]] at this
    rw [this]
    rfl
  refine ⟨pos 0 i hi rfl, pos 1 j hj rfl, e1, ?_⟩
  rw [← e1]
  exact hat_symm (L := [(i, s), (j, t)]) (i := 1) (j := 0) (inv_det h hD) (inv_symm h hD) hj hi

theorem sq_zero_of {x y : ℝ} (h : x ^ 2 + y ^ 2 ≤ 0) : x = 0 ∧ y = 0 := by
  constructor <;> nlinarith [sq_nonneg x, sq_nonneg y]

/-- The shortest vector in a half-plane. -/
theorem shortest {p r x y : ℝ} (hs : 0 < p ^ 2 + r ^ 2) (h1 : 1 ≤ p * x + r * y)
    (h2 : x ^ 2 + y ^ 2 ≤ (p / (p ^ 2 + r ^ 2)) ^ 2 + (r / (p ^ 2 + r ^ 2)) ^ 2) :
    x = p / (p ^ 2 + r ^ 2) ∧ y = r / (p ^ 2 + r ^ 2) := by
  set S := p ^ 2 + r ^ 2 with hS
  have e : (p / S) ^ 2 + (r / S) ^ 2 = 1 / S := by
    rw [div_pow, div_pow, ← add_div, ← hS]
    field_simp
  rw [e] at h2
  have h3 : (x - p / S) ^ 2 + (y - r / S) ^ 2 ≤ 0 := by
    have : (x - p / S) ^ 2 + (y - r / S) ^ 2 =
        x ^ 2 + y ^ 2 - 2 / S * (p * x + r * y) + ((p / S) ^ 2 + (r / S) ^ 2) := by
      field_simp; ring
    rw [this, e]
    have h4 : 2 / S * 1 ≤ 2 / S * (p * x + r * y) := mul_le_mul_of_nonneg_left h1 (by positivity)
    have : 2 / S * 1 = 1 / S + 1 / S := by ring
    linarith
  obtain ⟨a, c⟩ := sq_zero_of h3
  exact ⟨by linarith, by linarith⟩

end Body
end SpatialDyn
