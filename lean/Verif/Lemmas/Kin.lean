import Verif.Lemmas.Motion
import Verif.Props.Tree

/-! Values of the forward-kinematics functions. -/

namespace SpatialDyn

/-- A motion vector taken to the point `p`: the velocity of that point and the angular velocity. -/
def Motion.atPoint (m : Motion) (p : Vec3) : Motion := ⟨m.lin + m.ang.cross p, m.ang⟩

theorem Motion.atPoint_sum (n : ℕ) (w : ℕ → ℝ) (m : ℕ → Motion) (p : Vec3) :
    (∑ j ∈ Finset.range n, w j • m j).atPoint p = ∑ j ∈ Finset.range n, w j • (m j).atPoint p := by
  induction n with
  | zero => ext <;> simp [Motion.atPoint, Vec3.cross]
  | succ n ih =>
    rw [Finset.sum_range_succ, Finset.sum_range_succ, ← ih]
    ext <;> simp [Motion.atPoint, Vec3.cross] <;> ring

namespace Body
variable {b : Body} {E : Ext}

theorem LinkPose.climb (ht : b.Tree) {α : Type*} (f : Iso → α → α)
    (hf : ∀ A B x, f A (f B x) = f (A * B) x) {u : ℕ → ℝ} {i : ℕ} {X : Iso}
    (h : b.LinkPose u i X) (hi : i < b.dof) (n : ℕ) (hn : i < n) (x : α) :
    b.climb u f n (some i) x = f X x := by
  induction h generalizing n x with
  | @root i hr =>
    obtain ⟨n, rfl⟩ : ∃ m, n = m + 1 := ⟨n - 1, by omega⟩
    unfold Body.climb
    rw [par_none.2 hr]
    cases n <;> rfl
  | @link i p X hp h ih =>
    have hlt := ht.parLt i hi p (par_eq_some.2 hp)
    obtain ⟨n, rfl⟩ : ∃ m, n = m + 1 := ⟨n - 1, by omega⟩
    unfold Body.climb
    rw [par_eq_some.2 hp, ih (by omega) n (by omega), hf]
    rfl

theorem Tree.anc_eq_root (ht : b.Tree) {i : ℕ} (hi : i < b.dof) (h : b.par i = none) :
    b.anc.getD i [] = [i] := by
  refine sorted_unique (ht.anc_sorted i hi) (by simp) fun j => ?_
  rw [ht.anc_mem i hi, anc_root h]; simp

theorem Tree.anc_eq_step (ht : b.Tree) {i p : ℕ} (hi : i < b.dof) (h : b.par i = some p) :
    b.anc.getD i [] = b.anc.getD p [] ++ [i] := by
  have hlt := ht.parLt i hi p h
  have hp : p < b.dof := by omega
  refine sorted_unique (ht.anc_sorted i hi) ?_ fun j => ?_
  · rw [List.pairwise_append]
    refine ⟨ht.anc_sorted p hp, by simp, fun a ha c hc => ?_⟩
    rw [List.mem_singleton.1 hc]
    have := ((ht.anc_mem p hp a).1 ha).le ht.parLt hp
    omega
  · rw [ht.anc_mem i hi, anc_step h, List.mem_append, ht.anc_mem p hp]
    simp [or_comm]

theorem jacLoop_apply (Tw : ℕ → Iso) (ancs : List ℕ) (p : Vec3) (j : ℕ) :
    b.jacLoop Tw ancs p j = if j ∈ ancs then
      ((Tw j).actM (b.rb j).joint.subspace).atPoint p else 0 := by
  have e : ∀ i, ((⟨(Tw i).R, (Tw i).t - p⟩ : Iso).actM (b.rb i).joint.subspace) =
      ((Tw i).actM (b.rb i).joint.subspace).atPoint p := by
    intro i
    unfold Motion.atPoint Iso.actM
    ext <;> simp [Vec3.cross] <;> ring
  unfold jacLoop
  simp only [e]
  have key : ∀ (l : List ℕ) (J0 : ℕ → Motion),
      l.foldl (fun J i => Function.update J i (((Tw i).actM (b.rb i).joint.subspace).atPoint p)) J0 j
        = if j ∈ l then ((Tw j).actM (b.rb j).joint.subspace).atPoint p else J0 j := by
    intro l
    induction l with
    | nil => intro J0; simp
    | cons a l ih =>
      intro J0
      rw [List.foldl_cons, ih]
      by_cases h1 : j ∈ l
      · simp [h1]
      · by_cases h2 : j = a
        · subst h2; simp [h1]
        · simp [h1, h2]
  rw [key]

/-- Value of the Jacobian: axis of every ancestor joint, taken to the point. -/
theorem jacobian_val (h : Inv E b) {l : ℤ} {k : ℕ} (hk : b.LinkIdx l k) {x : Vec3}
    {r : (ℕ → Motion) × Body} (hr : b.jacobian l x = .ok r) (j : ℕ) :
    r.1 j = (b.fresh.Jw k j).atPoint ((b.freshTw k).app x) := by
  classical
  obtain ⟨-, k', hk', hJ⟩ := jacobian_run h hr
  rw [hk.index] at hk'
  cases hk'
  rw [hJ, jacLoop_apply]
  unfold Sys.Jw
  by_cases hm : j ∈ b.anc.getD k []
  · have hanc : Anc b.fresh.par j k := (h.tree.anc_mem k hk.1 j).1 hm
    have hj := h.tree.anc_lt hk.1 hm
    rw [if_pos hm, if_pos hanc]
    unfold Sys.axis
    rw [fresh_Tw hj]
    rfl
  · rw [if_neg hm, if_neg (show ¬ Anc b.fresh.par j k from fun hc => hm ((h.tree.anc_mem k hk.1 j).2 hc))]
    unfold Motion.atPoint
    ext <;> simp

theorem jacobian_total (b : Body) {l : ℤ} {k : ℕ} (hk : b.LinkIdx l k) (x : Vec3) :
    ∃ r, b.jacobian l x = .ok r := by
  unfold Body.jacobian
  rw [hk.index]
  simp only [Out.bind]
  split <;> exact ⟨_, rfl⟩

/-- The transforms collected by the `q` overload of `Jacobian`. -/
theorem jacQ_transforms (ht : b.Tree) (u : ℕ → ℝ) : ∀ k < b.dof,
    (b.anc.getD k []).foldl (b.jacQStep u) [] = (b.anc.getD k []).map (b.twAt u) ∧
    (b.anc.getD k []).getLast? = some k := by
  intro k
  induction k using Nat.strong_induction_on with
  | _ k ih =>
    intro hk
    cases hpar : b.par k with
    | none =>
      rw [ht.anc_eq_root hk hpar]
      refine ⟨?_, rfl⟩
      simp only [jacQStep, List.foldl_cons, List.foldl_nil, List.nil_append, List.map_cons, List.map_nil,
        List.getLast?_nil]
      rw [twAt_rec ht u hk, hpar]
    | some p =>
      have hlt := ht.parLt k hk p hpar
      obtain ⟨h1, h2⟩ := ih p hlt (by omega)
      rw [ht.anc_eq_step hk hpar]
      refine ⟨?_, by simp⟩
      rw [List.foldl_append, h1]
      simp only [jacQStep, List.foldl_cons, List.foldl_nil, List.map_append, List.map_cons, List.map_nil,
        List.getLast?_map, h2, Option.map_some]
      rw [twAt_rec ht u hk, hpar]

theorem jacobianQ_val (ht : b.Tree) {l : ℤ} {k : ℕ} (hk : b.LinkIdx l k) (u : ℕ → ℝ) (x : Vec3) :
    b.jacobianQ u l x =
      .ok (b.jacLoop (b.twAt u) (b.anc.getD k []) ((b.twAt u k).app x)) := by
  obtain ⟨h1, h2⟩ := jacQ_transforms ht u k hk.1
  unfold Body.jacobianQ
  rw [hk.index]
  simp only [Out.bind, h1, List.getLast?_map, h2, Option.map_some]
  congr 1
  unfold jacLoop
  generalize (fun _ => 0 : ℕ → Motion) = J0
  generalize (b.twAt u k).app x = p
  generalize b.anc.getD k [] = l
  induction l generalizing J0 with
  | nil => rfl
  | cons a l ih => simp only [List.map_cons, List.zip_cons_cons, List.foldl_cons]; exact ih _

end Body
end SpatialDyn
