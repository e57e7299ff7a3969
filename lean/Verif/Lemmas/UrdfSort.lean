import Verif.Spec.Urdf

/-!
# Sorting the links of a URDF file
-/

namespace SpatialDyn

variable {par : Str → Str} {names : List Str} {r x y : Str} {n m : ℕ}

theorem TopoFrom.mono {s s' l : List Str} (h : TopoFrom par s l) (hs : s ⊆ s') : TopoFrom par s' l := by
  induction l generalizing s s' with
  | nil => trivial
  | cons x l ih =>
    refine ⟨hs h.1, ih h.2 ?_⟩
    intro z hz
    rcases List.mem_append.1 hz with hz | hz
    · exact List.mem_append_left _ (hs hz)
    · exact List.mem_append_right _ hz

theorem topoFrom_append {s l l' : List Str} :
    TopoFrom par s (l ++ l') ↔ TopoFrom par s l ∧ TopoFrom par (s ++ l) l' := by
  induction l generalizing s with
  | nil => simp [TopoFrom]
  | cons x l ih => simp [TopoFrom, ih, and_assoc]

theorem Under.eq_iterate (h : Under par names x n y) : x = par^[n] y := by
  induction h with
  | here => rfl
  | down _ _ ih => rw [Function.iterate_succ_apply]; exact ih

theorem Under.trans (h : Under par names r n x) (h' : Under par names x m y) :
    Under par names r (n + m) y := by
  induction h' with
  | here => exact h
  | down hy _ ih => exact .down hy ih

theorem Under.split (h : Under par names x (n + 1) y) :
    ∃ c ∈ names, par c = x ∧ Under par names c n y := by
  induction n generalizing y with
  | zero =>
    cases h with
    | down hy h => cases h; exact ⟨y, hy, rfl, .here⟩
  | succ n ih =>
    cases h with
    | down hy h =>
      obtain ⟨c, hc, e, k⟩ := ih h
      exact ⟨c, hc, e, .down hy k⟩

/-- A root: a link without parent, while no link has the empty name. -/
structure RootOf (par : Str → Str) (names : List Str) (r : Str) : Prop where
  mem : r ∈ names
  top : par r = []
  nonempty : [] ∉ names

theorem RootOf.unique (hr : RootOf par names r) (h : Under par names r n y)
    (h' : Under par names r m y) : n = m := by
  have key : ∀ m, ¬ Under par names r m [] := by
    intro m h
    cases h with
    | here => exact hr.nonempty hr.mem
    | down hy _ => exact hr.nonempty hy
  induction h generalizing m with
  | here =>
    cases h' with
    | here => rfl
    | down hy h' => rw [hr.top] at h'; exact absurd h' (key _)
  | down hy h ih =>
    cases h' with
    | here => rw [hr.top] at h; exact absurd h (key _)
    | down hy h' => rw [ih h']

theorem RootOf.lt (hr : RootOf par names r) (h : Under par names r n y) : n < names.length := by
  have : ∃ L : List Str, L.Nodup ∧ L.length = n + 1 ∧ L ⊆ names ∧
      ∀ z ∈ L, ∃ m ≤ n, Under par names r m z := by
    induction h with
    | here => exact ⟨[r], by simp, rfl, by simpa using hr.mem, by
        intro z hz; rw [List.mem_singleton] at hz; subst hz; exact ⟨0, le_rfl, .here⟩⟩
    | @down n y hy h ih =>
      obtain ⟨L, h1, h2, h3, h4⟩ := ih
      refine ⟨y :: L, List.nodup_cons.2 ⟨fun hc => ?_, h1⟩, by simp [h2], ?_, ?_⟩
      · obtain ⟨m, hm, k⟩ := h4 y hc
        have := hr.unique (.down hy h) k
        omega
      · intro z hz
        rcases List.mem_cons.1 hz with rfl | hz
        · exact hy
        · exact h3 hz
      · intro z hz
        rcases List.mem_cons.1 hz with rfl | hz
        · exact ⟨_, le_rfl, .down hy h⟩
        · obtain ⟨m, hm, k⟩ := h4 z hz
          exact ⟨m, by omega, k⟩
  obtain ⟨L, h1, h2, h3, -⟩ := this
  have := (h1.subperm h3).length_le
  omega

/-- Preorder of the links below `x`, to a given depth. -/
def preorder (par : Str → Str) (names : List Str) : ℕ → Str → List Str
  | 0, _ => []
  | f + 1, x => x :: (names.filter fun y => par y = x).flatMap (preorder par names f)

theorem foldl_bind_append {α β : Type*} (g : α → List β → Out (List β)) (h : α → List β) :
    ∀ (l : List α) (acc : List β), (∀ y ∈ l, ∀ out, g y out = .ok (out ++ h y)) →
      l.foldl (fun (a : Out (List β)) y => a.bind (g y)) (.ok acc) = .ok (acc ++ l.flatMap h) := by
  intro l
  induction l with
  | nil => intro acc _; simp
  | cons y l ih =>
    intro acc hy
    rw [List.foldl_cons]
    show l.foldl _ (g y acc) = _
    rw [hy y (by simp), ih _ fun z hz => hy z (List.mem_cons_of_mem _ hz)]
    simp

theorem dfs_eq {U : UMap} (hr : RootOf U.parent names r) (f : ℕ) :
    ∀ {x : Str} {n : ℕ} (out : List Str), Under U.parent names r n x → names.length ≤ n + f →
      dfs U names f x out = .ok (out ++ preorder U.parent names f x) := by
  induction f with
  | zero => intro x n out h hn; have := hr.lt h; omega
  | succ f ih =>
    intro x n out h hn
    rw [dfs, foldl_bind_append _ (preorder U.parent names f)]
    · simp [preorder]
    · intro y hy out
      have hy := List.mem_filter.1 hy
      have he : U.parent y = x := by simpa using hy.2
      exact ih out (.down hy.1 (by rw [he]; exact h)) (by omega)

theorem preorder_under {f : ℕ} (h : y ∈ preorder par names f x) :
    ∃ k < f, Under par names x k y := by
  induction f generalizing x with
  | zero => simp [preorder] at h
  | succ f ih =>
    rw [preorder, List.mem_cons, List.mem_flatMap] at h
    rcases h with rfl | ⟨c, hc, hy⟩
    · exact ⟨0, by omega, .here⟩
    · have hc := List.mem_filter.1 hc
      have he : par c = x := by simpa using hc.2
      obtain ⟨k, hk, u⟩ := ih hy
      have u1 : Under par names x 1 c := .down hc.1 (by rw [he]; exact .here)
      exact ⟨1 + k, by omega, u1.trans u⟩

theorem Under.mem_preorder {f : ℕ} (h : Under par names x n y) (hf : n < f) :
    y ∈ preorder par names f x := by
  induction f generalizing x n with
  | zero => omega
  | succ f ih =>
    rw [preorder, List.mem_cons, List.mem_flatMap]
    cases n with
    | zero => cases h; exact .inl rfl
    | succ n =>
      obtain ⟨c, hc, e, k⟩ := h.split
      exact .inr ⟨c, List.mem_filter.2 ⟨hc, by simpa using e⟩, ih k (by omega)⟩

theorem preorder_nodup (hr : RootOf par names r) (hn : names.Nodup) (f : ℕ)
    (h : Under par names r n x) : (preorder par names f x).Nodup := by
  induction f generalizing x n with
  | zero => simp [preorder]
  | succ f ih =>
    rw [preorder, List.nodup_cons]
    have hc : ∀ c ∈ names.filter (fun y => par y = x), Under par names r (n + 1) c := by
      intro c hc
      have hc := List.mem_filter.1 hc
      have he : par c = x := by simpa using hc.2
      exact .down hc.1 (by rw [he]; exact h)
    refine ⟨fun hx => ?_, ?_⟩
    · rw [List.mem_flatMap] at hx
      obtain ⟨c, h1, h2⟩ := hx
      obtain ⟨k, -, u⟩ := preorder_under h2
      have := hr.unique h ((hc c h1).trans u)
      omega
    · rw [List.nodup_flatMap]
      refine ⟨fun c h1 => ih (hc c h1), ?_⟩
      refine (hn.filter _).pairwise_of_forall_ne ?_
      intro c h1 c' h2 hne y hy hy'
      obtain ⟨k, -, u⟩ := preorder_under hy
      obtain ⟨k', -, u'⟩ := preorder_under hy'
      have := hr.unique ((hc c h1).trans u) ((hc c' h2).trans u')
      have e : k = k' := by omega
      subst e
      exact hne (u.eq_iterate.trans u'.eq_iterate.symm)

theorem preorder_topo (f : ℕ) : ∀ {x : Str} {s : List Str}, par x ∈ s →
    TopoFrom par s (preorder par names f x) := by
  induction f with
  | zero => intro x s _; trivial
  | succ f ih =>
    intro x s hs
    refine ⟨hs, ?_⟩
    have : ∀ l : List Str, (∀ c ∈ l, par c = x) → ∀ s : List Str, x ∈ s →
        TopoFrom par s (l.flatMap (preorder par names f)) := by
      intro l
      induction l with
      | nil => intro _ s _; trivial
      | cons c l ihl =>
        intro hc s hx
        rw [List.flatMap_cons, topoFrom_append]
        exact ⟨ih (by rw [hc c (by simp)]; exact hx), ihl (fun c h => hc c (List.mem_cons_of_mem _ h))
          _ (List.mem_append_left _ hx)⟩
    refine this _ (fun c hc => ?_) _ (by simp)
    simpa using (List.mem_filter.1 hc).2

/-- What sorting does when no link has an empty name: the links below the first root, each once,
parents first. -/
theorem sortLinks_ok {U : UMap} (hn : names.Nodup) (he : [] ∉ names)
    (hf : names.find? (fun y => U.parent y = []) = some r) :
    ∃ rest, sortLinks U names = .ok (r :: rest) ∧ (r :: rest).Nodup ∧
      TopoFrom U.parent [r] rest ∧ ∀ y, y ∈ r :: rest ↔ ∃ n, Under U.parent names r n y := by
  have hr : RootOf U.parent names r := ⟨List.mem_of_find?_eq_some hf, by
    simpa using List.find?_some hf, he⟩
  have hpos : 0 < names.length := List.length_pos_of_mem hr.mem
  obtain ⟨f, hf'⟩ : ∃ f, names.length = f + 1 := ⟨names.length - 1, by omega⟩
  refine ⟨(names.filter fun y => U.parent y = r).flatMap (preorder U.parent names f), ?_, ?_, ?_, ?_⟩
  · unfold sortLinks
    rw [hf]
    dsimp only
    rw [dfs_eq hr _ [] .here (by omega), hf', List.nil_append]
    rfl
  · have := preorder_nodup hr hn (f + 1) (.here (x := r))
    exact this
  · have h1 : TopoFrom U.parent [[]] (preorder U.parent names (f + 1) r) :=
      preorder_topo _ (by rw [hr.top]; simp)
    have : ∀ l : List Str, (∀ c ∈ l, U.parent c = r) → ∀ s : List Str, r ∈ s →
        TopoFrom U.parent s (l.flatMap (preorder U.parent names f)) := by
      intro l
      induction l with
      | nil => intro _ s _; trivial
      | cons c l ihl =>
        intro hc s hx
        rw [List.flatMap_cons, topoFrom_append]
        exact ⟨preorder_topo _ (by rw [hc c (by simp)]; exact hx),
          ihl (fun c h => hc c (List.mem_cons_of_mem _ h)) _ (List.mem_append_left _ hx)⟩
    refine this _ (fun c hc => ?_) _ (by simp)
    simpa using (List.mem_filter.1 hc).2
  · intro y
    show y ∈ preorder U.parent names (f + 1) r ↔ _
    constructor
    · intro h
      obtain ⟨k, -, u⟩ := preorder_under h
      exact ⟨k, u⟩
    · rintro ⟨n, u⟩
      exact u.mem_preorder (by have := hr.lt u; omega)

/-- With a link of empty name at the root the recursion never ends. -/
theorem dfs_empty_name {U : UMap} (hm : [] ∈ names) (ht : U.parent [] = []) (f : ℕ) (out : List Str) :
    dfs U names f [] out = .ub := by
  have key : ∀ (l : List Str) (g : Str → List Str → Out (List Str)),
      l.foldl (fun (a : Out (List Str)) y => a.bind (g y)) .ub = .ub := by
    intro l g
    induction l with
    | nil => rfl
    | cons y l ih => rw [List.foldl_cons]; exact ih
  induction f generalizing out with
  | zero => rfl
  | succ f ih =>
    rw [dfs]
    have : ([] : Str) ∈ names.filter fun y => U.parent y = [] :=
      List.mem_filter.2 ⟨hm, by simpa using ht⟩
    obtain ⟨l1, l2, e⟩ := List.append_of_mem this
    rw [e, List.foldl_append, List.foldl_cons]
    have h1 : ∀ (l : List Str) (o : List Str),
        (∃ o', l.foldl (fun (a : Out (List Str)) y => a.bind (dfs U names f y)) (.ok o) = .ok o') ∨
        l.foldl (fun (a : Out (List Str)) y => a.bind (dfs U names f y)) (.ok o) = .throws ∨
        l.foldl (fun (a : Out (List Str)) y => a.bind (dfs U names f y)) (.ok o) = .ub := by
      intro l o
      rcases l.foldl (fun (a : Out (List Str)) y => a.bind (dfs U names f y)) (.ok o) with o' | _ | _
      · exact .inl ⟨o', rfl⟩
      · exact .inr (.inl rfl)
      · exact .inr (.inr rfl)
    have hth : ∀ (f : ℕ) (x : Str) (o : List Str), dfs U names f x o ≠ .throws := by
      intro f
      induction f with
      | zero => intro x o h; cases h
      | succ f ih =>
        intro x o
        rw [dfs]
        generalize (o ++ [x]) = o'
        generalize (names.filter fun y => U.parent y = x) = l
        induction l generalizing o' with
        | nil => intro h; cases h
        | cons y l ihl =>
          rw [List.foldl_cons]
          show l.foldl _ (dfs U names f y o') ≠ _
          rcases hd : dfs U names f y o' with o2 | _ | _
          · exact ihl o2
          · exact absurd hd (ih y o')
          · rw [key]; intro h; cases h
    have hth' : ∀ (l : List Str) (o : List Str),
        l.foldl (fun (a : Out (List Str)) y => a.bind (dfs U names f y)) (.ok o) ≠ .throws := by
      intro l
      induction l with
      | nil => intro o h; cases h
      | cons y l ihl =>
        intro o
        rw [List.foldl_cons]
        show l.foldl _ (dfs U names f y o) ≠ _
        rcases hd : dfs U names f y o with o2 | _ | _
        · exact ihl o2
        · exact absurd hd (hth f y o)
        · rw [key]; intro h; cases h
    rcases h1 l1 (out ++ [[]]) with ⟨o', h⟩ | h | h
    · rw [h]
      show l2.foldl _ (dfs U names f [] o') = _
      rw [ih]
      exact key _ _
    · exact absurd h (hth' _ _)
    · rw [h]
      exact key _ _

end SpatialDyn
