import Verif.Props.Tree

/-! # Properties C12, C13: link indices and loads -/

namespace SpatialDyn
open Body

/-! ## C12 -/

/-- The link index a query is asked about. -/
def Query.link : Query → Option ℤ
  | .rigidBody i | .q i | .dq i | .ancestors i | .subtree i | .tToParent i | .tToWorld i
  | .tFromParent i | .tFromWorld i | .position i _ | .positionQ _ i _ | .orientation i
  | .orientationQ _ i | .cartesianPose i _ | .jacobian i _ | .jacobianQ _ i _
  | .linearJacobian i _ | .angularJacobian i | .hessian i _ | .compositeInertia i
  | .opsCoriolis _ i _ | .opsInertiaInverseAba i _ | .opsInertiaAba i _ _ | .opsCoriolisAba i _ _
  | .opsGravityAba i _ _ _ => some i
  | _ => none

/-- The same query about another link. -/
def Query.withLink (j : ℤ) : Query → Query
  | .rigidBody _ => .rigidBody j
  | .q _ => .q j
  | .dq _ => .dq j
  | .ancestors _ => .ancestors j
  | .subtree _ => .subtree j
  | .tToParent _ => .tToParent j
  | .tToWorld _ => .tToWorld j
  | .tFromParent _ => .tFromParent j
  | .tFromWorld _ => .tFromWorld j
  | .position _ x => .position j x
  | .positionQ u _ x => .positionQ u j x
  | .orientation _ => .orientation j
  | .orientationQ u _ => .orientationQ u j
  | .cartesianPose _ x => .cartesianPose j x
  | .jacobian _ x => .jacobian j x
  | .jacobianQ u _ x => .jacobianQ u j x
  | .linearJacobian _ x => .linearJacobian j x
  | .angularJacobian _ => .angularJacobian j
  | .hessian _ x => .hessian j x
  | .compositeInertia _ => .compositeInertia j
  | .opsCoriolis J _ e => .opsCoriolis J j e
  | .opsInertiaInverseAba _ x => .opsInertiaInverseAba j x
  | .opsInertiaAba _ x e => .opsInertiaAba j x e
  | .opsCoriolisAba _ x e => .opsCoriolisAba j x e
  | .opsGravityAba _ x f e => .opsGravityAba j x f e
  | x => x

theorem index_neg {b : Body} {i : ℤ} (h1 : -b.dof ≤ i) (h2 : i < 0) :
    b.index i = b.index (i + b.dof) := by
  have : b.resolve i = b.resolve (i + b.dof) := by
    unfold resolve
    rw [if_pos h2, if_neg (by omega)]
  unfold index
  rw [this]

theorem climbStart_neg {b : Body} {i : ℤ} (h1 : -b.dof ≤ i) (h2 : i < 0) :
    b.climbStart i = b.climbStart (i + b.dof) := by
  have : b.resolve i = b.resolve (i + b.dof) := by
    unfold resolve
    rw [if_pos h2, if_neg (by omega)]
  unfold climbStart
  rw [this, index_neg h1 h2]

theorem index_out {b : Body} {i : ℤ} (h : i < -b.dof ∨ b.dof ≤ i) : b.index i = .ub := by
  unfold index resolve
  simp only
  rw [if_neg]
  split <;> omega

theorem opsCoriolis_congr {E : Ext} {b : Body} {J : DMat} {i j : ℤ} {e : ℝ}
    (h : ∀ b' : Body, b.Same b' → b'.index i = b'.index j) :
    b.opsCoriolis E J i e = b.opsCoriolis E J j e := by
  unfold opsCoriolis
  split
  · rfl
  · cases h1 : b.opsJbar E J e with
    | throws => rfl
    | ub => rfl
    | ok r =>
      simp only [Out.bind]
      cases h2 : r.2.centrifugalCoriolis.2.opsInertia E J 0 with
      | throws => rfl
      | ub => rfl
      | ok l =>
        simp only
        rw [h l.2 (((opsJbar_same h1).trans centrifugalCoriolis_same).trans (opsInertia_same h2))]

/-- C12: in every state, a link index between `-dof` and `-1` means the link counted from the end, for
every query that takes a link. -/
theorem C12_negative_index (E : Ext) (b : Body) (x : Query) (i : ℤ) (hx : x.link = some i)
    (h1 : -b.dof ≤ i) (h2 : i < 0) : x.run E b = (x.withLink (i + b.dof)).run E b := by
  have hi := index_neg h1 h2
  have hix : ∀ b' : Body, b.Same b' → b'.index i = b'.index (i + b.dof) := by
    intro b' hs
    have hd := hs.dof
    rw [← hd]
    exact index_neg (by rw [hd]; exact h1) h2
  cases x <;> simp only [Query.link, Option.some.injEq, reduceCtorEq] at hx <;> subst hx <;>
    simp only [Query.run, Query.withLink, rigidBody, qAt, dqAt, ancestors, subtree, tToParent,
      tToWorld, tFromParent, tFromWorld, position, positionQ, orientation, orientationQ,
      cartesianPose, jacobian, jacobianQ, linearJacobian, angularJacobian, hessian,
      compositeInertia, opsInertiaInverseAba, opsInertiaAba, opsCoriolisAba, opsGravityAba, hi,
      climbStart_neg h1 h2]
  rw [opsCoriolis_congr hix]

/-- The overloads of `Position` and `Orientation` that take `q`. -/
def Query.Climbs : Query → Prop
  | .positionQ .. => True
  | .orientationQ .. => True
  | _ => False

/-- C12: outside `[-dof, dof)` every such query is an out-of-bounds access: undefined behaviour, except
that `opspace::CentrifugalCoriolis` may throw or go wrong on its other arguments first, and that the
index `-dof - 1` means the base for `Position` and `Orientation` with `q` (see `C12_base_index`). -/
theorem C12_out_of_range (E : Ext) (b : Body) (x : Query) (i : ℤ) (hx : x.link = some i)
    (h : i < -b.dof ∨ b.dof ≤ i) (hb : x.Climbs → i ≠ -b.dof - 1) :
    (x.run E b = .ub ∨ ∃ J e, x = .opsCoriolis J i e) ∧ ∀ r, x.run E b ≠ .ok r := by
  have hi := index_out h
  have hc : ∀ J e, ∀ r, (Query.opsCoriolis J i e).run E b ≠ .ok r := by
    intro J e r hr
    obtain ⟨a, ha, -⟩ := Out.map_ok hr
    unfold opsCoriolis at ha
    split at ha
    · cases ha
    · obtain ⟨s, hs, ha⟩ := Out.bind_ok ha
      obtain ⟨t, ht, ha⟩ := Out.bind_ok ha
      have hd := (((opsJbar_same hs).trans centrifugalCoriolis_same).trans (opsInertia_same ht)).dof
      rw [index_out (by rw [hd]; exact h)] at ha
      cases ha
  have hub : x.run E b = .ub ∨ ∃ J e, x = .opsCoriolis J i e := by
    have hcs : i ≠ -b.dof - 1 → b.climbStart i = .ub := by
      intro hne
      unfold climbStart
      rw [if_neg, hi]
      · rfl
      · unfold resolve; split <;> omega
    cases x <;> simp only [Query.link, Option.some.injEq, reduceCtorEq] at hx <;> subst hx <;>
      first
      | exact .inr ⟨_, _, rfl⟩
      | (left
         simp only [Query.run, positionQ, orientationQ, hcs (hb trivial), Out.map, Out.bind]
         done)
      | (left
         simp only [Query.run, rigidBody, qAt, dqAt, ancestors, subtree, tToParent,
          tToWorld, tFromParent, tFromWorld, position, positionQ, orientation, orientationQ,
          cartesianPose, jacobian, jacobianQ, linearJacobian, angularJacobian, hessian,
          compositeInertia, opsInertiaInverseAba, opsInertiaAba, opsCoriolisAba, opsGravityAba, hi,
          Out.map, Out.bind])
  refine ⟨hub, fun r hr => ?_⟩
  rcases hub with h | ⟨J, e, rfl⟩
  · rw [h] at hr; cases hr
  · exact hc J e r hr

/-- C12: one step below `-dof`, `Position(q, …)` and `Orientation(q, …)` answer for the base. -/
theorem C12_base_index (b : Body) (u : ℕ → ℝ) (x : Vec3) :
    b.positionQ u (-b.dof - 1) x = .ok (b.T0.app x) ∧
      b.orientationQ u (-b.dof - 1) = .ok (b.T0.R * 1) := by
  have h : b.climbStart (-b.dof - 1) = .ok none := by
    unfold climbStart
    rw [if_pos]
    unfold resolve; split <;> omega
  have hc : ∀ {α : Type} (f : Iso → α → α) (n : ℕ) (y : α), b.climb u f n none y = y := by
    intro α f n y; cases n <;> rfl
  unfold positionQ orientationQ
  rw [h]
  simp only [Out.bind, hc, and_self]

/-- C12 for the load calls: negative indices are resolved the same way, and unlike the queries they
accept any index. -/
theorem C12_load_index (b : Body) (I : Inertia) (i : ℤ) (h1 : -b.dof ≤ i) (h2 : i < 0) :
    b.addLoad I i = b.addLoad I (i + b.dof) ∧ b.replaceLoad I i = b.replaceLoad I (i + b.dof) ∧
      b.clearLoad i = b.clearLoad (i + b.dof) := by
  have : b.resolve i = b.resolve (i + b.dof) := by
    unfold resolve
    rw [if_pos h2, if_neg (by omega)]
  unfold addLoad replaceLoad clearLoad
  simp only [this, and_self]

/-- Witness for C12: index -1 of the witness body is its last link, and index 3 is out of bounds. -/
example : demo.ancestors (-1) = .ok [0, 2] ∧ demo.ancestors 3 = .ub := ⟨rfl, rfl⟩

/-! ## C13 -/

/-- A load call, as seen by one link. -/
inductive LoadEv where
  | add (I : Inertia)
  | replace (I : Inertia)
  | clear

/-- The load events of link `k` along a history; negative indices are resolved with the `dof` at the
time of the call. -/
noncomputable def loadEvents (E : Ext) (k : ℤ) : Body → List Op → List LoadEv
  | _, [] => []
  | b, op :: h =>
    (match op with
      | .addLoad I i => if (if i < 0 then i + b.dof else i) = k then [.add I] else []
      | .replaceLoad I i => if (if i < 0 then i + b.dof else i) = k then [.replace I] else []
      | .clearLoad i => if (if i < 0 then i + b.dof else i) = k then [.clear] else []
      | _ => []) ++
    (match op.exec E b with
      | some b' => loadEvents E k b' h
      | none => [])

/-- The inertias put on the link since it was last replaced (that one included) or cleared, most
recent first, given the events most recent first. -/
def recentRev : List LoadEv → List Inertia
  | [] => []
  | .add I :: l => I :: recentRev l
  | .replace I :: _ => [I]
  | .clear :: _ => []

/-- The same, oldest first. -/
def recent (l : List LoadEv) : List Inertia := (recentRev l.reverse).reverse

/-- Merge a list of inertias from the left; nothing for the empty list. -/
noncomputable def mergeAll : List Inertia → Option Inertia
  | [] => none
  | I :: l => some (l.foldl Inertia.add I)

theorem recent_append_add (l : List LoadEv) (I : Inertia) :
    recent (l ++ [.add I]) = recent l ++ [I] := by
  simp [recent, recentRev]

theorem recent_append_replace (l : List LoadEv) (I : Inertia) :
    recent (l ++ [.replace I]) = [I] := by simp [recent, recentRev]

theorem recent_append_clear (l : List LoadEv) : recent (l ++ [.clear]) = [] := by
  simp [recent, recentRev]

theorem mergeAll_append (l : List Inertia) (I : Inertia) :
    mergeAll (l ++ [I]) = some (match mergeAll l with | none => I | some L => L.add I) := by
  cases l with
  | nil => rfl
  | cons a l => simp [mergeAll, List.foldl_append]

theorem loadEvents_append (E : Ext) (k : ℤ) (h1 h2 : List Op) (b b1 : Body)
    (hs : execAll E b h1 = some b1) :
    loadEvents E k b (h1 ++ h2) = loadEvents E k b h1 ++ loadEvents E k b1 h2 := by
  induction h1 generalizing b with
  | nil => cases hs; rfl
  | cons op l ih =>
    unfold execAll at hs
    obtain ⟨b2, h3, h4⟩ := Option.bind_eq_some_iff.1 hs
    simp only [List.cons_append, loadEvents, h3, ih b2 h4, List.append_assoc]

/-- Calls other than the load calls leave the loads alone. -/
theorem Op.step_load {E : Ext} {b b' : Body} {op : Op} (h : b.Tree) (hs : op.step E b = .ok b') :
    b'.load = match op with
      | .addLoad I i => (b.addLoad I i).load
      | .replaceLoad I i => (b.replaceLoad I i).load
      | .clearLoad i => (b.clearLoad i).load
      | _ => b.load := by
  cases op with
  | addRigidBody rb p =>
    obtain ⟨⟨id, b1⟩, h1, rfl⟩ := Out.map_ok hs
    obtain ⟨-, -, -, rfl⟩ := addRigidBody_ok h1
    rfl
  | setQ q => exact (setQ_stateOnly h.lq hs).load
  | setDq dq => exact (setDq_stateOnly h.ldq hs).load
  | setG g => cases hs; rfl
  | addLoad I i => cases hs; rfl
  | replaceLoad I i => cases hs; rfl
  | clearLoad i => cases hs; rfl
  | setBase T => cases hs; rfl
  | setInertiaBase I =>
    change b.setInertiaBase I = .ok b' at hs
    unfold Body.setInertiaBase at hs
    split at hs
    · cases hs
    · cases hs; rfl
  | query x =>
    obtain ⟨r, hr, rfl⟩ := Out.map_ok hs
    exact (x.run_same hr).stateOnly.load
  | integrate t dt f o => exact (integrate_stateOnly h hs).load
  | discreteIntegrate t dt f o => exact (discreteIntegrate_stateOnly h hs).load

/-- C13: after any history of calls the load on link `k` is the merge of the inertias added to that
link since it was last replaced (starting with the replacement) or cleared, in that order; it is
absent when there are none. -/
theorem C13_load_map (E : Ext) (c : Cache) (h : List Op) (b : Body) (k : ℤ)
    (hs : execAll E (Body.init c) h = some b) :
    b.load k = mergeAll (recent (loadEvents E k (Body.init c) h)) := by
  induction h using List.reverseRecOn generalizing b with
  | nil => cases hs; rfl
  | append_singleton l op ih =>
    rw [exec_append] at hs
    obtain ⟨b1, h1, h2⟩ := Option.bind_eq_some_iff.1 hs
    have ih1 := ih b1 h1
    have ht := execAll_tree l (tree_init c) h1
    rw [loadEvents_append E k l [op] _ b1 h1]
    simp only [execAll] at h2
    have h3 : op.exec E b1 = some b := by
      cases he : op.exec E b1 with
      | none => rw [he] at h2; cases h2
      | some x => rw [he] at h2; exact h2
    have hz : ∀ b' : Body, loadEvents E k b' [] = [] := fun _ => rfl
    simp only [loadEvents, h3, List.append_nil]
    rcases Out.exec_cases h3 with h4 | ⟨h4, rfl⟩
    · rw [Op.step_load ht h4]
      cases op with
      | addLoad I i =>
        have hb : b1.resolve i = if i < 0 then i + b1.dof else i := rfl
        simp only [addLoad, ← hb]
        by_cases hk : b1.resolve i = k
        · subst hk
          rw [if_pos rfl, Function.update_self, recent_append_add, mergeAll_append, ih1]
          cases mergeAll (recent (loadEvents E (b1.resolve i) (Body.init c) l)) <;> rfl
        · rw [if_neg hk, List.append_nil, Function.update_of_ne (Ne.symm hk), ih1]
      | replaceLoad I i =>
        have hb : b1.resolve i = if i < 0 then i + b1.dof else i := rfl
        simp only [replaceLoad, ← hb]
        by_cases hk : b1.resolve i = k
        · subst hk
          rw [if_pos rfl, Function.update_self, recent_append_replace]; rfl
        · rw [if_neg hk, List.append_nil, Function.update_of_ne (Ne.symm hk), ih1]
      | clearLoad i =>
        have hb : b1.resolve i = if i < 0 then i + b1.dof else i := rfl
        simp only [clearLoad, ← hb]
        by_cases hk : b1.resolve i = k
        · subst hk
          rw [if_pos rfl, Function.update_self, recent_append_clear]; rfl
        · rw [if_neg hk, List.append_nil, Function.update_of_ne (Ne.symm hk), ih1]
      | _ => simpa using ih1
    · cases op with
      | addLoad I i => cases h4
      | replaceLoad I i => cases h4
      | clearLoad i => cases h4
      | _ => simpa using ih1

/-- C13: the merged load acts as the sum of its parts, whatever their number, when their masses are
positive. -/
theorem C13_load_action (I : Inertia) (l : List Inertia) (hI : 0 < I.mass)
    (hl : ∀ L ∈ l, 0 < L.mass) (m : Motion) : ∃ M, mergeAll (I :: l) = some M ∧
      M.app m = I.app m + (l.map fun L => L.app m).sum ∧ M.mass = I.mass + (l.map Inertia.mass).sum := by
  refine ⟨_, rfl, ?_⟩
  induction l generalizing I with
  | nil => simp
  | cons L l ih =>
    have hL := hl L (List.mem_cons_self ..)
    have hs : 0 < (I.add L).mass := by
      have : (I.add L).mass = I.mass + L.mass := rfl
      rw [this]; linarith
    obtain ⟨h1, h2⟩ := ih (I.add L) hs fun K hK => hl K (List.mem_cons_of_mem _ hK)
    rw [List.foldl_cons, h1, h2, Inertia.add_app I L (by show I.mass + L.mass ≠ 0; linarith)]
    refine ⟨?_, ?_⟩
    · simp [add_assoc]
    · have : (I.add L).mass = I.mass + L.mass := rfl
      rw [this]; simp [add_assoc]

/-- C13: load calls on one link do not touch the others, and clearing an absent load changes no
load. -/
theorem C13_other_links (b : Body) (I : Inertia) (i j : ℤ) (h : b.resolve i ≠ j) :
    (b.addLoad I i).load j = b.load j ∧ (b.replaceLoad I i).load j = b.load j ∧
      (b.clearLoad i).load j = b.load j ∧
      (b.load (b.resolve i) = none → (b.clearLoad i).load = b.load) := by
  refine ⟨Function.update_of_ne (Ne.symm h) _ _, Function.update_of_ne (Ne.symm h) _ _,
    Function.update_of_ne (Ne.symm h) _ _, fun hn => ?_⟩
  unfold clearLoad
  simp only
  rw [← hn, Function.update_eq_self]

/-- Witness for C13: two loads added to the last link after a clear are merged. -/
example : (((demo.addLoad unitInertia (-1)).clearLoad 2).addLoad unitInertia 2 |>.addLoad
    unitInertia (-1)).load 2 = some (unitInertia.add unitInertia) := by
  simp [addLoad, clearLoad, resolve, dof, demo]

end SpatialDyn
