import Verif.Spec.Redisgl

/-! Keys of `Model/Redisgl` do not collide in namespaces without colon. -/

namespace SpatialDyn.Redisgl
open SpatialDyn

theorem split_colon : ∀ {a b r s : Str}, ':' ∉ a → ':' ∉ b → a ++ ':' :: r = b ++ ':' :: s →
    a = b ∧ r = s
  | [], [], _, _, _, _, h => by simpa using h
  | [], c :: b, _, _, _, hb, h => by
    simp only [List.nil_append, List.cons_append, List.cons.injEq] at h
    exact absurd (h.1 ▸ List.mem_cons_self ..) hb
  | c :: a, [], _, _, ha, _, h => by
    simp only [List.nil_append, List.cons_append, List.cons.injEq] at h
    exact absurd (h.1 ▸ List.mem_cons_self ..) ha
  | c :: a, e :: b, r, s, ha, hb, h => by
    simp only [List.cons_append, List.cons.injEq] at h
    have := split_colon (fun x => ha (List.mem_cons_of_mem _ x)) (fun x => hb (List.mem_cons_of_mem _ x)) h.2
    exact ⟨by rw [h.1, this.1], this.2⟩

def web : Str := ['w', 'e', 'b', 'a', 'p', 'p']

theorem web_plain : ':' ∉ web := by decide

/-- The keys, cut at the first colon. -/
theorem keyRobot_eq (ns x : Str) : ns ++ "::model::robot::".toList ++ x =
    ns ++ ':' :: ([':', 'm', 'o', 'd', 'e', 'l', ':', ':', 'r', 'o', 'b', 'o', 't', ':', ':'] ++ x) := by
  rw [List.append_assoc]; rfl

theorem keyObject_eq (ns x : Str) : ns ++ "::model::object::".toList ++ x =
    ns ++ ':' :: ([':', 'm', 'o', 'd', 'e', 'l', ':', ':', 'o', 'b', 'j', 'e', 'c', 't', ':', ':'] ++ x) := by
  rw [List.append_assoc]; rfl

theorem keyArgs_eq (ns : Str) : "webapp::simulator::args::".toList ++ ns =
    web ++ ':' :: ([':', 's', 'i', 'm', 'u', 'l', 'a', 't', 'o', 'r', ':', ':', 'a', 'r', 'g', 's', ':', ':']
      ++ ns) := rfl

theorem keyResources_eq : "webapp::resources::simulator".toList =
    web ++ ':' :: [':', 'r', 'e', 's', 'o', 'u', 'r', 'c', 'e', 's', ':', ':', 's', 'i', 'm', 'u', 'l', 'a',
      't', 'o', 'r'] := rfl

theorem robot_inj {a b x y : Str} (ha : PlainName a) (hb : PlainName b)
    (h : a ++ "::model::robot::".toList ++ x = b ++ "::model::robot::".toList ++ y) : a = b ∧ x = y := by
  rw [keyRobot_eq, keyRobot_eq] at h
  have := split_colon ha hb h
  exact ⟨this.1, List.append_cancel_left this.2⟩

theorem object_inj {a b x y : Str} (ha : PlainName a) (hb : PlainName b)
    (h : a ++ "::model::object::".toList ++ x = b ++ "::model::object::".toList ++ y) : a = b ∧ x = y := by
  rw [keyObject_eq, keyObject_eq] at h
  have := split_colon ha hb h
  exact ⟨this.1, List.append_cancel_left this.2⟩

theorem args_inj {a b : Str}
    (h : "webapp::simulator::args::".toList ++ a = "webapp::simulator::args::".toList ++ b) : a = b :=
  List.append_cancel_left h

theorem robot_object {a b x y : Str} (ha : PlainName a) (hb : PlainName b) :
    a ++ "::model::robot::".toList ++ x ≠ b ++ "::model::object::".toList ++ y := by
  intro h
  rw [keyRobot_eq, keyObject_eq] at h
  have := (split_colon ha hb h).2
  simp at this

theorem robot_args {a x b : Str} (ha : PlainName a) :
    a ++ "::model::robot::".toList ++ x ≠ "webapp::simulator::args::".toList ++ b := by
  intro h
  rw [keyRobot_eq, keyArgs_eq] at h
  have := (split_colon ha web_plain h).2
  simp at this

theorem object_args {a x b : Str} (ha : PlainName a) :
    a ++ "::model::object::".toList ++ x ≠ "webapp::simulator::args::".toList ++ b := by
  intro h
  rw [keyObject_eq, keyArgs_eq] at h
  have := (split_colon ha web_plain h).2
  simp at this

theorem robot_res {a x : Str} (ha : PlainName a) :
    a ++ "::model::robot::".toList ++ x ≠ "webapp::resources::simulator".toList := by
  intro h
  rw [keyRobot_eq, keyResources_eq] at h
  have := (split_colon ha web_plain h).2
  simp at this

theorem object_res {a x : Str} (ha : PlainName a) :
    a ++ "::model::object::".toList ++ x ≠ "webapp::resources::simulator".toList := by
  intro h
  rw [keyObject_eq, keyResources_eq] at h
  have := (split_colon ha web_plain h).2
  simp at this

theorem args_res {a : Str} :
    "webapp::simulator::args::".toList ++ a ≠ "webapp::resources::simulator".toList := by
  intro h
  rw [keyArgs_eq, keyResources_eq] at h
  have := (split_colon web_plain web_plain h).2
  simp at this

theorem keyArgs_def (ns : Str) : keyArgs ns = "webapp::simulator::args::".toList ++ ns := rfl
theorem keyRobot_def (ns x : Str) : keyRobot ns x = ns ++ "::model::robot::".toList ++ x := rfl
theorem keyObject_def (ns x : Str) : keyObject ns x = ns ++ "::model::object::".toList ++ x := rfl
theorem keyResources_def : keyResources = "webapp::resources::simulator".toList := rfl

theorem put_eq (db : Db) (k : Str) (e : Entry) : db.put k e k = some e := Function.update_self ..
theorem put_ne (db : Db) {k k' : Str} (e : Entry) (h : k' ≠ k) : db.put k e k' = db k' :=
  Function.update_of_ne h ..
theorem del_eq (db : Db) (k : Str) : db.del k k = none := Function.update_self ..
theorem del_ne (db : Db) {k k' : Str} (h : k' ≠ k) : db.del k k' = db k' := Function.update_of_ne h ..

theorem sadd_none {db : Db} {k : Str} (p : Str) (h : db k = none) :
    db.sadd k p = .ok (db.put k (.set [p])) := by
  unfold Db.sadd; rw [h]

theorem sadd_set {db : Db} {k : Str} (p : Str) {l : List Str} (h : db k = some (.set l)) :
    ∃ l', db.sadd k p = .ok (db.put k (.set l')) ∧ l' ≠ [] ∧ ∀ x, x ∈ l' ↔ x ∈ l ∨ x = p := by
  classical
  refine ⟨if p ∈ l then l else p :: l, ?_, ?_, fun x => ?_⟩
  · unfold Db.sadd
    rw [h]
  · split
    · next hp => exact List.ne_nil_of_mem hp
    · simp
  · split
    · next hp => exact ⟨.inl, fun hx => hx.elim id fun e => e ▸ hp⟩
    · rw [List.mem_cons, or_comm]

theorem srem_none {db : Db} {k : Str} (p : Str) (h : db k = none) : db.srem k p = .ok db := by
  unfold Db.srem; rw [h]

theorem srem_set {db : Db} {k : Str} (p : Str) {l : List Str} (h : db k = some (.set l)) :
    ∃ l', (∀ x, x ∈ l' ↔ x ∈ l ∧ x ≠ p) ∧ ((l' = [] ∧ db.srem k p = .ok (db.del k)) ∨
      (l' ≠ [] ∧ db.srem k p = .ok (db.put k (.set l')))) := by
  classical
  refine ⟨l.filter (· ≠ p), fun x => by simp, ?_⟩
  unfold Db.srem
  rw [h]
  simp only
  by_cases hl : l.filter (· ≠ p) = []
  · refine .inl ⟨hl, ?_⟩
    rw [if_pos (by convert hl)]
  · refine .inr ⟨hl, ?_⟩
    rw [if_neg (by convert hl)]

theorem exec_ok {C : Codec} {db db' : Db} {c : Call} (h : c.step C db = .ok db') : c.exec C db = db' := by
  unfold Call.exec; rw [h]

theorem picture_writable (g : Picture) : (∃ d, g.toDict = .ok d) ↔ 4 ≤ g.T.quat.length := by
  unfold Picture.toDict Pose.toDict
  rcases g.T.quat with _ | ⟨x, _ | ⟨y, _ | ⟨z, _ | ⟨w, l⟩⟩⟩⟩ <;> simp [Out.bind]

theorem picture_out (g : Picture) : (∃ d, g.toDict = .ok d) ∨ g.toDict = .throws := by
  unfold Picture.toDict Pose.toDict
  rcases g.T.quat with _ | ⟨x, _ | ⟨y, _ | ⟨z, _ | ⟨w, l⟩⟩⟩⟩ <;> simp [Out.bind]

theorem pictures_writable : ∀ l : List Picture, ((∃ d, picturesToDict l = .ok d) ↔
    ∀ g ∈ l, 4 ≤ g.T.quat.length) ∧ ((∃ d, picturesToDict l = .ok d) ∨ picturesToDict l = .throws)
  | [] => by simp [picturesToDict]
  | g :: l => by
    obtain ⟨h1, h2⟩ := pictures_writable l
    have h3 := picture_writable g
    unfold picturesToDict
    rcases picture_out g with ⟨d, h⟩ | h
    · have : 4 ≤ g.T.quat.length := h3.1 ⟨d, h⟩
      rw [h]
      rcases h2 with ⟨d', h'⟩ | h'
      · rw [h']
        simp only [Out.bind, Out.ok.injEq, exists_eq', List.mem_cons, forall_eq_or_imp, true_iff, true_or,
          and_true]
        exact ⟨this, h1.1 ⟨d', h'⟩⟩
      · have hn : ¬ ∀ g ∈ l, 4 ≤ g.T.quat.length := fun hx => by
          obtain ⟨d', e⟩ := h1.2 hx
          rw [h'] at e
          cases e
        rw [h']
        simp only [Out.bind, reduceCtorEq, exists_false, List.mem_cons, forall_eq_or_imp, false_iff,
          or_true, and_true]
        exact fun hx => hn hx.2
    · have hn : ¬ 4 ≤ g.T.quat.length := fun hx => by
        obtain ⟨d', e⟩ := h3.2 hx
        rw [h] at e
        cases e
      rw [h]
      simp only [Out.bind, reduceCtorEq, exists_false, List.mem_cons, forall_eq_or_imp, false_iff,
        or_true, and_true]
      exact fun hx => hn hx.1

theorem obj_toDict (o : Obj) : (o.Writable ∧ ∃ d, o.toDict = .ok d) ∨ (¬ o.Writable ∧ o.toDict = .throws) := by
  obtain ⟨h1, h2⟩ := pictures_writable o.graphics
  unfold Obj.toDict Obj.Writable
  rw [← h1]
  rcases h2 with ⟨d, h⟩ | h <;> simp [h, Out.bind]

end SpatialDyn.Redisgl
