import Verif.Lemmas.UrdfRead
import Verif.Props.OpsAbaWitness

/-!
# Loading a URDF file
-/

namespace SpatialDyn

variable {X : UrdfExt} {path : Str} {rob : Robot X} {r x : Str} {P : Str → Iso} {car : Str → Str}

theorem find_of_nodup {α β : Type*} [DecidableEq β] {f : α → β} : ∀ {l : List α} {a : α},
    (l.map f).Nodup → a ∈ l → l.find? (fun b => f b = f a) = some a
  | [], _, _, h => by simp at h
  | b :: l, a, hn, h => by
    rw [List.map_cons, List.nodup_cons] at hn
    by_cases e : f b = f a
    · have : a = b := by
        rcases List.mem_cons.1 h with h | h
        · exact h
        · exact absurd (e ▸ List.mem_map_of_mem h) hn.1
      subst this
      simp
    · rw [List.find?_cons_of_neg (by simpa using e)]
      exact find_of_nodup hn.2 ((List.mem_cons.1 h).resolve_left fun e' => e (by rw [e']))

namespace Robot

/-- The map after links and joints have been read. -/
noncomputable def map (rob : Robot X) (path : Str) : UMap := jointMap (linkMap path rob.links) rob.joints

theorem above_of (h : rob.Consistent) {j : URJoint X} (hj : j ∈ rob.joints) : rob.above j.child = some j :=
  find_of_nodup h.once hj

theorem mem_of_above {j : URJoint X} (h : rob.above x = some j) : j ∈ rob.joints ∧ j.child = x :=
  ⟨List.mem_of_find?_eq_some h, by simpa using List.find?_some h⟩

theorem map_link (h : rob.Consistent) {l : URLink X} (hl : l ∈ rob.links) :
    rob.map path l.name = some (match rob.above l.name with
      | none => l.read path
      | some j => j.place (l.read path)) := by
  have e : linkMap path rob.links l.name = some (l.read path) := by
    unfold linkMap
    rw [find_of_nodup h.names hl]
    rfl
  unfold map jointMap Robot.above
  rw [e]
  cases rob.joints.find? fun j => j.child = l.name <;> rfl

theorem map_none (hx : x ∉ rob.names) : rob.map path x = none := by
  have e : linkMap path rob.links x = none := by
    unfold linkMap
    rw [List.find?_eq_none.2 (fun l hl => by simpa using fun e => hx (List.mem_map.2 ⟨l, hl, e⟩))]
    rfl
  unfold map jointMap
  rw [e]
  cases rob.joints.find? fun j => j.child = x <;> rfl

theorem map_parent (h : rob.Consistent) : (rob.map path).parent = rob.parent := by
  funext x
  by_cases hx : x ∈ rob.names
  · obtain ⟨l, hl, rfl⟩ := List.mem_map.1 hx
    unfold UMap.parent Robot.parent
    rw [map_link h hl]
    cases rob.above l.name <;> rfl
  · unfold UMap.parent
    rw [map_none hx]
    unfold Robot.parent
    cases ha : rob.above x with
    | none => rfl
    | some j =>
      have := mem_of_above ha
      exact absurd (this.2 ▸ (h.ends j this.1).2) hx

theorem parent_empty (h : rob.Sound) : rob.parent x = [] ↔ (rob.above x).isNone = true := by
  unfold Robot.parent
  cases ha : rob.above x with
  | none => simp
  | some j =>
    have := (h.ends j (mem_of_above ha).1).1
    simp only [Option.map_some, Option.getD_some, Option.isNone_some, Bool.false_eq_true, iff_false]
    exact fun e => h.nonempty (e ▸ this)

theorem map_good (h : rob.Consistent) (hx : x ∈ rob.names) : GoodLink (rob.map path) x := by
  obtain ⟨l, hl, rfl⟩ := List.mem_map.1 hx
  have hI : (0 < l.inertia.mass) ∧ l.inertia.Icom.IsSymm := by
    unfold URLink.inertia
    cases hi : l.inertial with
    | none => exact ⟨one_pos, by show Mat3.T 0 = 0; rfl⟩
    | some i => exact ⟨h.masses l hl i hi, i.read_symm⟩
  refine ⟨⟨_, map_link h hl, ?_⟩, ?_, ?_, ?_⟩
  · cases rob.above l.name <;> rfl
  · unfold UMap.mount
    rw [map_link h hl]
    cases rob.above l.name with
    | none => exact Iso.valid_one
    | some j => exact originPose_valid _
  · unfold UMap.inertia
    rw [map_link h hl]
    cases rob.above l.name <;> exact hI.1
  · unfold UMap.inertia
    rw [map_link h hl]
    cases rob.above l.name <;> exact hI.2

theorem map_mount (h : rob.Consistent) {j : URJoint X} (hj : j ∈ rob.joints) :
    (rob.map path).mount j.child = originPose j.origin := by
  obtain ⟨l, hl, e⟩ := List.mem_map.1 (h.ends j hj).2
  unfold UMap.mount
  rw [← e, map_link h hl, e, above_of h hj]
  rfl

theorem map_joint (h : rob.Consistent) {j : URJoint X} (hj : j ∈ rob.joints) :
    (rob.map path).joint j.child = j.read := by
  obtain ⟨l, hl, e⟩ := List.mem_map.1 (h.ends j hj).2
  unfold UMap.joint
  rw [← e, map_link h hl, e, above_of h hj]
  rfl

theorem moveType_ne (j : URJoint X) : j.moveType ≠ .undefined := by
  unfold URJoint.moveType URJoint.axisNo
  split_ifs <;> simp [prismaticType, revoluteType]

theorem read_fixed (j : URJoint X) : j.read.type = .undefined ↔ j.kind = .fixed := by
  unfold URJoint.read
  by_cases hk : j.kind = .fixed
  · simp [hk]
  · simp [hk, moveType_ne]

theorem parent_of (h : rob.Consistent) {j : URJoint X} (hj : j ∈ rob.joints) :
    rob.parent j.child = j.parent := by
  unfold Robot.parent
  rw [above_of h hj]
  rfl

theorem below_mem (hr : r ∈ rob.names) (h : rob.Below r x) : x ∈ rob.names := by
  obtain ⟨n, hn⟩ := h
  cases hn with
  | here => exact hr
  | down h _ => exact h

theorem below_joint (h : rob.Sound) (hr : r ∈ rob.names) (hb : rob.Below r x) (hx : x ≠ r) :
    ∃ j ∈ rob.joints, j.child = x := by
  obtain ⟨n, hn⟩ := hb
  cases hn with
  | here => exact absurd rfl hx
  | down hm hu =>
    cases ha : rob.above x with
    | some j => exact ⟨j, mem_of_above ha⟩
    | none =>
      have hp : rob.parent x = [] := (parent_empty h).2 (by rw [ha]; rfl)
      rw [hp] at hu
      exact absurd (below_mem hr ⟨_, hu⟩) h.nonempty

theorem tree (h : rob.Sound) (hr : rob.Root r) (hL : rob.Layout r P car) :
    ∃ Dt, sortLinks (rob.map path) rob.names = .ok (r :: Dt) ∧ TreeOK (rob.map path) r Dt P car ∧
      ∀ y, y ∈ r :: Dt ↔ rob.Below r y := by
  have hrm : r ∈ rob.names := List.mem_of_find?_eq_some hr
  have hf : rob.names.find? (fun y => (rob.map path).parent y = []) = some r := by
    rw [← hr]
    congr 1
    funext y
    rw [map_parent h.toConsistent, Bool.eq_iff_iff, decide_eq_true_iff, parent_empty h]
  obtain ⟨Dt, h1, h2, h3, h4⟩ := sortLinks_ok h.names h.nonempty hf
  have hB : ∀ y, y ∈ r :: Dt ↔ rob.Below r y := by
    intro y; rw [h4 y, map_parent h.toConsistent]; rfl
  have hj : ∀ x ∈ r :: Dt, x ≠ r → ∃ j ∈ rob.joints, j.child = x ∧ rob.Below r j.child := by
    intro x hx hxr
    obtain ⟨j, k1, k2⟩ := below_joint h hrm ((hB x).1 hx) hxr
    exact ⟨j, k1, k2, k2 ▸ (hB x).1 hx⟩
  have hpr : rob.parent r = [] := (parent_empty h).2 (List.find?_some (p := fun x => (rob.above x).isNone) hr)
  have habove : rob.above r = none := by
    have := (parent_empty h).1 hpr
    simpa using this
  refine ⟨Dt, h1, ⟨h2, h3, ?_, ?_, ?_, ?_⟩, hB⟩
  · intro hc
    exact h.nonempty (below_mem hrm ((hB _).1 hc))
  · intro x hx
    exact map_good h.toConsistent (below_mem hrm ((hB x).1 hx))
  · rw [map_parent h.toConsistent, hpr]
  · refine ⟨?_, ?_, hL.rootCar, ?_, ?_⟩
    · rw [hL.rootPose]
      obtain ⟨l, hl, e⟩ := List.mem_map.1 hrm
      unfold UMap.mount
      rw [← e, map_link h.toConsistent hl, e, habove]
      rfl
    · intro x hx hxr
      obtain ⟨j, k1, rfl, k3⟩ := hj x hx hxr
      rw [map_parent h.toConsistent, parent_of h.toConsistent k1, map_mount h.toConsistent k1]
      exact hL.pose j k1 k3
    · intro x hx hxr ht
      obtain ⟨j, k1, rfl, k3⟩ := hj x hx hxr
      rw [map_joint h.toConsistent k1, read_fixed] at ht
      rw [map_parent h.toConsistent, parent_of h.toConsistent k1]
      exact hL.fixed j k1 k3 ht
    · intro x hx hxr ht
      obtain ⟨j, k1, rfl, k3⟩ := hj x hx hxr
      rw [map_joint h.toConsistent k1, Ne, read_fixed] at ht
      exact hL.moving j k1 k3 ht

theorem readsAs (h : rob.Sound) : rob.ReadsAs path (rob.map path).inertia (rob.map path).joint
    (rob.map path).graphics := by
  have hI : ∀ l ∈ rob.links, (rob.map path).inertia l.name = l.inertia := by
    intro l hl
    unfold UMap.inertia
    rw [map_link h.toConsistent hl]
    cases rob.above l.name <;> rfl
  have hG : ∀ l ∈ rob.links, (rob.map path).graphics l.name = l.visuals.map (UVisual.read path) := by
    intro l hl
    unfold UMap.graphics
    rw [map_link h.toConsistent hl]
    cases rob.above l.name <;> rfl
  have hsub : ∀ j : URJoint X, j.kind ≠ .fixed → ∀ u t, j.moveType = t →
      t.subspace = (if j.kind = .prismatic then ⟨u, 0⟩ else ⟨0, u⟩) → j.MovesAlong j.read u := by
    intro j hk u t e1 e2
    unfold URJoint.MovesAlong URJoint.read
    rw [if_neg hk]
    exact ⟨by rw [← e2, ← e1], rfl⟩
  have hnorm : ∀ (v : Vec3) (c : ℝ), 0 < c → v.dot v = 1 → (c • v).normalized = v := by
    intro v c hc hv
    have e : (c • v).dot (c • v) = c ^ 2 := by
      have : (c • v).dot (c • v) = c ^ 2 * v.dot v := by simp [Vec3.dot]; ring
      rw [this, hv, mul_one]
    unfold Vec3.normalized
    rw [e, if_pos (by positivity), Real.sqrt_sq hc.le, smul_smul, one_div, inv_mul_cancel₀ hc.ne', one_smul]
  refine ⟨?_, ?_, ?_, ?_, ?_, ?_, ?_, ?_, ?_⟩
  · intro l hl i hi
    rw [hI l hl, URLink.inertia, hi]; rfl
  · intro l hl i hi
    rw [hI l hl, URLink.inertia, hi]; rfl
  · intro l hl i hi
    rw [hI l hl, URLink.inertia, hi]; rfl
  · intro l hl hi
    rw [hI l hl, URLink.inertia, hi]; rfl
  · intro l hl
    rw [hG l hl]
    generalize l.visuals = vs
    induction vs with
    | nil => exact .nil
    | cons v vs ih => exact .cons ⟨rfl, rfl, rfl, rfl⟩ ih
  · intro j hj hk
    rw [map_joint h.toConsistent hj, read_fixed]
    exact hk
  · intro j hj hk
    rw [map_joint h.toConsistent hj]
    unfold URJoint.read
    rw [if_neg hk]
    exact ⟨rfl, rfl, rfl, rfl, rfl, rfl, rfl⟩
  · intro j hj hk c hc
    rw [map_joint h.toConsistent hj]
    constructor
    · intro e
      have e1 : j.axisNo = 1 := by
        unfold URJoint.axisNo
        rw [e, hnorm _ c hc (by simp [Vec3.dot]), if_pos (by norm_num)]
      by_cases hp : j.kind = .prismatic
      · exact hsub j hk _ .py (by simp [URJoint.moveType, hp, e1, prismaticType]) (by simp [hp, JType.subspace])
      · exact hsub j hk _ .ry (by simp [URJoint.moveType, hp, e1, revoluteType]) (by simp [hp, JType.subspace])
    · intro e
      have e1 : j.axisNo = 2 := by
        unfold URJoint.axisNo
        rw [e, hnorm _ c hc (by simp [Vec3.dot]), if_neg (by norm_num), if_pos (by norm_num)]
      by_cases hp : j.kind = .prismatic
      · exact hsub j hk _ .pz (by simp [URJoint.moveType, hp, e1, prismaticType]) (by simp [hp, JType.subspace])
      · exact hsub j hk _ .rz (by simp [URJoint.moveType, hp, e1, revoluteType]) (by simp [hp, JType.subspace])
  · intro j hj hk hy hz
    rw [map_joint h.toConsistent hj]
    have hle : ∀ a : ℝ, a ≤ 0 → ∀ v : Vec3, (1 / Real.sqrt (v.dot v)) * a ≤ 0 := fun a ha v =>
      mul_nonpos_of_nonneg_of_nonpos (by positivity) ha
    have e1 : j.axisNo = 0 := by
      unfold URJoint.axisNo
      rw [if_neg, if_neg]
      · unfold Vec3.normalized
        split_ifs
        · have := hle _ hz j.axisDir
          rw [not_lt]
          show (1 / Real.sqrt _) * _ ≤ _
          linarith
        · linarith
      · unfold Vec3.normalized
        split_ifs
        · have := hle _ hy j.axisDir
          rw [not_lt]
          show (1 / Real.sqrt _) * _ ≤ _
          linarith
        · linarith
    by_cases hp : j.kind = .prismatic
    · exact hsub j hk _ .px (by simp [URJoint.moveType, hp, e1, prismaticType]) (by simp [hp, JType.subspace])
    · exact hsub j hk _ .rx (by simp [URJoint.moveType, hp, e1, revoluteType]) (by simp [hp, JType.subspace])

/-- The body made from links that are ready is the one described. -/
theorem loadedAs_of {D Kt : List Str} {U : UMap} (E : Ext) (h : rob.Sound) (hrm : r ∈ rob.names)
    (hd : D.Nodup) (hD : ∀ y, y ∈ D ↔ rob.Below r y) (hK : ∀ x, x ∈ Kt ↔ (rob.Below r x ∧ x ≠ r) ∧ car x = x)
    (hr : Ready (rob.map path) r P car D Kt U) (c : Cache) :
    ∃ n, addLinks U (r :: Kt) (fun _ => none) { Named.init c with name := rob.name } = .ok n ∧
      Reach E n.body false ∧ rob.LoadedAs r P car (rob.map path).inertia (rob.map path).joint
        (rob.map path).graphics n := by
  obtain ⟨n, l, m1, m2, m3, m4, m5, m6, m7, m8, m9, m10, m11, m12, m13⟩ :=
    addLinks_ok (E := E) hr c rob.name
  have hdof : n.body.dof = Kt.length := by unfold Body.dof; rw [m5, List.length_map]
  have htag : ∀ x ∈ Kt, (linkTag U x).name = x := by
    intro x hx
    obtain ⟨l, k1, k2, -⟩ := hr.link x hx
    unfold linkTag
    rw [k1]; exact k2.name
  have hnames : n.tags.map Tag.name = Kt := by
    rw [m6, List.map_map]
    conv_rhs => rw [← List.map_id Kt]
    exact List.map_congr_left fun x hx => htag x hx
  have hperm : ∀ x, (D.filter fun y => car y = x).Perm (rob.carried r car x) := by
    intro x
    refine (List.perm_ext_iff_of_nodup (hd.filter _) (h.names.filter _)).2 fun y => ?_
    simp only [List.mem_filter, decide_eq_true_eq, hD]
    exact ⟨fun k => ⟨below_mem hrm k.1, k⟩, fun k => k.2⟩
  have hcar : ∀ x l, Carries (rob.map path) P car D x l →
      (l.rb.inertia.mass = ((rob.carried r car x).map fun y => ((rob.map path).inertia y).mass).sum) ∧
      (∀ v, l.rb.inertia.app v = ((rob.carried r car x).map fun y =>
        (((P x).inv * P y).actI ((rob.map path).inertia y)).app v).sum) ∧
      l.tag.graphics.Perm ((rob.carried r car x).flatMap fun y =>
        ((rob.map path).graphics y).map fun g => { g with T := (P x).inv * P y * g.T }) := by
    intro x l hc
    refine ⟨?_, fun v => ?_, ?_⟩
    · rw [hc.mass]; exact ((hperm x).map _).sum_eq
    · rw [hc.act v]; exact ((hperm x).map _).sum_eq
    · rw [hc.graphics]; exact (hperm x).flatMap_right _
  have hget : ∀ i (hi : i < Kt.length), n.tags.getD i {} = linkTag U (Kt[i]) ∧
      n.body.rb i = linkRB (r :: Kt) U (Kt[i]) := by
    intro i hi
    constructor
    · rw [m6, List.getD_eq_getElem?_getD, List.getElem?_map, List.getElem?_eq_getElem hi]; rfl
    · unfold Body.rb
      rw [m5, List.getD_eq_getElem?_getD, List.getElem?_map, List.getElem?_eq_getElem hi]; rfl
  have hpar : ∀ i (hi : i < Kt.length),
      (car (rob.parent (Kt[i])) = r ∧ n.body.par i = none) ∨
      ∃ j, ∃ hj : j < i, n.body.par i = some j ∧ Kt[j] = car (rob.parent (Kt[i])) := by
    intro i hi
    obtain ⟨l, k1, k2, k3, k4, k5⟩ := hr.link _ (List.getElem_mem hi)
    have hUp : U.parent (Kt[i]) = l.parent := by simp [UMap.parent, k1]
    have hsplit : Kt = Kt.take i ++ Kt[i] :: Kt.drop (i + 1) := by simp
    have htop := hr.topo
    rw [hsplit, topoFrom_append] at htop
    have hmem : l.parent ∈ r :: Kt.take i := by
      rw [k3]
      exact htop.2.1
    have hrnot : r ∉ Kt := (List.nodup_cons.1 hr.nodup).1
    rw [map_parent h.toConsistent] at k3
    have hid : (n.body.rb i).idParent = linkId (r :: Kt) l.parent := by rw [(hget i hi).2, ← hUp]; rfl
    rcases List.mem_cons.1 hmem with e | hmem
    · left
      refine ⟨by rw [← k3, e], ?_⟩
      unfold Body.par
      rw [hid, e]
      simp [linkId]
    · right
      obtain ⟨j, hj, ej⟩ := List.getElem_of_mem hmem
      rw [List.length_take] at hj
      have hj' : j < i := by omega
      rw [List.getElem_take] at ej
      refine ⟨j, hj', ?_, by rw [ej, k3]⟩
      have hne : r ≠ l.parent := fun e => hrnot (by rw [e]; exact List.mem_of_mem_take hmem)
      have hidx : (r :: Kt).idxOf l.parent = j + 1 := by
        rw [List.idxOf_cons_ne _ hne, ← ej, (List.nodup_cons.1 hr.nodup).2.idxOf_getElem]
      unfold Body.par
      rw [hid, linkId, hidx]
      have : ((j + 1 : ℕ) : ℤ) - 1 = j := by push_cast; ring
      rw [this]
      simp
  have hq : ∀ i, n.body.q.getD i 0 = 0 := by
    intro i
    rw [m8, List.getD_eq_getElem?_getD, List.getElem?_map]
    cases Kt[i]? <;> rfl
  have hpose : ∀ i (hi : i < Kt.length), n.body.freshTw i = P (Kt[i]) := by
    intro i
    induction i using Nat.strong_induction_on with
    | _ i ih =>
      intro hi
      obtain ⟨l, k1, k2, k3, k4, k5⟩ := hr.link _ (List.getElem_mem hi)
      rw [map_parent h.toConsistent] at k3
      have hTp : n.body.freshTp i = l.rb.T := by
        unfold Body.freshTp Body.TpAt
        rw [hq, Tjoint_zero, mul_one, (hget i hi).2]
        simp [linkRB, UMap.mount, k1]
      unfold Body.freshTw at ih ⊢
      rw [Body.worldLoop_spec m7.inv.tree.parLt _ _ _ i (by rw [hdof]; exact hi), hTp]
      rcases hpar i hi with ⟨e, hp⟩ | ⟨j, hj, hp, e⟩
      · rw [hp]
        dsimp only
        rw [m10, k4, k3, e]
      · rw [hp]
        dsimp only
        rw [ih j hj (by omega), e, k4, k3]
  obtain ⟨l', q1, q2, q3, q4⟩ := hr.root
  rw [m2] at q1
  cases q1
  refine ⟨n, m1, m7, m3, by rw [m6, List.length_map, hdof], by rw [hnames]; exact (List.nodup_cons.1 hr.nodup).2,
    fun x => by rw [hnames, hK, and_assoc], ?_, m10, ?_, ?_, ?_, ?_⟩
  · intro i hi
    rw [hdof] at hi
    have hx : (n.tags.getD i {}).name = Kt[i] := by
      rw [(hget i hi).1]; exact htag _ (List.getElem_mem hi)
    obtain ⟨l, k1, k2, k3, k4, k5⟩ := hr.link _ (List.getElem_mem hi)
    obtain ⟨w1, w2, w3⟩ := hcar _ _ k2
    have hrb := (hget i hi).2
    rw [hx]
    refine ⟨by rw [← and_assoc]; exact (hK _).1 (List.getElem_mem hi), ?_, hpose i hi, ?_, ?_, ?_, ?_⟩
    · rcases hpar i hi with hl | ⟨j, hj, hp, e⟩
      · exact .inl hl
      · refine .inr ⟨j, hj, hp, ?_⟩
        rw [(hget j (by omega)).1, htag _ (List.getElem_mem _), e]
    · rw [hrb]
      simp only [linkRB, UMap.joint, k1, Option.map_some, Option.getD_some]
      exact k2.joint
    · rw [hrb]
      simp only [linkRB, UMap.inertia, k1, Option.map_some, Option.getD_some]
      exact w1
    · rw [hrb]
      simp only [linkRB, UMap.inertia, k1, Option.map_some, Option.getD_some]
      exact w2
    · rw [(hget i hi).1]
      simp only [linkTag, k1, Option.map_some, Option.getD_some]
      exact w3
  · rw [m11]; exact (hcar r l q4).1
  · rw [m11]; exact (hcar r l q4).2.1
  · rw [m4]; exact (hcar r l q4).2.2
  · refine ⟨?_, ?_, m12, fun k => by rw [m13]⟩
    · rw [m8, hdof]; exact List.map_const' ..
    · rw [m9, hdof]; exact List.map_const' ..

theorem first_of_all {x y : Xml} {n : XName} {l : List Xml} (h : x.all n = y :: l) :
    x.first n = some y := by
  unfold Xml.all at h
  unfold Xml.first Xml.firstIn
  generalize x.kids = k at h
  induction k with
  | nil => simp at h
  | cons a k ih =>
    by_cases ha : a.name = n
    · rw [List.filter_cons_of_pos (by simpa using ha)] at h
      rw [List.find?_cons_of_pos (by simpa using ha), (List.cons.inj h).1]
    · rw [List.filter_cons_of_neg (by simpa using ha)] at h
      rw [List.find?_cons_of_neg (by simpa using ha)]
      exact ih h

/-- The steps of the loader on the file of a description followed by further joint elements. -/
theorem loadModel_with (h : rob.Consistent) (hl : rob.links ≠ []) {more : List Xml}
    (hm : ∀ y ∈ more, y.name = .joint) (hj : rob.joints.map URJoint.xml ++ more ≠ []) {top : List Xml}
    (htop : Xml.firstIn .robot top = some (rob.xmlWith more)) (c : Cache) (simple : Bool) :
    loadModel X c (some top) path simple = (loadJoints X more (rob.map path)).bind fun U =>
      (sortLinks U rob.names).bind fun l =>
      (if simple then simplify U l else .ok (U, l)).bind fun s =>
        addLinks s.1 s.2 (fun _ => none) { Named.init c with name := rob.name } := by
  have h1 : parseAttribute (rob.xmlWith more) .name = .ok rob.name :=
    parseAttribute_eq (by simp [Robot.xmlWith, Xml.attr_cons])
  have h2 : ∃ y, parseElement (rob.xmlWith more) .link = .ok y := by
    obtain ⟨a, l, e⟩ := List.exists_cons_of_ne_nil hl
    have := first_of_all (x := rob.xmlWith more) (n := .link) (y := a.xml) (l := l.map URLink.xml)
      (by rw [Robot.all_link _ hm, e]; rfl)
    exact ⟨_, by rw [parseElement, this]; rfl⟩
  have h3 : ∃ y, parseElement (rob.xmlWith more) .joint = .ok y := by
    obtain ⟨a, l, e⟩ := List.exists_cons_of_ne_nil hj
    have := first_of_all (x := rob.xmlWith more) (n := .joint) (y := a) (l := l)
      (by rw [Robot.all_joint _ hm, e])
    exact ⟨_, by rw [parseElement, this]; rfl⟩
  obtain ⟨y2, h2⟩ := h2
  obtain ⟨y3, h3⟩ := h3
  have h4 : loadLinks X path ((rob.xmlWith more).all .link) (fun _ => none) [] =
      .ok (linkMap path rob.links, rob.names) := by
    rw [Robot.all_link _ hm]
    exact loadLinks_eq rob.links h.masses [] h.names
  have h5 : loadJoints X ((rob.xmlWith more).all .joint) (linkMap path rob.links) =
      loadJoints X more (rob.map path) := by
    rw [Robot.all_joint _ hm, loadJoints_append, loadJoints_eq rob.joints h.joints _ (fun j hj => ?_) h.once]
    · rfl
    · have key : ∀ x ∈ rob.names, (linkMap path rob.links x).isSome := by
        intro x hx
        obtain ⟨l, hl, rfl⟩ := List.mem_map.1 hx
        unfold linkMap
        rw [find_of_nodup h.names hl]
        rfl
      exact ⟨key _ (h.ends j hj).1, key _ (h.ends j hj).2⟩
  unfold loadModel
  simp only [Out.ofOption, Out.bind, htop, h1, h2, h3, h4, h5]

/-- The steps of the loader on the file of a description. -/
theorem loadModel_eq (h : rob.Consistent) (hl : rob.links ≠ []) (hj : rob.joints ≠ []) {top : List Xml}
    (htop : Xml.firstIn .robot top = some rob.xml) (c : Cache) (simple : Bool) :
    loadModel X c (some top) path simple = (sortLinks (rob.map path) rob.names).bind fun l =>
      (if simple then simplify (rob.map path) l else .ok (rob.map path, l)).bind fun s =>
        addLinks s.1 s.2 (fun _ => none) { Named.init c with name := rob.name } :=
  loadModel_with h hl (more := []) (by simp) (by simpa using hj) (by rw [htop, xmlWith_nil]) c simple

theorem load_ok (E : Ext) (h : rob.Sound) (hj : rob.joints ≠ []) (hr : rob.Root r)
    (hL : rob.Layout r P car) {top : List Xml} (htop : Xml.firstIn .robot top = some rob.xml)
    (c : Cache) (simple : Bool) : ∃ n, loadModel X c (some top) path simple = .ok n ∧
      Reach E n.body false ∧ rob.LoadedAs r P (if simple then car else id) (rob.map path).inertia
        (rob.map path).joint (rob.map path).graphics n := by
  have hrm : r ∈ rob.names := List.mem_of_find?_eq_some hr
  have hl : rob.links ≠ [] := by
    intro e
    rw [Robot.names, e] at hrm
    simp at hrm
  obtain ⟨Dt, h1, h2, h3⟩ := tree (path := path) h hr hL
  rw [loadModel_eq h.toConsistent hl hj htop, h1]
  have hnr : ∀ x ∈ Dt, x ≠ r := fun x hx e => (List.nodup_cons.1 h2.nodup).1 (e ▸ hx)
  have hDt : ∀ x, x ∈ Dt ↔ rob.Below r x ∧ x ≠ r := fun x =>
    ⟨fun hx => ⟨(h3 x).1 (List.mem_cons_of_mem _ hx), hnr x hx⟩,
      fun hx => (List.mem_cons.1 ((h3 x).2 hx.1)).resolve_left hx.2⟩
  cases simple with
  | false =>
    simp only [Out.bind, Bool.false_eq_true, if_false]
    exact loadedAs_of E h hrm h2.nodup h3 (fun x => by rw [hDt]; simp) h2.ready c
  | true =>
    obtain ⟨U, K, k1, k2⟩ := simplify_ok h2
    obtain ⟨Kt, rfl, k3, k4⟩ := k2.ready h2
    simp only [Out.bind, if_true, k1]
    exact loadedAs_of E h hrm h2.nodup h3 (fun x => by rw [k4, hDt]) k3 c

/-! ## Poses and carriers exist -/

/-- Pose of a link `n` joints below the root. -/
noncomputable def poseN (rob : Robot X) : ℕ → Str → Iso
  | 0, _ => 1
  | n + 1, x => rob.poseN n (rob.parent x) * ((rob.above x).map fun j => originPose j.origin).getD 1

/-- Carrier of a link `n` joints below the root. -/
noncomputable def carN (rob : Robot X) : ℕ → Str → Str
  | 0, x => x
  | n + 1, x => if (rob.above x).map URJoint.kind = some .fixed then rob.carN n (rob.parent x) else x

open Classical in
/-- Number of joints above a link. -/
noncomputable def depth (rob : Robot X) (r x : Str) : ℕ :=
  if h : rob.Below r x then h.choose else 0

theorem root_of (h : rob.Sound) (hr : rob.Root r) : RootOf rob.parent rob.names r :=
  ⟨List.mem_of_find?_eq_some hr, (parent_empty h).2 (List.find?_some (p := fun x => (rob.above x).isNone) hr),
    h.nonempty⟩

theorem depth_eq (h : rob.Sound) (hr : rob.Root r) {n : ℕ} (hu : Under rob.parent rob.names r n x) :
    rob.depth r x = n := by
  have hb : rob.Below r x := ⟨n, hu⟩
  unfold depth
  rw [dif_pos hb]
  exact (root_of h hr).unique hb.choose_spec hu

theorem layout_exists (h : rob.Sound) (hr : rob.Root r) : ∃ P car, rob.Layout r P car := by
  have hd : ∀ j ∈ rob.joints, rob.Below r j.child →
      rob.depth r j.child = rob.depth r j.parent + 1 := by
    intro j hj hb
    obtain ⟨n, hn⟩ := hb
    rw [depth_eq h hr hn]
    have hp := parent_of h.toConsistent hj
    cases hn with
    | here =>
      have := (root_of h hr).top
      rw [hp] at this
      exact absurd (this ▸ (h.ends j hj).1) h.nonempty
    | down hm hu =>
      rw [hp] at hu
      rw [depth_eq h hr hu]
  refine ⟨fun x => rob.poseN (rob.depth r x) x, fun x => rob.carN (rob.depth r x) x,
    ?_, ?_, ?_, ?_, ?_⟩
  · rw [depth_eq h hr .here]; rfl
  · intro j hj hb
    rw [hd j hj hb, poseN, above_of h.toConsistent hj, parent_of h.toConsistent hj]
    rfl
  · rw [depth_eq h hr .here]; rfl
  · intro j hj hb hk
    rw [hd j hj hb, carN, above_of h.toConsistent hj, parent_of h.toConsistent hj, if_pos (by simp [hk])]
  · intro j hj hb hk
    rw [hd j hj hb, carN, above_of h.toConsistent hj, if_neg (by simpa using hk)]

theorem layout_unique (h : rob.Sound) (hr : r ∈ rob.names) {P' : Str → Iso} {car' : Str → Str}
    (hL : rob.Layout r P car) (hL' : rob.Layout r P' car') (hx : rob.Below r x) :
    P x = P' x ∧ car x = car' x := by
  obtain ⟨n, hn⟩ := hx
  have hb : rob.Below r x := ⟨n, hn⟩
  induction hn with
  | here => exact ⟨by rw [hL.rootPose, hL'.rootPose], by rw [hL.rootCar, hL'.rootCar]⟩
  | @down n y hm hu ih =>
    obtain ⟨i1, i2⟩ := ih ⟨n, hu⟩
    by_cases hyr : y = r
    · rw [hyr]
      exact ⟨by rw [hL.rootPose, hL'.rootPose], by rw [hL.rootCar, hL'.rootCar]⟩
    · obtain ⟨j, hj, rfl⟩ := below_joint h hr hb hyr
      rw [parent_of h.toConsistent hj] at i1 i2
      refine ⟨by rw [hL.pose j hj hb, hL'.pose j hj hb, i1], ?_⟩
      by_cases hk : j.kind = .fixed
      · rw [hL.fixed j hj hb hk, hL'.fixed j hj hb hk, i2]
      · rw [hL.moving j hj hb hk, hL'.moving j hj hb hk]

theorem LoadedAs.congr {I I' : Str → Inertia} {J : Str → Joint} {G : Str → List Graphics} {n : Named}
    (h : rob.LoadedAs r P car I J G n) (e : ∀ x ∈ rob.names, I x = I' x) :
    rob.LoadedAs r P car I' J G n := by
  have hm : ∀ x y, y ∈ rob.carried r car x → y ∈ rob.names := fun x y hy => (List.mem_filter.1 hy).1
  have e1 : ∀ x, (rob.carried r car x).map (fun y => (I y).mass) =
      (rob.carried r car x).map fun y => (I' y).mass := fun x =>
    List.map_congr_left fun y hy => by rw [e y (hm x y hy)]
  have e2 : ∀ x v, (rob.carried r car x).map (fun y => (((P x).inv * P y).actI (I y)).app v) =
      (rob.carried r car x).map fun y => (((P x).inv * P y).actI (I' y)).app v := fun x v =>
    List.map_congr_left fun y hy => by rw [e y (hm x y hy)]
  exact { h with
    body := fun i hi => { h.body i hi with
      mass := by rw [← e1]; exact (h.body i hi).mass
      inertia := fun v => by rw [← e2]; exact (h.body i hi).inertia v }
    baseMass := by rw [← e1]; exact h.baseMass
    baseInertia := fun v => by rw [← e2]; exact h.baseInertia v }

theorem carrier_below (h : rob.Sound) (hr : r ∈ rob.names) (hL : rob.Layout r P car)
    (hx : rob.Below r x) : rob.Below r (car x) ∧ car (car x) = car x := by
  obtain ⟨n, hn⟩ := hx
  have hb : rob.Below r x := ⟨n, hn⟩
  induction hn with
  | here => rw [hL.rootCar]; exact ⟨hb, hL.rootCar⟩
  | @down n y hm hu ih =>
    have := ih ⟨n, hu⟩
    by_cases hyr : y = r
    · rw [hyr, hL.rootCar]; exact ⟨⟨0, .here⟩, hL.rootCar⟩
    · obtain ⟨j, hj, rfl⟩ := below_joint h hr hb hyr
      rw [parent_of h.toConsistent hj] at this
      by_cases hk : j.kind = .fixed
      · rw [hL.fixed j hj hb hk]; exact this
      · rw [hL.moving j hj hb hk]; exact ⟨hb, hL.moving j hj hb hk⟩

theorem sum_partition {M : Type*} [AddCommMonoid M] (m : Str → M) {K : List Str} (hK : K.Nodup) :
    ∀ L : List Str, (∀ y ∈ L, car y ∈ K) →
      (K.map fun x => ((L.filter fun y => car y = x).map m).sum).sum = (L.map m).sum
  | [], _ => by simp
  | y :: L, h => by
    have e : ∀ x, (((y :: L).filter fun y => car y = x).map m).sum =
        (if car y = x then m y else 0) + ((L.filter fun y => car y = x).map m).sum := by
      intro x
      by_cases hx : car y = x
      · rw [List.filter_cons_of_pos (by simpa using hx)]; simp [hx]
      · rw [List.filter_cons_of_neg (by simpa using hx)]; simp [hx]
    have e2 : ∀ K : List Str, K.Nodup → car y ∈ K → (K.map fun x => if car y = x then m y else 0).sum = m y := by
      intro K
      induction K with
      | nil => intro _ h; simp at h
      | cons a K ih =>
        intro hn hm
        rw [List.nodup_cons] at hn
        rw [List.map_cons, List.sum_cons]
        by_cases ha : car y = a
        · rw [if_pos ha]
          have : (K.map fun x => if car y = x then m y else 0) = K.map fun _ => 0 :=
            List.map_congr_left fun x hx => if_neg fun e => hn.1 (by rw [← ha, e]; exact hx)
          rw [this]; simp
        · rw [if_neg ha, zero_add]
          exact ih hn.2 ((List.mem_cons.1 hm).resolve_left ha)
    simp only [e]
    rw [List.sum_map_add, e2 K hK (h y (by simp)), sum_partition m hK L fun z hz => h z (List.mem_cons_of_mem _ hz)]
    simp

theorem LoadedAs.total {I : Str → Inertia} {J : Str → Joint} {G : Str → List Graphics} {n : Named}
    (h : rob.LoadedAs r P car I J G n) (hr : car r = r) (htree : ∀ x ∈ rob.names, rob.Below r x)
    (hc : ∀ x ∈ rob.names, rob.Below r (car x) ∧ car (car x) = car x) :
    n.body.inertiaBase.mass + (n.body.rbs.map fun rb => rb.inertia.mass).sum =
      (rob.names.map fun x => (I x).mass).sum := by
  have hcar : ∀ x, rob.carried r car x = rob.names.filter fun y => car y = x := by
    intro x
    unfold carried
    refine List.filter_congr fun y hy => ?_
    simp [htree y hy]
  have hlist : (n.body.rbs.map fun rb => rb.inertia.mass) = (n.tags.map Tag.name).map fun x =>
      ((rob.names.filter fun y => car y = x).map fun y => (I y).mass).sum := by
    have hlen : n.body.rbs.length = n.tags.length := h.count.symm
    refine List.ext_getElem (by simp [hlen]) fun i h1 h2 => ?_
    have hi : i < n.body.rbs.length := by simpa using h1
    have hm := (h.body i hi).mass
    rw [hcar] at hm
    have e1 : n.body.rb i = n.body.rbs[i]'hi := by
      unfold Body.rb
      rw [List.getD_eq_getElem?_getD, List.getElem?_eq_getElem hi]; rfl
    have e2 : n.tags.getD i {} = n.tags[i]'(by rw [← hlen]; exact hi) := by
      rw [List.getD_eq_getElem?_getD, List.getElem?_eq_getElem (by rw [← hlen]; exact hi)]; rfl
    rw [e1, e2] at hm
    simp only [List.getElem_map]
    convert hm
  have hK : (r :: n.tags.map Tag.name).Nodup := by
    rw [List.nodup_cons]
    exact ⟨fun hm => ((h.bodies r).1 hm).2.1 rfl, h.distinct⟩
  rw [← sum_partition (car := car) _ hK rob.names, List.map_cons, List.sum_cons, hlist, h.baseMass, hcar]
  intro y hy
  obtain ⟨c1, c2⟩ := hc y hy
  by_cases e : car y = r
  · rw [e]; simp
  · exact List.mem_cons_of_mem _ ((h.bodies _).2 ⟨c1, e, c2⟩)

theorem layout_valid (h : rob.Sound) (hr : r ∈ rob.names) (hL : rob.Layout r P car)
    (hx : rob.Below r x) : (P x).Valid := by
  obtain ⟨n, hn⟩ := hx
  have hb : rob.Below r x := ⟨n, hn⟩
  induction hn with
  | here => rw [hL.rootPose]; exact Iso.valid_one
  | @down n y hm hu ih =>
    by_cases hyr : y = r
    · rw [hyr, hL.rootPose]; exact Iso.valid_one
    · obtain ⟨j, hj, rfl⟩ := below_joint h hr hb hyr
      have := ih ⟨n, hu⟩
      rw [parent_of h.toConsistent hj] at this
      rw [hL.pose j hj hb]
      exact this.mul (originPose_valid _)

theorem coe_flatMap {α β : Type*} (f : α → List β) : ∀ l : List α,
    ((l.flatMap f : List β) : Multiset β) = (l.map fun a => (f a : Multiset β)).sum
  | [] => rfl
  | a :: l => by
    rw [List.flatMap_cons, List.map_cons, List.sum_cons, ← coe_flatMap f l]
    rfl

theorem perm_partition {β : Type*} (f : Str → List β) {K : List Str} (hK : K.Nodup) {L : List Str}
    (h : ∀ y ∈ L, car y ∈ K) :
    (K.flatMap fun x => (L.filter fun y => car y = x).flatMap f).Perm (L.flatMap f) := by
  rw [← Multiset.coe_eq_coe, coe_flatMap, coe_flatMap]
  simp only [coe_flatMap]
  exact sum_partition _ hK L h

theorem LoadedAs.shown {I : Str → Inertia} {J : Str → Joint} {G : Str → List Graphics} {n : Named}
    (h : rob.LoadedAs r P car I J G n) (hG : ∀ l ∈ rob.links, List.Forall₂ (VisualAs path) l.visuals (G l.name))
    (hr : car r = r) (hv : ∀ x ∈ rob.names, (P x).Valid) (hrm : r ∈ rob.names)
    (htree : ∀ x ∈ rob.names, rob.Below r x)
    (hc : ∀ x ∈ rob.names, rob.Below r (car x) ∧ car (car x) = car x) :
    n.shown.Perm (rob.shown path P) := by
  have hcar : ∀ x, rob.carried r car x = rob.names.filter fun y => car y = x := by
    intro x
    unfold carried
    refine List.filter_congr fun y hy => ?_
    simp [htree y hy]
  set f : Str → List (Iso × Str × Geometry × Material) := fun y =>
    (G y).map fun g => (P y * g.T, g.name, g.geometry, g.material) with hf
  have hK : (r :: n.tags.map Tag.name).Nodup := by
    rw [List.nodup_cons]
    exact ⟨fun hm => ((h.bodies r).1 hm).2.1 rfl, h.distinct⟩
  have hmem : ∀ y ∈ rob.names, car y ∈ r :: n.tags.map Tag.name := by
    intro y hy
    obtain ⟨c1, c2⟩ := hc y hy
    by_cases e : car y = r
    · rw [e]; simp
    · exact List.mem_cons_of_mem _ ((h.bodies _).2 ⟨c1, e, c2⟩)
  have key : ∀ (x : Str) (gs : List Graphics), (P x).Valid →
      gs.Perm ((rob.carried r car x).flatMap fun y =>
        (G y).map fun g => { g with T := (P x).inv * P y * g.T }) →
      (gs.map fun g => (P x * g.T, g.name, g.geometry, g.material)).Perm
        ((rob.names.filter fun y => car y = x).flatMap f) := by
    intro x gs hx hp
    refine (hp.map _).trans (List.Perm.of_eq ?_)
    rw [hcar, List.map_flatMap]
    congr 1
    funext y
    rw [hf, List.map_map]
    refine List.map_congr_left fun g _ => ?_
    show (P x * ((P x).inv * P y * g.T), g.name, g.geometry, g.material) = _
    rw [← mul_assoc, ← mul_assoc, hx.mul_inv, one_mul]
  have h1 : n.shown.Perm ((r :: n.tags.map Tag.name).flatMap fun x =>
      (rob.names.filter fun y => car y = x).flatMap f) := by
    unfold Named.shown
    rw [List.flatMap_cons]
    refine List.Perm.append ?_ ?_
    · rw [h.base]
      exact key r n.graphics (hv r hrm) h.baseGraphics
    · have e : n.tags.map Tag.name = (List.range n.body.dof).map fun i => (n.tags.getD i {}).name := by
        rw [← h.count]
        refine List.ext_getElem (by simp) fun i h1 h2 => ?_
        have hi : i < n.tags.length := by simpa using h1
        simp [List.getD_eq_getElem?_getD, List.getElem?_eq_getElem hi]
      rw [e, List.flatMap_map]
      refine List.Perm.flatMap_left _ fun i hi => ?_
      have hb := h.body i (List.mem_range.1 hi)
      rw [hb.pose]
      have hx : (n.tags.getD i {}).name ∈ rob.names := below_mem hrm hb.below.1
      exact key _ _ (hv _ hx) hb.graphics
  refine h1.trans ((perm_partition f hK hmem).trans (List.Perm.of_eq ?_))
  unfold Robot.shown Robot.names
  rw [List.flatMap_map]
  have hlink : ∀ l ∈ rob.links, f l.name = l.visuals.map fun v =>
      (P l.name * originPose v.origin, v.name.getD [], v.shape.geometry path,
        (v.inner.map UMaterial.stored).getD {}) := by
    intro l hl
    have := hG l hl
    show (G l.name).map (fun g => (P l.name * g.T, g.name, g.geometry, g.material)) = _
    generalize G l.name = gs at this ⊢
    generalize l.visuals = vs at this ⊢
    induction this with
    | nil => rfl
    | cons hv _ ih => rw [List.map_cons, List.map_cons, ih, hv.name, hv.pose, hv.shape, hv.material]
  have : ∀ ls : List (URLink X), (∀ l ∈ ls, f l.name = l.visuals.map fun v =>
      (P l.name * originPose v.origin, v.name.getD [], v.shape.geometry path,
        (v.inner.map UMaterial.stored).getD {})) →
      (ls.flatMap fun l => f l.name) = ls.flatMap fun l => l.visuals.map fun v =>
        (P l.name * originPose v.origin, v.name.getD [], v.shape.geometry path,
        (v.inner.map UMaterial.stored).getD {}) := by
    intro ls hls
    induction ls with
    | nil => rfl
    | cons l ls ih =>
      rw [List.flatMap_cons, List.flatMap_cons, hls l (by simp), ih fun l' hl' => hls l' (List.mem_cons_of_mem _ hl')]
  exact this _ hlink

end Robot
end SpatialDyn
