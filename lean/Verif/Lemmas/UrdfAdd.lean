import Verif.Lemmas.UrdfMerge
import Verif.Lemmas.Reach
import Verif.Spec.Document
import Verif.Props.Spatial

/-!
# Building the articulated body from the sorted links
-/

namespace SpatialDyn

variable {U0 U : UMap} {r x : Str} {P : Str → Iso} {car : Str → Str} {D Kt : List Str} {E : Ext}

/-- Links that are ready to be added: the list `r :: Kt` has parents first, and every link of it holds
all the links of `D` that it carries. -/
structure Ready (U0 : UMap) (r : Str) (P : Str → Iso) (car : Str → Str) (D Kt : List Str) (U : UMap) :
    Prop where
  nodup : (r :: Kt).Nodup
  nonempty : [] ∉ r :: Kt
  topo : TopoFrom (fun x => car (U0.parent x)) [r] Kt
  valid : (P r).Valid
  root : ∃ l, U r = some l ∧ l.parent = [] ∧ l.rb.T = P r ∧ Carries U0 P car D r l
  link : ∀ x ∈ Kt, ∃ l, U x = some l ∧ Carries U0 P car D x l ∧ l.parent = car (U0.parent x) ∧
    P x = P l.parent * l.rb.T ∧ l.rb.T.Valid

theorem SimpInv.ready {Dt K : List Str} (t : TreeOK U0 r Dt P car)
    (h : SimpInv U0 r P car (r :: Dt) [] K U) : ∃ Kt, K = r :: Kt ∧ Ready U0 r P car (r :: Dt) Kt U ∧
      ∀ x, x ∈ Kt ↔ x ∈ Dt ∧ car x = x := by
  obtain ⟨Kt, e, ht⟩ := h.topo
  have hk := h.kept
  have hnd : (r :: Kt).Nodup := by rw [← e, hk]; exact t.nodup.filter _
  have hKt : Kt = Dt.filter fun y => car y = y := by
    rw [e, List.filter_cons_of_pos (by simpa using t.rig.rootCar)] at hk
    exact (List.cons.inj hk).2
  refine ⟨Kt, e, ⟨hnd, fun hc => ?_, ht, t.valid r (by simp), ?_, ?_⟩, ?_⟩
  · rw [← e] at hc
    exact t.nonempty (h.kept_sub _ hc).1
  · obtain ⟨l, h1, h2, h3⟩ := h.root
    obtain ⟨l', h4, h5, -⟩ := h.here r (by rw [e]; simp)
    rw [h1] at h4
    cases h4
    exact ⟨l, h1, h2, by rw [h3, t.rig.rootPose], h5⟩
  · intro x hx
    obtain ⟨l, h1, h2, h3⟩ := h.here x (by rw [e]; exact List.mem_cons_of_mem _ hx)
    exact ⟨l, h1, h2, h3 fun e => (List.nodup_cons.1 hnd).1 (e ▸ hx)⟩
  · intro x
    rw [hKt, List.mem_filter]
    simp

/-- Without simplification every link carries itself only. -/
theorem TreeOK.ready {Dt : List Str} (t : TreeOK U0 r Dt P car) :
    Ready U0 r P id (r :: Dt) Dt U0 := by
  have key : ∀ x ∈ r :: Dt, ∃ l, U0 x = some l ∧ Carries U0 P id (r :: Dt) x l := by
    intro x hx
    obtain ⟨l, hl, hn⟩ := (t.good x hx).ex
    have hP := t.valid x hx
    have hg := t.good x hx
    have hI : U0.inertia x = l.rb.inertia := by simp [UMap.inertia, hl]
    have e : (r :: Dt).filter (fun y => id y = x) = [x] := by
      have h1 : (r :: Dt).filter (fun y => id y = x) = (r :: Dt).filter (· == x) := by
        congr 1; funext y; rw [Bool.eq_iff_iff]; simp
      rw [h1, List.filter_beq, t.nodup.count, if_pos hx]
      rfl
    refine ⟨l, hl, hn, by simp [UMap.joint, hl], ?_, ?_, ?_, hI ▸ hg.mass, hI ▸ hg.symm⟩
    · rw [e]; simp [relPose_self hP, UMap.graphics, hl]
    · rw [e]; simp [hI]
    · intro v; rw [e]; simp [hI, relPose_self hP, actI_one]
  refine ⟨t.nodup, t.nonempty, t.topo, t.valid r (by simp), ?_, ?_⟩
  · obtain ⟨l, hl, hc⟩ := key r (by simp)
    have hpar : l.parent = [] := by have := t.top; simpa [UMap.parent, hl] using this
    exact ⟨l, hl, hpar, by rw [t.rig.rootPose]; simp [UMap.mount, hl], hc⟩
  · intro x hx
    obtain ⟨l, hl, hc⟩ := key x (List.mem_cons_of_mem _ hx)
    have hxr : x ≠ r := fun e' => (List.nodup_cons.1 t.nodup).1 (e' ▸ hx)
    have hpar : U0.parent x = l.parent := by simp [UMap.parent, hl]
    have hT : U0.mount x = l.rb.T := by simp [UMap.mount, hl]
    exact ⟨l, hl, hc, by rw [hpar]; rfl, by rw [t.rig.pose x (List.mem_cons_of_mem _ hx) hxr, hpar, hT],
      hT ▸ (t.good x (List.mem_cons_of_mem _ hx)).valid⟩

/-- Id of a link: its place among the links other than the root, −1 for the root. -/
def linkId (K : List Str) (x : Str) : ℤ := (K.idxOf x : ℤ) - 1

/-- The rigid body made from a link. -/
noncomputable def linkRB (K : List Str) (U : UMap) (x : Str) : RB :=
  { id := linkId K x, idParent := linkId K (U.parent x), T := U.mount x, inertia := U.inertia x
    joint := U.joint x }

/-- The name and graphics made from a link. -/
def linkTag (U : UMap) (x : Str) : Tag := ((U x).map ULink.tag).getD {}

theorem addLinks_loop (hr : Ready U0 r P car D Kt U) :
    ∀ (B A : List Str) (ids : Str → Option ℤ) (n : Named), Kt = A ++ B →
      (∀ y ∈ r :: A, ids y = some (linkId (r :: Kt) y)) → n.body.rbs = A.map (linkRB (r :: Kt) U) →
      n.tags = A.map (linkTag U) → Reach E n.body false →
      n.body.q = A.map (fun _ => 0) → n.body.dq = A.map (fun _ => 0) →
      ∃ n', addLinks U B ids n = .ok n' ∧ n'.name = n.name ∧ n'.graphics = n.graphics ∧
        n'.body.rbs = Kt.map (linkRB (r :: Kt) U) ∧ n'.tags = Kt.map (linkTag U) ∧
        Reach E n'.body false ∧ n'.body.q = Kt.map (fun _ => 0) ∧ n'.body.dq = Kt.map (fun _ => 0) ∧
        n'.body.T0 = n.body.T0 ∧ n'.body.inertiaBase = n.body.inertiaBase ∧ n'.body.g = n.body.g ∧
        n'.body.load = n.body.load := by
  intro B
  induction B with
  | nil =>
    intro A ids n e h1 h2 h3 h4 h5 h6
    rw [List.append_nil] at e
    subst e
    exact ⟨n, rfl, rfl, rfl, h2, h3, h4, h5, h6, rfl, rfl, rfl, rfl⟩
  | cons x B ih =>
    intro A ids n e h1 h2 h3 h4 h5 h6
    have hx : x ∈ Kt := by rw [e]; simp
    obtain ⟨l, k1, k2, k3, k4, k5⟩ := hr.link x hx
    have htop := hr.topo
    rw [e, topoFrom_append] at htop
    have hp : l.parent ∈ r :: A := by rw [k3]; exact htop.2.1
    have hpK : l.parent ∈ r :: Kt := by
      rw [e, ← List.cons_append]; exact List.mem_append_left _ hp
    have hne : l.parent ≠ [] := fun e' => hr.nonempty (e' ▸ hpK)
    have hlen : n.body.rbs.length = A.length := by rw [h2, List.length_map]
    have hpar : U.parent x = l.parent := by simp [UMap.parent, k1]
    have hxA : x ∉ r :: A := by
      have := hr.nodup
      rw [e, ← List.cons_append] at this
      exact fun hc => (List.disjoint_of_nodup_append this) hc (by simp)
    have hidx : linkId (r :: Kt) x = A.length := by
      unfold linkId
      rw [e, ← List.cons_append, List.idxOf_append_of_notMem hxA, List.idxOf_cons_self]
      simp
    have hpi : linkId (r :: Kt) l.parent < A.length ∧ -1 ≤ linkId (r :: Kt) l.parent := by
      unfold linkId
      rw [e, ← List.cons_append, List.idxOf_append_of_mem hp]
      have := List.idxOf_lt_length_iff.2 hp
      rw [List.length_cons] at this
      omega
    set b' : Body := { n.body with
        rbs := n.body.rbs ++ [{ l.rb with id := (A.length : ℤ), idParent := linkId (r :: Kt) l.parent }]
        q := n.body.q ++ [0]
        dq := n.body.dq ++ [0]
        anc := n.body.anc ++ [(if linkId (r :: Kt) l.parent < 0 then [] else
          n.body.anc.getD (linkId (r :: Kt) l.parent).toNat []) ++ [A.length]]
        sub := Body.pushSub n.body.sub (if linkId (r :: Kt) l.parent < 0 then [] else
          n.body.anc.getD (linkId (r :: Kt) l.parent).toNat []) A.length ++ [[A.length]]
        c := n.body.c.expand A.length } with hb'
    have hadd : n.body.addRigidBody l.rb (linkId (r :: Kt) l.parent) = .ok (A.length, b') := by
      unfold Body.addRigidBody
      dsimp only
      rw [if_neg (by rw [hlen]; omega), hlen]
    have hreach : Reach E b' false := by
      have hs := Reach.step (op := .addRigidBody l.rb (linkId (r :: Kt) l.parent)) (b' := b') h4 k5
        (by simp [Op.exec, Op.step, hadd, Out.map, Out.bind])
      have hq : b'.q ≠ n.body.q := fun h => by
        have := congrArg List.length h
        simp [hb'] at this
      simpa [Op.dirty, hq] using hs
    have hstep : addLink U x ids n = .ok (Function.update ids x (some (A.length : ℤ)),
        { n with body := b', tags := n.tags ++ [l.tag] }) := by
      unfold addLink
      simp only [UMap.at, k1, Out.ofOption, Out.bind, hne, if_false, h1 _ hp, Named.addRigidBody, hadd,
        Out.map, hlen]
    obtain ⟨n', m1, m2⟩ := ih (A ++ [x]) (Function.update ids x (some (A.length : ℤ)))
      { n with body := b', tags := n.tags ++ [l.tag] } (by rw [e]; simp) (by
        intro y hy
        rw [← List.cons_append, List.mem_append, List.mem_singleton] at hy
        by_cases hyx : y = x
        · subst hyx; simp [hidx]
        · rw [Function.update_of_ne hyx]
          exact h1 y (hy.resolve_right hyx)) (by
        show n.body.rbs ++ [_] = _
        rw [h2, List.map_append, List.map_singleton]
        congr 2
        simp only [linkRB, hidx, hpar, UMap.mount, UMap.inertia, UMap.joint, k1, Option.map_some,
          Option.getD_some]) (by
        show n.tags ++ [_] = _
        rw [h3, List.map_append, List.map_singleton]
        simp [linkTag, k1]) hreach (by show n.body.q ++ [0] = _; rw [h5]; simp)
        (by show n.body.dq ++ [0] = _; rw [h6]; simp)
    refine ⟨n', ?_, m2⟩
    rw [addLinks, hstep]
    exact m1

/-- The body made from the links that are ready. -/
theorem addLinks_ok (hr : Ready U0 r P car D Kt U) (c : Cache) (name : Str) :
    ∃ n l, addLinks U (r :: Kt) (fun _ => none) { Named.init c with name := name } = .ok n ∧
      U r = some l ∧ n.name = name ∧ n.graphics = l.tag.graphics ∧
      n.body.rbs = Kt.map (linkRB (r :: Kt) U) ∧ n.tags = Kt.map (linkTag U) ∧
      Reach E n.body false ∧ n.body.q = Kt.map (fun _ => 0) ∧ n.body.dq = Kt.map (fun _ => 0) ∧
      n.body.T0 = P r ∧ n.body.inertiaBase = l.rb.inertia ∧ n.body.g = ⟨0, 0, -9.81⟩ ∧
      n.body.load = fun _ => none := by
  obtain ⟨l, k1, k2, k3, k4⟩ := hr.root
  have hset : ((Body.init c).setBase l.rb.T).setInertiaBase l.rb.inertia =
      .ok { (Body.init c) with T0 := l.rb.T, inertiaBase := l.rb.inertia } := by
    unfold Body.setInertiaBase Body.setBase
    rw [if_neg (not_lt.2 k4.pos.le), C05_flat_round_trip _ k4.symm]
  have hreach : Reach E { (Body.init c) with T0 := l.rb.T, inertiaBase := l.rb.inertia } false := by
    have h1 := Reach.step (E := E) (op := .setBase l.rb.T) (b' := (Body.init c).setBase l.rb.T)
      (Reach.init c) ⟨by rw [k3]; exact hr.valid, rfl⟩ rfl
    have h2 := Reach.step (E := E) (op := .setInertiaBase l.rb.inertia)
      (b' := { (Body.init c) with T0 := l.rb.T, inertiaBase := l.rb.inertia }) h1 trivial (by
        simp only [Op.exec, Op.step, hset])
    simpa [Op.dirty, Body.setBase] using h2
  obtain ⟨n, m1, m2, m3, m4, m5, m6, m7, m8, m9, m10, m11, m12⟩ := addLinks_loop (E := E) hr Kt []
    (Function.update (fun _ => none) r (some (-1)))
    { Named.init c with name := name, graphics := l.tag.graphics
                        body := { (Body.init c) with T0 := l.rb.T, inertiaBase := l.rb.inertia } } rfl
    (by intro y hy; rw [List.mem_singleton] at hy; subst hy; simp [linkId]) rfl rfl hreach rfl rfl
  refine ⟨n, l, ?_, k1, m2, m3, m4, m5, m6, m7, m8, by rw [m9]; exact k3, m10, m11, m12⟩
  rw [addLinks]
  have : addLink U r (fun _ => none) { Named.init c with name := name } =
      .ok (Function.update (fun _ => none) r (some (-1)), { Named.init c with
        name := name, graphics := l.tag.graphics
        body := { (Body.init c) with T0 := l.rb.T, inertiaBase := l.rb.inertia } }) := by
    unfold addLink
    simp only [UMap.at, k1, Out.ofOption, Out.bind, k2, if_true]
    show Out.bind (((Body.init c).setBase l.rb.T).setInertiaBase l.rb.inertia) _ = _
    rw [hset]
    rfl
  rw [this]
  exact m1

end SpatialDyn
