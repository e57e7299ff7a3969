import Verif.Lemmas.UrdfSort
import Verif.Lemmas.Spatial

/-!
# Merging of fixed joints
-/

namespace SpatialDyn

/-- Graphics, mass, inertia and mounting of a link in a map. -/
def UMap.graphics (U : UMap) (x : Str) : List Graphics := ((U x).map fun l => l.tag.graphics).getD []
noncomputable def UMap.inertia (U : UMap) (x : Str) : Inertia :=
  ((U x).map fun l => l.rb.inertia).getD ({} : RB).inertia
noncomputable def UMap.mount (U : UMap) (x : Str) : Iso := ((U x).map fun l => l.rb.T).getD 1
def UMap.joint (U : UMap) (x : Str) : Joint := ((U x).map fun l => l.rb.joint).getD {}

/-- Pose of link `y` seen from link `x`. -/
noncomputable def relPose (P : Str → Iso) (x y : Str) : Iso := (P x).inv * P y

/-- The map holds a link under its own name, with a proper transform and a proper inertia. -/
structure GoodLink (U : UMap) (x : Str) : Prop where
  ex : ∃ l, U x = some l ∧ l.tag.name = x
  valid : (U.mount x).Valid
  mass : 0 < (U.inertia x).mass
  symm : (U.inertia x).Icom.IsSymm

/-- Poses at rest and carriers of the links of a tree: a moving link carries itself, a fixed link is
carried by whatever carries its parent. -/
structure Rigging (U : UMap) (r : Str) (D : List Str) (P : Str → Iso) (car : Str → Str) : Prop where
  rootPose : P r = U.mount r
  pose : ∀ x ∈ D, x ≠ r → P x = P (U.parent x) * U.mount x
  rootCar : car r = r
  fixed : ∀ x ∈ D, x ≠ r → (U.joint x).type = .undefined → car x = car (U.parent x)
  moving : ∀ x ∈ D, x ≠ r → (U.joint x).type ≠ .undefined → car x = x

/-- `l` is the link `k` of `U0` together with all links among `Q` that `k` carries. -/
structure Carries (U0 : UMap) (P : Str → Iso) (car : Str → Str) (Q : List Str) (k : Str) (l : ULink) :
    Prop where
  name : l.tag.name = k
  joint : l.rb.joint = U0.joint k
  graphics : l.tag.graphics = (Q.filter fun y => car y = k).flatMap fun y =>
    (U0.graphics y).map fun g => { g with T := relPose P k y * g.T }
  mass : l.rb.inertia.mass = ((Q.filter fun y => car y = k).map fun y => (U0.inertia y).mass).sum
  act : ∀ v, l.rb.inertia.app v =
    ((Q.filter fun y => car y = k).map fun y => ((relPose P k y).actI (U0.inertia y)).app v).sum
  pos : 0 < l.rb.inertia.mass
  symm : l.rb.inertia.Icom.IsSymm

/-- The state of the simplification after the links `Q`, with the links `R` to go. -/
structure SimpInv (U0 : UMap) (r : Str) (P : Str → Iso) (car : Str → Str) (Q R K : List Str)
    (U : UMap) : Prop where
  kept : K = Q.filter fun y => car y = y
  carried : ∀ x ∈ Q, car x ∈ K
  topo : ∃ Kt, K = r :: Kt ∧ TopoFrom (fun x => car (U0.parent x)) [r] Kt
  root : ∃ l, U r = some l ∧ l.parent = [] ∧ l.rb.T = U0.mount r
  here : ∀ x ∈ K, ∃ l, U x = some l ∧ Carries U0 P car Q x l ∧
    (x ≠ r → l.parent = car (U0.parent x) ∧ P x = P l.parent * l.rb.T ∧ l.rb.T.Valid)
  rest : ∀ x ∈ R, ∃ l l0, U x = some l ∧ U0 x = some l0 ∧ l.tag = l0.tag ∧
    l.rb.joint = l0.rb.joint ∧ l.rb.inertia = l0.rb.inertia ∧
    l.parent = (if l0.parent ∈ R then l0.parent else car l0.parent) ∧
    P x = P l.parent * l.rb.T ∧ l.rb.T.Valid

theorem transfer_apply (r : ULink) : ∀ {l : List Str} (U : UMap) (z : Str), l.Nodup →
    transfer r l U z = if z ∈ l then (U z).map fun c => if c.parent = r.tag.name then
      { c with rb := { c.rb with T := r.rb.T * c.rb.T }, parent := r.parent } else c else U z := by
  intro l
  induction l with
  | nil => intro U z _; simp [transfer]
  | cons y l ih =>
    intro U z hn
    rw [List.nodup_cons] at hn
    rw [transfer, ih _ _ hn.2]
    by_cases hz : z = y
    · subst hz
      rw [if_neg hn.1, if_pos (List.mem_cons_self ..), transferOne]
      rcases hu : U z with _ | c
      · simpa using hu
      · by_cases hc : c.parent = r.tag.name
        · simp [hc]
        · simp [hc, hu]
    · have e : transferOne r y U z = U z := by
        rw [transferOne]
        rcases U y with _ | c
        · rfl
        · by_cases hc : c.parent = r.tag.name
          · simp [hc, hz]
          · simp [hc]
      rw [e]
      simp [List.mem_cons, hz]

variable {U0 U : UMap} {r x : Str} {P : Str → Iso} {car : Str → Str} {Q R K : List Str}

theorem relPose_self (h : (P x).Valid) : relPose P x x = 1 := h.inv_mul

theorem relPose_of {y : Str} {T : Iso} (h : (P x).Valid) (e : P y = P x * T) : relPose P x y = T := by
  unfold relPose
  rw [e, ← mul_assoc, h.inv_mul, one_mul]

theorem actI_one (I : Inertia) : (1 : Iso).actI I = I := by
  obtain ⟨m, c, J⟩ := I
  simp only [Iso.actI]
  ext <;> simp [show Mat3.T 1 = 1 from rfl]

/-- A tree of links in topological order, with its poses and carriers. -/
structure TreeOK (U0 : UMap) (r : Str) (Dt : List Str) (P : Str → Iso) (car : Str → Str) : Prop where
  nodup : (r :: Dt).Nodup
  topo : TopoFrom U0.parent [r] Dt
  nonempty : [] ∉ r :: Dt
  good : ∀ x ∈ r :: Dt, GoodLink U0 x
  top : U0.parent r = []
  rig : Rigging U0 r (r :: Dt) P car

theorem TreeOK.parent_mem {Dt : List Str} (h : TreeOK U0 r Dt P car) {Qt : List Str}
    (e : Dt = Qt ++ x :: R) : U0.parent x ∈ r :: Qt := by
  have := h.topo
  rw [e, topoFrom_append] at this
  exact this.2.1

theorem TreeOK.split {Dt : List Str} (h : TreeOK U0 r Dt P car) {x : Str} (hx : x ∈ r :: Dt)
    (hr : x ≠ r) : ∃ Qt R, Dt = Qt ++ x :: R ∧ U0.parent x ∈ r :: Qt := by
  have hx : x ∈ Dt := (List.mem_cons.1 hx).resolve_left hr
  obtain ⟨Qt, R, e⟩ := List.append_of_mem hx
  exact ⟨Qt, R, e, h.parent_mem e⟩

/-- Induction over the links of a tree, parents first. -/
theorem TreeOK.induct {Dt : List Str} (h : TreeOK U0 r Dt P car) {p : Str → Prop} (h0 : p r)
    (hs : ∀ x ∈ Dt, x ≠ r → U0.parent x ∈ r :: Dt → p (U0.parent x) → p x) :
    ∀ x ∈ r :: Dt, p x := by
  have key : ∀ Qt R, Dt = Qt ++ R → ∀ x ∈ r :: Qt, p x := by
    intro Qt
    induction Qt using List.reverseRecOn with
    | nil => intro R e x hx; rw [List.mem_singleton] at hx; exact hx ▸ h0
    | append_singleton Qt y ih =>
      intro R e x hx
      have e' : Dt = Qt ++ y :: R := by rw [e]; simp
      have hm := h.parent_mem e'
      rw [← List.cons_append, List.mem_append, List.mem_singleton] at hx
      rcases hx with hx | rfl
      · exact ih _ e' x hx
      · have hx' : x ∈ Dt := by rw [e']; simp
        refine hs x hx' (fun e => ?_) ?_ (ih _ e' _ hm)
        · have := (List.nodup_cons.1 h.nodup).1
          exact this (e ▸ hx')
        · rw [e', ← List.cons_append]
          exact List.mem_append_left _ hm
  exact key Dt [] (by simp)

theorem TreeOK.valid {Dt : List Str} (h : TreeOK U0 r Dt P car) : ∀ x ∈ r :: Dt, (P x).Valid := by
  refine h.induct ?_ fun x hx hr hp ih => ?_
  · rw [h.rig.rootPose]; exact (h.good r (by simp)).valid
  · rw [h.rig.pose x (List.mem_cons_of_mem _ hx) hr]
    exact ih.mul (h.good x (List.mem_cons_of_mem _ hx)).valid

theorem Carries.mono {l : ULink} {k : Str} (h : Carries U0 P car Q k l) (hc : car x ≠ k) :
    Carries U0 P car (Q ++ [x]) k l := by
  have e : (Q ++ [x]).filter (fun y => car y = k) = Q.filter fun y => car y = k := by
    simp [List.filter_append, hc]
  exact ⟨h.name, h.joint, by rw [e]; exact h.graphics, by rw [e]; exact h.mass,
    by rw [e]; exact h.act, h.pos, h.symm⟩

/-- A link alone. -/
theorem Carries.single {l l0 : ULink} (hP : (P x).Valid) (hg : GoodLink U0 x) (h0 : U0 x = some l0)
    (ht : l.tag = l0.tag) (hj : l.rb.joint = l0.rb.joint) (hi : l.rb.inertia = l0.rb.inertia)
    (hc : car x = x) (hQ : ∀ y ∈ Q, car y ≠ x) : Carries U0 P car (Q ++ [x]) x l := by
  have e : (Q ++ [x]).filter (fun y => car y = x) = [x] := by
    rw [List.filter_append, List.filter_eq_nil_iff.2 (fun y hy => by simpa using hQ y hy)]
    simp [hc]
  have hI : U0.inertia x = l.rb.inertia := by simp [UMap.inertia, h0, hi]
  obtain ⟨l1, e1, e2⟩ := hg.ex
  rw [h0] at e1
  cases e1
  refine ⟨by rw [ht, e2], by simp [UMap.joint, h0, hj], ?_, ?_, ?_, hI ▸ hg.mass, hI ▸ hg.symm⟩
  · rw [e]
    simp [relPose_self hP, UMap.graphics, h0, ht]
  · rw [e]
    simp [hI]
  · intro v
    rw [e]
    simp [hI, relPose_self hP, actI_one]

/-- Another link mounted on a carrier. -/
theorem Carries.merge {p l l0 : ULink} {k : Str} (h : Carries U0 P car Q k p) (hP : (P k).Valid)
    (hg : GoodLink U0 x) (h0 : U0 x = some l0) (ht : l.tag = l0.tag)
    (hi : l.rb.inertia = l0.rb.inertia) (hc : car x = k) (hT : P x = P k * l.rb.T)
    (hTv : l.rb.T.Valid) :
    ∃ p', merged p l = .ok p' ∧ Carries U0 P car (Q ++ [x]) k p' ∧ p'.parent = p.parent ∧
      p'.rb.T = p.rb.T := by
  have hI : U0.inertia x = l.rb.inertia := by simp [UMap.inertia, h0, hi]
  have hm : 0 < l.rb.inertia.mass := hI ▸ hg.mass
  have hmm : (l.rb.T.actI l.rb.inertia).mass = l.rb.inertia.mass := rfl
  have e : (Q ++ [x]).filter (fun y => car y = k) = (Q.filter fun y => car y = k) ++ [x] := by
    simp [List.filter_append, hc]
  have hpos : 0 < (p.rb.inertia.add (l.rb.T.actI l.rb.inertia)).mass := by
    show 0 < p.rb.inertia.mass + (l.rb.T.actI l.rb.inertia).mass
    rw [hmm]; exact add_pos h.pos hm
  have hset : p.rb.setInertia (p.rb.inertia.add (l.rb.T.actI l.rb.inertia)) =
      .ok { p.rb with inertia := p.rb.inertia.add (l.rb.T.actI l.rb.inertia) } := by
    unfold RB.setInertia
    rw [if_neg (not_lt.2 hpos.le)]
  have hmer : merged p l = .ok { p with
      rb := { p.rb with inertia := p.rb.inertia.add (l.rb.T.actI l.rb.inertia) }
      tag := { p.tag with graphics := p.tag.graphics ++
        l.tag.graphics.map fun g => { g with T := l.rb.T * g.T } } } := by
    unfold merged; rw [hset]; rfl
  refine ⟨_, hmer, ⟨h.name, h.joint, ?_, ?_, ?_, hpos, ?_⟩, rfl, rfl⟩
  · dsimp only
    rw [e, List.flatMap_append, h.graphics]
    simp [relPose_of hP hT, UMap.graphics, h0, ht]
  · rw [e]
    show p.rb.inertia.mass + (l.rb.T.actI l.rb.inertia).mass = _
    rw [hmm, h.mass]
    simp [hI]
  · intro v
    rw [e, List.map_append, List.sum_append, ← h.act v]
    show (p.rb.inertia.add (l.rb.T.actI l.rb.inertia)).app v = _
    rw [Inertia.add_app _ _ (by unfold Inertia.AddDefined; rw [hmm]; exact (add_pos h.pos hm).ne')]
    simp [hI, relPose_of hP hT]
  · show (p.rb.inertia.add (l.rb.T.actI l.rb.inertia)).Icom.IsSymm
    exact Inertia.add_symm _ _ h.symm (Inertia.actI_symm _ (by rw [← hI]; exact hg.symm))

theorem SimpInv.kept_sub (h : SimpInv U0 r P car Q R K U) : ∀ k ∈ K, k ∈ Q ∧ car k = k := by
  intro k hk
  rw [h.kept] at hk
  have := List.mem_filter.1 hk
  exact ⟨this.1, by simpa using this.2⟩

theorem SimpInv.step_keep {Dt Qt : List Str} (t : TreeOK U0 r Dt P car) (e : Dt = Qt ++ x :: R)
    (h : SimpInv U0 r P car (r :: Qt) (x :: R) K U) (hc : car x = x) :
    SimpInv U0 r P car (r :: Qt ++ [x]) R (K ++ [x]) U := by
  have hnd : (r :: Qt ++ x :: R).Nodup := by rw [List.cons_append, ← e]; exact t.nodup
  have hxQ : x ∉ r :: Qt := fun hc => (List.disjoint_of_nodup_append hnd) hc (by simp)
  have hxr : x ≠ r := fun e => hxQ (by simp [e])
  have hp : U0.parent x ∈ r :: Qt := t.parent_mem e
  have hpR : U0.parent x ∉ x :: R := fun hc => (List.disjoint_of_nodup_append hnd) hp hc
  have hxD : x ∈ r :: Dt := by rw [e]; simp
  have hxR : x ∉ R := (List.nodup_cons.1 (List.nodup_append.1 hnd).2.1).1
  have hKx : ∀ k ∈ K, car x ≠ k := fun k hk e => hxQ (by rw [← hc, e]; exact (h.kept_sub k hk).1)
  refine ⟨?_, ?_, ?_, h.root, ?_, ?_⟩
  · rw [List.filter_append, ← h.kept]; simp [hc]
  · intro y hy
    rcases List.mem_append.1 hy with hy | hy
    · exact List.mem_append_left _ (h.carried y hy)
    · rw [List.mem_singleton] at hy; subst hy; rw [hc]; simp
  · obtain ⟨Kt, k1, k2⟩ := h.topo
    refine ⟨Kt ++ [x], by rw [k1]; simp, topoFrom_append.2 ⟨k2, ?_, trivial⟩⟩
    have := h.carried _ hp
    rw [k1] at this
    exact this
  · intro k hk
    rcases List.mem_append.1 hk with hk | hk
    · obtain ⟨l, h1, h2, h3⟩ := h.here k hk
      exact ⟨l, h1, h2.mono (hKx k hk), h3⟩
    · rw [List.mem_singleton] at hk
      subst hk
      obtain ⟨l, l0, h1, h2, h3, h4, h5, h6, h7, h8⟩ := h.rest k (by simp)
      have hl0 : U0.parent k = l0.parent := by simp [UMap.parent, h2]
      rw [if_neg (by rw [← hl0]; exact hpR)] at h6
      refine ⟨l, h1, Carries.single (t.valid _ hxD) (t.good _ hxD) h2 h3 h4 h5 hc ?_,
        fun _ => ⟨by rw [h6, hl0], h7, h8⟩⟩
      intro y hy hyc
      exact hxQ (hyc ▸ (h.kept_sub _ (h.carried y hy)).1)
  · intro y hy
    obtain ⟨l, l0, h1, h2, h3, h4, h5, h6, h7, h8⟩ := h.rest y (List.mem_cons_of_mem _ hy)
    refine ⟨l, l0, h1, h2, h3, h4, h5, ?_, h7, h8⟩
    rw [h6]
    by_cases h9 : l0.parent = x
    · rw [h9, if_pos (by simp), if_neg hxR, hc]
    · simp [List.mem_cons, h9]

theorem SimpInv.step_merge {Dt Qt : List Str} (t : TreeOK U0 r Dt P car) (e : Dt = Qt ++ x :: R)
    (h : SimpInv U0 r P car (r :: Qt) (x :: R) K U) (hc : car x = car (U0.parent x)) :
    ∃ l p p', U x = some l ∧ l.parent ≠ [] ∧ U l.parent = some p ∧ merged p l = .ok p' ∧
      SimpInv U0 r P car (r :: Qt ++ [x]) R K
        (transfer l R (Function.update U l.parent (some p'))) := by
  have hnd : (r :: Qt ++ x :: R).Nodup := by rw [List.cons_append, ← e]; exact t.nodup
  have hdis := List.disjoint_of_nodup_append hnd
  have hxQ : x ∉ r :: Qt := fun hc => hdis hc (by simp)
  have hxr : x ≠ r := fun e => hxQ (by simp [e])
  have hp : U0.parent x ∈ r :: Qt := t.parent_mem e
  have hpR : U0.parent x ∉ x :: R := fun hc => hdis hp hc
  have hxD : x ∈ r :: Dt := by rw [e]; simp
  have hQD : ∀ y ∈ r :: Qt, y ∈ r :: Dt := fun y hy => by
    rw [e, ← List.cons_append]; exact List.mem_append_left _ hy
  have hnR := List.nodup_cons.1 (List.nodup_append.1 hnd).2.1
  obtain ⟨l, l0, h1, h2, h3, h4, h5, h6, h7, h8⟩ := h.rest x (by simp)
  have hl0 : U0.parent x = l0.parent := by simp [UMap.parent, h2]
  rw [if_neg (by rw [← hl0]; exact hpR), ← hl0, ← hc] at h6
  have hkK : car x ∈ K := by rw [hc]; exact h.carried _ hp
  have hkQ := (h.kept_sub _ hkK).1
  have hkx : car x ≠ x := fun e => hxQ (e ▸ hkQ)
  have hkR : car x ∉ R := fun hc => hdis hkQ (List.mem_cons_of_mem _ hc)
  obtain ⟨p, p1, p2, p3⟩ := h.here _ hkK
  rw [h6] at h7
  obtain ⟨p', m1, m2, m3, m4⟩ := p2.merge (x := x) (t.valid _ (hQD _ hkQ)) (t.good _ hxD) h2 h3 h5 rfl
    h7 h8
  obtain ⟨l0', e1, e2⟩ := (t.good _ hxD).ex
  rw [h2] at e1
  cases e1
  have hname : l.tag.name = x := by rw [h3, e2]
  refine ⟨l, p, p', h1, ?_, by rw [h6]; exact p1, m1, ?_⟩
  · rw [h6]; exact fun e => t.nonempty (e ▸ hQD _ hkQ)
  rw [h6]
  have hV : ∀ z, transfer l R (Function.update U (car x) (some p')) z = if z ∈ R then
      (U z).map fun c => if c.parent = x then
        { c with rb := { c.rb with T := l.rb.T * c.rb.T }, parent := car x } else c
      else if z = car x then some p' else U z := by
    intro z
    rw [transfer_apply l _ _ hnR.2, hname, h6]
    by_cases hz : z ∈ R
    · have hz' : z ≠ car x := fun e => hkR (e ▸ hz)
      simp [hz, hz']
    · simp [hz, Function.update_apply]
  have hQR : ∀ z ∈ r :: Qt, z ∉ R := fun z hz hc => hdis hz (List.mem_cons_of_mem _ hc)
  refine ⟨?_, ?_, h.topo, ?_, ?_, ?_⟩
  · rw [List.filter_append, ← h.kept]; simp [hkx]
  · intro y hy
    rcases List.mem_append.1 hy with hy | hy
    · exact h.carried y hy
    · rw [List.mem_singleton] at hy; subst hy; exact hkK
  · obtain ⟨q, q1, q2, q3⟩ := h.root
    rw [hV, if_neg (hQR r (by simp))]
    by_cases hr : r = car x
    · rw [if_pos hr]
      rw [← hr] at p1
      rw [q1] at p1
      cases p1
      exact ⟨p', rfl, by rw [m3]; exact q2, by rw [m4]; exact q3⟩
    · rw [if_neg hr]
      exact ⟨q, q1, q2, q3⟩
  · intro k hk
    rw [hV, if_neg (hQR k (h.kept_sub k hk).1)]
    by_cases hkc : k = car x
    · rw [if_pos hkc]
      subst hkc
      exact ⟨p', rfl, m2, fun hr => by rw [m3, m4]; exact p3 hr⟩
    · rw [if_neg hkc]
      obtain ⟨q, q1, q2, q3⟩ := h.here k hk
      exact ⟨q, q1, q2.mono (fun e => hkc e.symm), q3⟩
  · intro y hy
    rw [hV, if_pos hy]
    obtain ⟨q, q0, i1, i2, i3, i4, i5, i6, i7, i8⟩ := h.rest y (List.mem_cons_of_mem _ hy)
    have hyD : y ∈ r :: Dt := by rw [e]; simp [hy]
    have hyr : y ≠ r := fun e => hdis (by simp : r ∈ r :: Qt) (e ▸ List.mem_cons_of_mem _ hy)
    have hq0 : U0.parent y = q0.parent := by simp [UMap.parent, i2]
    rw [i1, Option.map_some]
    by_cases h9 : q0.parent = x
    · rw [if_pos (by rw [h9]; simp)] at i6
      rw [if_pos (by rw [i6, h9])]
      refine ⟨_, q0, rfl, i2, i3, i4, i5, ?_, ?_, h8.mul i8⟩
      · rw [h9, if_neg hnR.1]
      · dsimp only
        rw [i7, i6, h9, h7, mul_assoc]
    · have hne : q.parent ≠ x := by
        rw [i6]
        split
        · exact h9
        · rename_i hnm
          obtain ⟨Q', R', e', hm⟩ := t.split hyD hyr
          have hmem : q0.parent ∈ r :: Dt := by
            rw [← hq0, e', ← List.cons_append]; exact List.mem_append_left _ hm
          rw [e, ← List.cons_append, List.mem_append] at hmem
          have := h.carried _ (hmem.resolve_right hnm)
          intro e''
          exact hxQ (e'' ▸ (h.kept_sub _ this).1)
      rw [if_neg hne]
      refine ⟨q, q0, rfl, i2, i3, i4, i5, ?_, i7, i8⟩
      rw [i6]
      simp [List.mem_cons, h9]

/-- The merging loop from a state that satisfies the invariant. -/
theorem simplifyLoop_ok {Dt : List Str} (t : TreeOK U0 r Dt P car) : ∀ (R Qt K : List Str) (U : UMap),
    Dt = Qt ++ R → SimpInv U0 r P car (r :: Qt) R K U →
    ∃ U' K', simplifyLoop R U K = .ok (U', K') ∧ SimpInv U0 r P car (r :: Dt) [] K' U' := by
  intro R
  induction R with
  | nil =>
    intro Qt K U e h
    rw [List.append_nil] at e
    subst e
    exact ⟨U, K, rfl, h⟩
  | cons x R ih =>
    intro Qt K U e h
    have hxD : x ∈ Dt := by rw [e]; simp
    have hxr : x ≠ r := fun e' => (List.nodup_cons.1 t.nodup).1 (e' ▸ hxD)
    have e' : Dt = (Qt ++ [x]) ++ R := by rw [e]; simp
    obtain ⟨l, l0, h1, h2, h3, h4, -⟩ := h.rest x (by simp)
    have hj : (U0.joint x).type = l.rb.joint.type := by simp [UMap.joint, h2, h4]
    rw [simplifyLoop]
    simp only [UMap.at, h1, Out.ofOption, Out.bind]
    by_cases hu : l.rb.joint.type = .undefined
    · obtain ⟨l', p, p', k1, k2, k3, k4, k5⟩ := h.step_merge t e
        (t.rig.fixed x (List.mem_cons_of_mem _ hxD) hxr (by rw [hj]; exact hu))
      rw [h1] at k1
      cases k1
      simp only [hu, ne_eq, not_true, if_false, k2, k3, k4]
      exact ih _ _ _ e' k5
    · simp only [ne_eq, hu, not_false_eq_true, if_true]
      exact ih _ _ _ e' (h.step_keep t e
        (t.rig.moving x (List.mem_cons_of_mem _ hxD) hxr (by rw [hj]; exact hu)))

/-- What simplification does. -/
theorem simplify_ok {Dt : List Str} (t : TreeOK U0 r Dt P car) :
    ∃ U K, simplify U0 (r :: Dt) = .ok (U, K) ∧ SimpInv U0 r P car (r :: Dt) [] K U := by
  have hr : r ∈ r :: Dt := by simp
  obtain ⟨l, hl, hn⟩ := (t.good r hr).ex
  have hpar : l.parent = [] := by have := t.top; simpa [UMap.parent, hl] using this
  refine simplifyLoop_ok t Dt [] [r] U0 rfl ⟨?_, ?_, ⟨[], rfl, trivial⟩, ?_, ?_, ?_⟩
  · simp [t.rig.rootCar]
  · intro x hx; rw [List.mem_singleton] at hx; subst hx; rw [t.rig.rootCar]; simp
  · exact ⟨l, hl, hpar, by simp [UMap.mount, hl]⟩
  · intro x hx
    rw [List.mem_singleton] at hx
    subst hx
    exact ⟨l, hl, Carries.single (Q := []) (t.valid _ hr) (t.good _ hr) hl rfl rfl rfl t.rig.rootCar
      (by simp), fun h => absurd rfl h⟩
  · intro x hx
    obtain ⟨l, hl, hn⟩ := (t.good x (List.mem_cons_of_mem _ hx)).ex
    have hxr : x ≠ r := fun e' => (List.nodup_cons.1 t.nodup).1 (e' ▸ hx)
    have hxD := List.mem_cons_of_mem r hx
    have hpar : U0.parent x = l.parent := by simp [UMap.parent, hl]
    have hT : U0.mount x = l.rb.T := by simp [UMap.mount, hl]
    refine ⟨l, l, hl, hl, rfl, rfl, rfl, ?_, ?_, hT ▸ (t.good x hxD).valid⟩
    · split
      · rfl
      · rename_i hnm
        obtain ⟨Q', R', e', hm⟩ := t.split hxD hxr
        have hmem : l.parent ∈ r :: Dt := by
          rw [← hpar, e', ← List.cons_append]; exact List.mem_append_left _ hm
        rw [(List.mem_cons.1 hmem).resolve_right hnm, t.rig.rootCar]
    · rw [t.rig.pose x hxD hxr, hpar, hT]

end SpatialDyn
