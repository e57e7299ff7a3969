import Verif.Lemmas.Weld
import Verif.Props.UrdfModel

/-!
# Helper lemmas for C133: the links of a robot loaded with and without merging
-/

namespace SpatialDyn
open Finset Body

variable {X : UrdfExt} {path : Str} {rob : Robot X} {r x : Str} {E : Ext} {P : Str → Iso}
  {car car' : Str → Str} {n nw nb : Named} {d : Bool} {I : Str → Inertia} {J : Str → Joint}
  {G : Str → List Graphics}

/-- Name of link `i`. -/
def Named.nm (n : Named) (i : ℕ) : Str := (n.tags.getD i {}).name

/-- Index of the link with name `x`. -/
def Named.slot (n : Named) (x : Str) : Option ℕ :=
  if x ∈ n.tags.map Tag.name then some ((n.tags.map Tag.name).idxOf x) else none

namespace Robot.LoadedAs

theorem names_get (hl : rob.LoadedAs r P car' I J G n) {i : ℕ} (hi : i < n.body.dof) :
    (n.tags.map Tag.name)[i]'(by rw [List.length_map, hl.count]; exact hi) = n.nm i := by
  have : i < n.tags.length := hl.count ▸ hi
  simp [Named.nm, this]

theorem nm_below (hl : rob.LoadedAs r P car' I J G n) {i : ℕ} (hi : i < n.body.dof) :
    rob.Below r (n.nm i) ∧ n.nm i ≠ r ∧ car' (n.nm i) = n.nm i := (hl.body i hi).below

theorem slot_nm (hl : rob.LoadedAs r P car' I J G n) {i : ℕ} (hi : i < n.body.dof) :
    n.slot (n.nm i) = some i := by
  have hlen : i < (n.tags.map Tag.name).length := by rw [List.length_map, hl.count]; exact hi
  rw [← hl.names_get hi, Named.slot, if_pos (List.getElem_mem hlen), hl.distinct.idxOf_getElem]

theorem slot_some (hl : rob.LoadedAs r P car' I J G n) {i : ℕ} (h : n.slot x = some i) :
    i < n.body.dof ∧ n.nm i = x := by
  unfold Named.slot at h
  split at h
  · rename_i hx
    have h' := Option.some.inj h
    have hlt := List.idxOf_lt_length_of_mem hx
    have hi : i < n.body.dof := by rw [← hl.count, ← h']; simpa using hlt
    refine ⟨hi, ?_⟩
    rw [← hl.names_get hi]
    subst h'
    exact List.getElem_idxOf hlt
  · cases h

theorem slot_mem (hl : rob.LoadedAs r P car' I J G n) (hx : rob.Below r x ∧ x ≠ r ∧ car' x = x) :
    ∃ i, n.slot x = some i := by
  rw [Named.slot, if_pos ((hl.bodies x).2 hx)]
  exact ⟨_, rfl⟩

theorem slot_root (hl : rob.LoadedAs r P car' I J G n) : n.slot r = none := by
  rw [Named.slot, if_neg fun h => ((hl.bodies r).1 h).2.1 rfl]

theorem par_slot (hl : rob.LoadedAs r P car' I J G n) {i : ℕ} (hi : i < n.body.dof) :
    n.body.par i = n.slot (car' (rob.parent (n.nm i))) := by
  rcases (hl.body i hi).parent with ⟨h1, h2⟩ | ⟨j, hj, h1, h2⟩
  · show _ = n.slot (car' (rob.parent (n.tags.getD i {}).name))
    rw [h1, h2, hl.slot_root]
  · show _ = n.slot (car' (rob.parent (n.tags.getD i {}).name))
    rw [h1, ← h2]
    exact (hl.slot_nm (hj.trans hi)).symm

theorem rb_pose (hl : rob.LoadedAs r P car' I J G n) (ht : n.body.Tree) {i : ℕ} (hi : i < n.body.dof)
    (hv : (P (car' (rob.parent (n.nm i)))).Valid) :
    (n.body.rb i).T = (P (car' (rob.parent (n.nm i)))).inv * P (n.nm i) := by
  have h1 := freshTw_top ht hi
  rw [(hl.body i hi).pose] at h1
  have h2 : n.body.topTw (n.body.par i) = P (car' (rob.parent (n.nm i))) := by
    rcases (hl.body i hi).parent with ⟨e1, e2⟩ | ⟨j, hj, e1, e2⟩
    · rw [e2]
      show n.body.T0 = _
      rw [hl.base]
      exact congrArg P e1.symm
    · rw [e1]
      show n.body.freshTw j = _
      rw [(hl.body j (hj.trans hi)).pose, e2]
      rfl
  have h3 : n.body.freshTp i = (n.body.rb i).T := by
    unfold freshTp TpAt
    rw [hl.rest.q, show (List.replicate n.body.dof (0 : ℝ)).getD i 0 = 0 by
      simp [List.getD_eq_getElem?_getD, List.getElem?_replicate]; split <;> rfl]
    rw [Tjoint_zero, mul_one]
  show _ = _ * P (n.tags.getD i {}).name
  rw [h1, h2, h3, ← mul_assoc, hv.inv_mul, one_mul]

end Robot.LoadedAs

/-- A link below the root hangs on a link below the root. -/
theorem Robot.below_parent (hx : rob.Below r x) (hne : x ≠ r) : rob.Below r (rob.parent x) := by
  obtain ⟨k, hk⟩ := hx
  cases hk with
  | here => exact absurd rfl hne
  | down _ hu => exact ⟨_, hu⟩

/-- The one link that carries itself when nothing is merged. -/
theorem Robot.carried_id (h : rob.Sound) (hr : r ∈ rob.names) (hx : rob.Below r x) :
    rob.carried r id x = [x] := by
  classical
  refine List.perm_singleton.1 ((List.perm_ext_iff_of_nodup (h.names.filter _)
    (List.nodup_singleton x)).2 fun y => ?_)
  rw [List.mem_filter, List.mem_singleton]
  constructor
  · rintro ⟨-, h2⟩
    simpa using (of_decide_eq_true h2).2
  · rintro rfl
    exact ⟨Robot.below_mem hr hx, by simpa using hx⟩

/-- The momentum of a merged link is that of its parts. -/
theorem Robot.LoadedAs.parts_sum (h : rob.Sound) (hr : r ∈ rob.names) (hL : rob.Layout r P car)
    (hw : rob.LoadedAs r P id I J G nw) (hb : rob.LoadedAs r P car I J G nb) {i : ℕ}
    (hi : i < nb.body.dof) (v : Motion) :
    (nb.body.rb i).inertia.app v =
      ∑ k ∈ range nw.body.dof with nb.slot (car (nw.nm k)) = some i,
        ((P (car (nw.nm k))).inv * P (nw.nm k)).actF ((nw.body.rb k).inertia.app
          (((P (car (nw.nm k))).inv * P (nw.nm k)).inv.actM v)) := by
  classical
  obtain ⟨b1, b2, b3⟩ := (hb.nm_below (i := i) hi)
  have hv : ∀ {y}, rob.Below r y → (P y).Valid := fun hy => Robot.layout_valid h hr hL hy
  have hone : ∀ k < nw.body.dof, ∀ v, (nw.body.rb k).inertia.app v = (I (nw.nm k)).app v := by
    intro k hk v
    have hB := hw.body k hk
    have : (nw.body.rb k).inertia.app v = ((rob.carried r id (nw.nm k)).map fun y =>
      (((P (nw.nm k)).inv * P y).actI (I y)).app v).sum := hB.inertia v
    rw [Robot.carried_id h hr (hw.nm_below hk).1] at this
    simp only [List.map_cons, List.map_nil, List.sum_cons, List.sum_nil, add_zero] at this
    rw [this, (hv (hw.nm_below hk).1).inv_mul, Inertia.actI_app' _ Iso.valid_one]
    show Iso.actF 1 ((I (nw.nm k)).app (Iso.actM (Iso.inv 1) v)) = _
    have e1 : (Iso.inv 1) = 1 := by
      have := Iso.valid_one.inv_mul
      rwa [mul_one] at this
    rw [e1]
    simp
  rw [(hb.body i hi).inertia v]
  have hnd : (rob.carried r car (nb.nm i)).Nodup := h.names.filter _
  show ((rob.carried r car (nb.nm i)).map _).sum = _
  rw [← List.sum_toFinset _ hnd]
  symm
  refine sum_bij (fun k _ => nw.nm k) (fun k hk => ?_) (fun k hk k' hk' e => ?_) (fun y hy => ?_)
    (fun k hk => ?_)
  · obtain ⟨hk, hc⟩ := mem_filter.1 hk
    have hB := (hw.nm_below (i := k) (mem_range.1 hk)).1
    refine List.mem_toFinset.2 (List.mem_filter.2 ⟨Robot.below_mem hr hB, decide_eq_true ⟨hB, ?_⟩⟩)
    exact (hb.slot_some hc).2.symm
  · have h1 := hw.slot_nm (mem_range.1 (mem_filter.1 hk).1)
    have h2 := hw.slot_nm (mem_range.1 (mem_filter.1 hk').1)
    change nw.nm k = nw.nm k' at e
    rw [e, h2] at h1
    exact (Option.some.inj h1).symm
  · obtain ⟨-, h2, h3⟩ := Robot.mem_carried hr (List.mem_toFinset.1 hy)
    have hyr : y ≠ r := by
      rintro rfl
      exact b2 (h3.symm.trans hL.rootCar)
    obtain ⟨k, hk⟩ := hw.slot_mem ⟨h2, hyr, rfl⟩
    obtain ⟨k1, k2⟩ := hw.slot_some hk
    refine ⟨k, mem_filter.2 ⟨mem_range.2 k1, ?_⟩, k2⟩
    rw [k2, h3]
    exact hb.slot_nm hi
  · obtain ⟨hk, hc⟩ := mem_filter.1 hk
    have hB := (hw.nm_below (i := k) (mem_range.1 hk)).1
    have e := (hb.slot_some hc).2
    show _ = (((P (nb.nm i)).inv * P (nw.nm k)).actI (I (nw.nm k))).app v
    rw [Inertia.actI_app' _ ((hv b1).inv.mul (hv hB)), hone k (mem_range.1 hk), e]

/-- Loaded with merging the robot is the one loaded without, with the links below fixed joints merged. -/
theorem Robot.LoadedAs.welds (h : rob.Sound) (hr : rob.Root r) (hL : rob.Layout r P car)
    (hw : rob.LoadedAs r P id (rob.map path).inertia (rob.map path).joint (rob.map path).graphics nw)
    (hb : rob.LoadedAs r P car (rob.map path).inertia (rob.map path).joint (rob.map path).graphics nb)
    (htw : nw.body.Tree) (htb : nb.body.Tree) {w b : Body}
    (ew : w.rbs = nw.body.rbs) (eb : b.rbs = nb.body.rbs) (lw : ∀ k, w.load k = none)
    (lb : ∀ k, b.load k = none) (hg : b.g = w.g) (h0 : b.T0 = w.T0)
    (hq : ∀ i < b.dof, b.q.getD i 0 = w.q.getD ((nw.slot (nb.nm i)).getD 0) 0)
    (hdq : ∀ i < b.dof, b.dq.getD i 0 = w.dq.getD ((nw.slot (nb.nm i)).getD 0) 0) :
    Welds (fun i => (nw.slot (nb.nm i)).getD 0) (fun k => nb.slot (car (nw.nm k)))
      (fun k => (P (car (nw.nm k))).inv * P (nw.nm k)) w b := by
  have hrm : r ∈ rob.names := List.mem_of_find?_eq_some hr
  have hv : ∀ {y}, rob.Below r y → (P y).Valid := fun hy => Robot.layout_valid h hrm hL hy
  have hcb : ∀ {y}, rob.Below r y → rob.Below r (car y) := fun hy =>
    (Robot.carrier_below h hrm hL hy).1
  have dw : w.dof = nw.body.dof := by unfold Body.dof; rw [ew]
  have db : b.dof = nb.body.dof := by unfold Body.dof; rw [eb]
  have rw_ : ∀ i, w.rb i = nw.body.rb i := fun i => by unfold Body.rb; rw [ew]
  have rb_ : ∀ i, b.rb i = nb.body.rb i := fun i => by unfold Body.rb; rw [eb]
  have pw : ∀ i, w.par i = nw.body.par i := fun i => by unfold Body.par; rw [rw_]
  have pb : ∀ i, b.par i = nb.body.par i := fun i => by unfold Body.par; rw [rb_]
  have hf : ∀ i < nb.body.dof, ∃ k < nw.body.dof, nw.slot (nb.nm i) = some k ∧ nw.nm k = nb.nm i := by
    intro i hi
    obtain ⟨b1, b2, -⟩ := (hb.nm_below (i := i) hi)
    obtain ⟨k, hk⟩ := hw.slot_mem ⟨b1, b2, rfl⟩
    exact ⟨k, (hw.slot_some hk).1, hk, (hw.slot_some hk).2⟩
  -- pose of the parent of a link of `w` in the merged link it is part of
  have hseat : ∀ k < nw.body.dof,
      seat (fun k => (P (car (nw.nm k))).inv * P (nw.nm k)) w k =
        (P (car (rob.parent (nw.nm k)))).inv * P (rob.parent (nw.nm k)) := by
    intro k hk
    unfold seat
    rw [pw, hw.par_slot hk]
    cases e : nw.slot (id (rob.parent (nw.nm k))) with
    | some p =>
      simp only
      rw [(hw.slot_some e).2]
      rfl
    | none =>
      simp only
      obtain ⟨b1, b2, -⟩ := (hw.nm_below (i := k) hk)
      have : rob.parent (nw.nm k) = r := by
        by_contra hne
        obtain ⟨p, hp⟩ := hw.slot_mem ⟨Robot.below_parent b1 b2, hne, rfl⟩
        rw [id, hp] at e
        cases e
      rw [this, hL.rootCar, (hv ⟨0, .here⟩).inv_mul]
  have hbind : ∀ k < nw.body.dof, (w.par k).bind (fun k => nb.slot (car (nw.nm k))) =
      nb.slot (car (rob.parent (nw.nm k))) := by
    intro k hk
    rw [pw, hw.par_slot hk]
    cases e : nw.slot (id (rob.parent (nw.nm k))) with
    | some p =>
      show nb.slot (car (nw.nm p)) = _
      rw [(hw.slot_some e).2]
      rfl
    | none =>
      obtain ⟨b1, b2, -⟩ := (hw.nm_below (i := k) hk)
      have : rob.parent (nw.nm k) = r := by
        by_contra hne
        obtain ⟨p, hp⟩ := hw.slot_mem ⟨Robot.below_parent b1 b2, hne, rfl⟩
        rw [id, hp] at e
        cases e
      rw [this, hL.rootCar, hb.slot_root]
      rfl
  -- the links that are merged
  have hfix : ∀ k < nw.body.dof, (∀ i < b.dof, k ≠ (nw.slot (nb.nm i)).getD 0) →
      car (nw.nm k) = car (rob.parent (nw.nm k)) ∧ (nw.body.rb k).joint.type = .undefined ∧
        (nw.body.rb k).joint.subspace = 0 := by
    intro k hk hn
    obtain ⟨b1, b2, -⟩ := (hw.nm_below (i := k) hk)
    obtain ⟨j, hj, ej⟩ := Robot.below_joint h hrm b1 b2
    have ej' : j.child = nw.nm k := ej
    have hb1 : rob.Below r j.child := ej ▸ b1
    have hfixed : j.kind = .fixed := by
      by_contra hk2
      have hc := hL.moving j hj hb1 hk2
      obtain ⟨i, hi⟩ := hb.slot_mem ⟨hb1, ej ▸ b2, hc⟩
      obtain ⟨hi1, hi2⟩ := hb.slot_some hi
      refine hn i (db ▸ hi1) ?_
      rw [hi2, ej', hw.slot_nm hk]
      rfl
    refine ⟨?_, ?_⟩
    · rw [← ej', Robot.parent_of h.toConsistent hj]
      exact hL.fixed j hj hb1 hfixed
    · rw [show (nw.body.rb k).joint = (rob.map path).joint (nw.nm k) from (hw.body k hk).joint, ← ej,
        Robot.map_joint h.toConsistent hj]
      unfold URJoint.read
      rw [if_pos hfixed]
      exact ⟨rfl, rfl⟩
  have hT : ∀ k < nw.body.dof, (nw.body.rb k).T = (P (rob.parent (nw.nm k))).inv * P (nw.nm k) := by
    intro k hk
    obtain ⟨b1, b2, -⟩ := (hw.nm_below (i := k) hk)
    exact hw.rb_pose htw hk (hv (Robot.below_parent b1 b2))
  have hjoin : ∀ {y z : Iso}, z.Valid → ∀ u, y * z * (z.inv * u) = y * u := by
    intro y z hz u
    rw [mul_assoc, ← mul_assoc z, hz.mul_inv, one_mul]
  refine ⟨fun i hi => ?_, fun i hi => ?_, fun i hi => ?_, fun i hi => ?_, fun i hi => ?_,
    fun k hk hn => ?_, fun k hk hn => ?_, fun k hk hn => ?_, fun i hi v => ?_, hq, hdq, hg, h0⟩
  · obtain ⟨k, hk, e, -⟩ := hf i (db ▸ hi)
    rw [e, dw]
    exact hk
  · obtain ⟨k, hk, e, e2⟩ := hf i (db ▸ hi)
    obtain ⟨b1, b2, b3⟩ := (hb.nm_below (i := i) (db ▸ hi))
    have b3' : car (nb.nm i) = nb.nm i := b3
    rw [e]
    show nb.slot (car (nw.nm k)) = _ ∧ (P (car (nw.nm k))).inv * P (nw.nm k) = _
    rw [e2, b3', hb.slot_nm (db ▸ hi), (hv b1).inv_mul]
    exact ⟨rfl, rfl⟩
  · obtain ⟨k, hk, e, e2⟩ := hf i (db ▸ hi)
    rw [e, rb_, rw_, (hb.body i (db ▸ hi)).joint]
    show _ = (nw.body.rb k).joint
    rw [(hw.body k hk).joint]
    exact congrArg _ e2.symm
  · obtain ⟨k, hk, e, e2⟩ := hf i (db ▸ hi)
    rw [e, Option.getD_some, hbind k hk, pb, hb.par_slot (db ▸ hi), e2]
  · obtain ⟨k, hk, e, e2⟩ := hf i (db ▸ hi)
    obtain ⟨b1, b2, -⟩ := (hb.nm_below (i := i) (db ▸ hi))
    have hp := Robot.below_parent b1 b2
    rw [e, Option.getD_some, hseat k hk, rb_, rw_, hb.rb_pose htb (db ▸ hi) (hv (hcb hp)), hT k hk, e2,
      hjoin (hv hp)]
  · rw [rw_]
    exact (hfix k (dw ▸ hk) hn).2
  · rw [hbind k (dw ▸ hk), ← (hfix k (dw ▸ hk) hn).1]
  · obtain ⟨b1, b2, -⟩ := (hw.nm_below (i := k) (dw ▸ hk))
    have hp := Robot.below_parent b1 b2
    rw [hseat k (dw ▸ hk), rw_, hT k (dw ▸ hk), hjoin (hv hp), ← (hfix k (dw ▸ hk) hn).1]
  · have hlm : ∀ {b : Body}, (∀ k, b.load k = none) → ∀ k v,
        b.linkMomentum k v = (b.rb k).inertia.app v := by
      intro b hl k v
      unfold linkMomentum parts
      rw [hl]
      simp
    rw [hlm lb, rb_, Robot.LoadedAs.parts_sum h hrm hL hw hb (db ▸ hi) v, dw]
    exact sum_congr rfl fun k _ => by rw [hlm lw, rw_]

end SpatialDyn
