import Verif.Lemmas.UrdfLoad
import Verif.Props.Document

/-!
# What a loaded description has in common with a body built through the interface
-/

namespace SpatialDyn

variable {X : UrdfExt} {path : Str} {rob : Robot X} {r x : Str} {P : Str → Iso} {car : Str → Str}
  {n : Named}

namespace Inertia

theorem symm_of_app {I : Inertia} (h : ∀ m k : Motion, m.dot (I.app k) = k.dot (I.app m)) :
    I.Icom.IsSymm := by
  have h1 := h ⟨0, ⟨1, 0, 0⟩⟩ ⟨0, ⟨0, 1, 0⟩⟩
  have h2 := h ⟨0, ⟨1, 0, 0⟩⟩ ⟨0, ⟨0, 0, 1⟩⟩
  have h3 := h ⟨0, ⟨0, 1, 0⟩⟩ ⟨0, ⟨0, 0, 1⟩⟩
  simp [Motion.dot, app, Mat3.mulVec, Vec3.cross] at h1 h2 h3
  show I.Icom.T = I.Icom
  ext <;> simp [Mat3.T] <;> linarith

theorem dot_sum (m : Motion) (l : List Force) : m.dot l.sum = (l.map fun f => m.dot f).sum := by
  induction l with
  | nil => simp [Motion.dot]
  | cons f l ih => rw [List.sum_cons, Motion.dot_add, ih, List.map_cons, List.sum_cons]

/-- A sum of symmetric inertias is symmetric. -/
theorem symm_of_sum {α : Type*} {I : Inertia} {l : List α} {f : α → Inertia}
    (h : ∀ v, I.app v = (l.map fun y => (f y).app v).sum) (hs : ∀ y ∈ l, (f y).Icom.IsSymm) :
    I.Icom.IsSymm := by
  refine symm_of_app fun m k => ?_
  rw [h, h, dot_sum, dot_sum, List.map_map, List.map_map]
  refine congrArg List.sum (List.map_congr_left fun y hy => ?_)
  exact dot_app_symm _ (hs y hy) m k

/-- A sum of physical inertias, one of them positive definite, is positive definite. -/
theorem pd_of_sum {α : Type*} {I : Inertia} {l : List α} {f : α → Inertia}
    (h : ∀ v, I.app v = (l.map fun y => (f y).app v).sum) (hs : ∀ y ∈ l, 0 ≤ (f y).mass)
    (hp : ∀ y ∈ l, (f y).Icom.PSD) {y : α} (hy : y ∈ l)
    (hd : ∀ v : Vec3, v ≠ 0 → 0 < v.dot ((f y).Icom.mulVec v)) (v : Vec3) (hv : v ≠ 0) :
    0 < v.dot (I.Icom.mulVec v) := by
  have e := I.dot_app_self ⟨-(v.cross I.com), v⟩
  have z : (-(v.cross I.com) + v.cross I.com) = 0 := by ext <;> simp
  simp only [z] at e
  rw [show (0 : Vec3).dot 0 = 0 by simp [Vec3.dot], mul_zero, zero_add] at e
  rw [← e, h, dot_sum, List.map_map]
  have hsq : ∀ w : Vec3, 0 ≤ w.dot w := fun w => by
    unfold Vec3.dot; nlinarith [mul_self_nonneg w.x, mul_self_nonneg w.y, mul_self_nonneg w.z]
  have hnn : ∀ z ∈ l, 0 ≤ (⟨-(v.cross I.com), v⟩ : Motion).dot ((f z).app ⟨-(v.cross I.com), v⟩) := by
    intro z hz
    rw [dot_app_self]
    exact add_nonneg (mul_nonneg (hs z hz) (hsq _)) (hp z hz _)
  have hpos : 0 < (⟨-(v.cross I.com), v⟩ : Motion).dot ((f y).app ⟨-(v.cross I.com), v⟩) := by
    rw [dot_app_self]
    exact add_pos_of_nonneg_of_pos (mul_nonneg (hs y hy) (hsq _)) (hd v hv)
  refine hpos.trans_le (List.single_le_sum (fun a ha => ?_) _ (List.mem_map.2 ⟨y, hy, rfl⟩))
  obtain ⟨z, hz, rfl⟩ := List.mem_map.1 ha
  exact hnn z hz

end Inertia

theorem URJoint.read_made (j : URJoint X) (h : j.Sound) : j.read.Made := by
  unfold URJoint.read
  split
  · exact Joint.Made.default
  · rename_i hk
    obtain ⟨h1, h2, h3, h4, h5, h6⟩ := h hk
    refine ⟨rfl, ?_, h2, h3, h6, h4, h5⟩
    dsimp only
    by_cases hc : j.kind = .continuous
    · rw [if_pos hc, if_pos hc]; simp [Dbl.Lt]
    · rw [if_neg hc, if_neg hc]; exact h1 hc

namespace Robot

theorem map_graphics_valid (h : rob.Sound) (hx : x ∈ rob.names) :
    ∀ g ∈ (rob.map path).graphics x, g.T.Valid := by
  obtain ⟨l, hl, rfl⟩ := List.mem_map.1 hx
  have := (readsAs (path := path) h).graphics l hl
  intro g hg
  obtain ⟨i, hi, rfl⟩ := List.getElem_of_mem hg
  have h2 := this.length_eq
  have h3 := (List.forall₂_iff_get.1 this).2 i (by omega) hi
  have := h3.pose
  simp only [List.get_eq_getElem] at this
  rw [this]
  exact originPose_valid _

theorem mem_carried {z y : Str} (hr : r ∈ rob.names) (h : y ∈ rob.carried r car z) :
    y ∈ rob.names ∧ rob.Below r y ∧ car y = z := by
  have := List.mem_filter.1 h
  exact ⟨this.1, by simpa using this.2⟩

theorem LoadedAs.proper (h : rob.Sound) (hrm : r ∈ rob.names) (hL : rob.Layout r P car)
    {car' : Str → Str} (hl : rob.LoadedAs r P car' (rob.map path).inertia (rob.map path).joint
      (rob.map path).graphics n) : n.Proper := by
  have hv : ∀ {y}, rob.Below r y → (P y).Valid := fun hy => layout_valid h hrm hL hy
  have hrv : (P r).Valid := hv ⟨0, .here⟩
  have hbelow : ∀ i < n.body.dof, rob.Below r (n.tags.getD i {}).name := fun i hi =>
    (hl.body i hi).below.1
  have hidx : ∀ rb ∈ n.body.rbs, ∃ i < n.body.dof, n.body.rb i = rb := by
    intro rb hrb
    obtain ⟨i, hi, rfl⟩ := List.getElem_of_mem hrb
    exact ⟨i, hi, by simp [Body.rb, hi]⟩
  refine ⟨hl.count, fun rb hrb => ?_, fun rb hrb => ?_, fun rb hrb => ?_, fun g hg => ?_,
    fun t ht g hg => ?_⟩
  · obtain ⟨i, hi, rfl⟩ := hidx rb hrb
    have hb := hl.body i hi
    obtain ⟨j, hj, e⟩ := below_joint h hrm hb.below.1 hb.below.2.1
    rw [hb.joint, ← e, map_joint h.toConsistent hj]
    exact j.read_made (h.joints j hj)
  · obtain ⟨i, hi, rfl⟩ := hidx rb hrb
    rw [(hl.body i hi).mass]
    refine List.sum_nonneg fun a ha => ?_
    obtain ⟨y, hy, rfl⟩ := List.mem_map.1 ha
    exact (map_good h.toConsistent (mem_carried hrm hy).1).mass.le
  · obtain ⟨i, hi, rfl⟩ := hidx rb hrb
    refine Inertia.symm_of_sum (hl.body i hi).inertia fun y hy => ?_
    exact Inertia.actI_symm _ (map_good h.toConsistent (mem_carried hrm hy).1).symm
  · obtain ⟨y, hy, hg⟩ := List.mem_flatMap.1 (hl.baseGraphics.mem_iff.1 hg)
    obtain ⟨g0, hg0, rfl⟩ := List.mem_map.1 hg
    obtain ⟨m1, m2, -⟩ := mem_carried hrm hy
    exact (hrv.inv.mul (hv m2)).mul (map_graphics_valid h m1 g0 hg0)
  · obtain ⟨i, hi, rfl⟩ := List.getElem_of_mem ht
    have hi' : i < n.body.dof := hl.count ▸ hi
    have e : n.tags.getD i {} = n.tags[i] := by simp [hi]
    have hb := hl.body i hi'
    have hgr := hb.graphics
    rw [e] at hgr hb
    obtain ⟨y, hy, hg⟩ := List.mem_flatMap.1 (hgr.mem_iff.1 hg)
    obtain ⟨g0, hg0, rfl⟩ := List.mem_map.1 hg
    obtain ⟨m1, m2, -⟩ := mem_carried hrm hy
    exact ((hv hb.below.1).inv.mul (hv m2)).mul (map_graphics_valid h m1 g0 hg0)

end Robot
end SpatialDyn
