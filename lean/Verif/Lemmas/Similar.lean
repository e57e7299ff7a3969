import Verif.Spec.Similar
import Verif.Lemmas.Weld

/-!
# Helper lemmas for C134: closed formulas of a similar robot
-/

namespace SpatialDyn
open Finset Body

/-- Goes through the eight choices of signs. -/
local macro "turned " p:ident : tactic => `(tactic|
  (obtain ⟨ℓ, ⟨x, y, z⟩, hpos, hx, hy, hz⟩ := $p
   dsimp only at hx hy hz
   rcases hx with hx | hx <;> rcases hy with hy | hy <;> rcases hz with hz | hz <;>
     subst hx hy hz))

namespace Similarity
variable (φ : Similarity)

theorem hand_sq : φ.hand * φ.hand = 1 := by
  turned φ <;> norm_num [hand]

theorem gain_ne (t : JType) : φ.gain t ≠ 0 := by
  have h := φ.pos.ne'
  have hx : φ.s.x ≠ 0 := by rcases φ.sx with h | h <;> rw [h] <;> norm_num
  have hy : φ.s.y ≠ 0 := by rcases φ.sy with h | h <;> rw [h] <;> norm_num
  have hz : φ.s.z ≠ 0 := by rcases φ.sz with h | h <;> rw [h] <;> norm_num
  cases t <;> simp [gain, h, hx, hy, hz]

theorem pose_one : φ.pose 1 = 1 := by
  turned φ <;> ext <;> simp [pose, rot, vec, dir]

theorem pose_mul (A B : Iso) : φ.pose (A * B) = φ.pose A * φ.pose B := by
  turned φ <;> ext <;> simp [pose, rot, vec, dir, Mat3.mulVec, Mat3.mul_00, Mat3.mul_01, Mat3.mul_02,
    Mat3.mul_10, Mat3.mul_11, Mat3.mul_12, Mat3.mul_20, Mat3.mul_21, Mat3.mul_22] <;> ring

theorem pose_inv (A : Iso) : φ.pose A.inv = (φ.pose A).inv := by
  turned φ <;> ext <;> simp [pose, rot, vec, dir, Mat3.mulVec, Mat3.T] <;> ring

theorem pose_app (A : Iso) (v : Vec3) : (φ.pose A).app (φ.vec v) = φ.vec (A.app v) := by
  turned φ <;> ext <;> simp [pose, rot, vec, dir, Mat3.mulVec, Iso.app] <;> ring

theorem motion_add (a b : Motion) : φ.motion (a + b) = φ.motion a + φ.motion b := by
  ext <;> simp [motion, vec, dir] <;> ring

theorem motion_smul (c : ℝ) (a : Motion) : φ.motion (c • a) = c • φ.motion a := by
  ext <;> simp [motion, vec, dir] <;> ring

theorem motion_zero : φ.motion 0 = 0 := by ext <;> simp [motion, vec, dir]

theorem motion_sum {ι : Type*} (s : Finset ι) (F : ι → Motion) :
    φ.motion (∑ i ∈ s, F i) = ∑ i ∈ s, φ.motion (F i) := by
  classical
  induction s using Finset.induction_on with
  | empty => simp [motion_zero]
  | insert a s ha ih => rw [sum_insert ha, sum_insert ha, motion_add, ih]

theorem force_add (a b : Force) : φ.force (a + b) = φ.force a + φ.force b := by
  ext <;> simp [force, vec, dir] <;> ring

theorem force_zero : φ.force 0 = 0 := by ext <;> simp [force, vec, dir]

theorem actM (T : Iso) (m : Motion) : (φ.pose T).actM (φ.motion m) = φ.motion (T.actM m) := by
  turned φ <;> ext <;> simp [pose, rot, motion, vec, dir, hand, Iso.actM, Mat3.mulVec, Vec3.cross] <;>
    ring

theorem actF (T : Iso) (f : Force) : (φ.pose T).actF (φ.force f) = φ.force (T.actF f) := by
  turned φ <;> ext <;> simp [pose, rot, force, vec, dir, hand, Iso.actF, Mat3.mulVec, Vec3.cross] <;>
    ring

theorem app (I : Inertia) (m : Motion) : (φ.inertia I).app (φ.motion m) = φ.force (I.app m) := by
  turned φ <;> ext <;> simp [inertia, rot, motion, force, vec, dir, hand, Inertia.app, Mat3.mulVec,
    Vec3.cross] <;> ring

theorem dot (m : Motion) (f : Force) : (φ.motion m).dot (φ.force f) = φ.ℓ ^ 2 * m.dot f := by
  turned φ <;> simp [motion, force, vec, dir, hand, Motion.dot] <;> ring

theorem crossM (a b : Motion) : (φ.motion a).crossM (φ.motion b) = φ.motion (a.crossM b) := by
  turned φ <;> ext <;> simp [motion, vec, dir, hand, Motion.crossM] <;> ring

theorem crossF (a : Motion) (f : Force) : (φ.motion a).crossF (φ.force f) = φ.force (a.crossF f) := by
  turned φ <;> ext <;> simp [motion, force, vec, dir, hand, Motion.crossF] <;> ring

theorem atPoint (m : Motion) (v : Vec3) : (φ.motion m).atPoint (φ.vec v) = φ.motion (m.atPoint v) := by
  turned φ <;> ext <;> simp [motion, vec, dir, hand, Motion.atPoint, Vec3.cross] <;> ring

theorem subspace (t : JType) : φ.motion t.subspace = φ.gain t • t.subspace := by
  turned φ <;> cases t <;> ext <;> simp [motion, vec, dir, hand, gain, JType.subspace]

theorem Tjoint (t : JType) (q : ℝ) : t.Tjoint (φ.gain t * q) = φ.pose (t.Tjoint q) := by
  turned φ <;> cases t <;> ext <;> simp [pose, rot, vec, dir, gain, JType.Tjoint]

variable {φ} {E : Ext} {b b' : Body}

namespace Similar

theorem par_eq (h : φ.Similar b b') {i : ℕ} (hi : i < b.dof) : b'.par i = b.par i := by
  unfold Body.par
  rw [h.parent i hi]

theorem tw (h : φ.Similar b b') (ht : b.Tree) (ht' : b'.Tree) {i : ℕ} (hi : i < b.dof) :
    b'.freshTw i = φ.pose (b.freshTw i) := by
  induction i using Nat.strong_induction_on with
  | _ i ih =>
    have hp' : b'.freshTp i = φ.pose (b.freshTp i) := by
      unfold freshTp TpAt
      rw [h.q i hi, h.pose i hi, h.type i hi, joint, Tjoint, pose_mul]
    rw [freshTw_top ht hi, freshTw_top ht' (h.dof ▸ hi), h.par_eq hi, hp', pose_mul]
    cases hp : b.par i with
    | none => exact congrArg (· * φ.pose (b.freshTp i)) h.T0
    | some p =>
      have hlt := ht.parLt i hi p hp
      exact congrArg (· * φ.pose (b.freshTp i)) (ih p hlt (lt_trans hlt hi))

theorem jw (h : φ.Similar b b') (hb : Inv E b) (hb' : Inv E b') {k j : ℕ} (hk : k < b.dof)
    (hj : j < b.dof) : φ.joint b j • b'.fresh.Jw k j = φ.motion (b.fresh.Jw k j) := by
  classical
  have hax : φ.joint b j • b'.fresh.axis j = φ.motion (b.fresh.axis j) := by
    unfold Sys.axis
    rw [fresh_Tw hj, fresh_Tw (h.dof ▸ hj), h.tw hb.tree hb'.tree hj, ← actM]
    show φ.joint b j • (φ.pose (b.freshTw j)).actM (b'.rb j).joint.subspace =
      (φ.pose (b.freshTw j)).actM (φ.motion (b.rb j).joint.subspace)
    rw [h.axes j hj, h.axes' j (h.dof ▸ hj), h.type j hj, subspace, Iso.actM_smul]
    rfl
  unfold Sys.Jw
  have ha : Anc b'.fresh.par j k ↔ Anc b.fresh.par j k :=
    Anc.congr hb.wf.par_lt (fun i hi => h.par_eq hi) hk j
  by_cases hc : Anc b.fresh.par j k
  · rw [if_pos hc, if_pos (ha.2 hc), hax]
  · rw [if_neg hc, if_neg fun h1 => hc (ha.1 h1), smul_zero, motion_zero]

theorem iw (h : φ.Similar b b') (hb : Inv E b) (hb' : Inv E b') {k : ℕ} (hk : k < b.dof) (m : Motion) :
    b'.fresh.Iw k (φ.motion m) = φ.force (b.fresh.Iw k m) := by
  unfold Sys.Iw
  rw [fresh_Tw hk, fresh_Tw (h.dof ▸ hk), h.tw hb.tree hb'.tree hk,
    show b'.fresh.Itot k = φ.inertia (b.fresh.Itot k) from h.total k hk, ← pose_inv, actM, app, actF]

theorem v (h : φ.Similar b b') (hb : Inv E b) (hb' : Inv E b') {u u' : ℕ → ℝ}
    (hu : ∀ i < b.dof, u' i = φ.joint b i * u i) {k : ℕ} (hk : k < b.dof) :
    b'.fresh.V u' k = φ.motion (b.fresh.V u k) := by
  unfold Sys.V
  rw [motion_sum]
  show ∑ j ∈ range b'.dof, _ = ∑ j ∈ range b.dof, _
  rw [h.dof]
  refine sum_congr rfl fun j hj => ?_
  have hj := mem_range.1 hj
  rw [motion_smul, ← h.jw hb hb' hk hj, hu j hj, smul_smul, mul_comm]

theorem bias (h : φ.Similar b b') (hb : Inv E b) (hb' : Inv E b') {k : ℕ} (hk : k < b.dof) :
    b'.fresh.bias k = φ.motion (b.fresh.bias k) := by
  unfold Sys.bias
  rw [motion_sum]
  show ∑ j ∈ range b'.dof, _ = ∑ j ∈ range b.dof, _
  rw [h.dof]
  refine sum_congr rfl fun j hj => ?_
  have hj := mem_range.1 hj
  rw [motion_smul, ← crossM, ← h.jw hb hb' hk hj, ← h.v hb hb' (u := b.fresh.dq) (u' := b'.fresh.dq) h.dq hj,
    Motion.crossM_smul, smul_smul,
    show b'.fresh.dq j = φ.joint b j * b.fresh.dq j from h.dq j hj, mul_comm]

theorem genForce (h : φ.Similar b b') (hb : Inv E b) (hb' : Inv E b') {F F' : ℕ → Force}
    (hF : ∀ k < b.dof, F' k = φ.force (F k)) {i : ℕ} (hi : i < b.dof) :
    φ.joint b i * b'.fresh.genForce F' i = φ.ℓ ^ 2 * b.fresh.genForce F i := by
  unfold Sys.genForce
  rw [mul_sum, mul_sum]
  show ∑ j ∈ range b'.dof, _ = ∑ j ∈ range b.dof, _
  rw [h.dof]
  refine sum_congr rfl fun k hk => ?_
  have hk := mem_range.1 hk
  rw [← Motion.smul_dot, h.jw hb hb' hk hi, hF k hk, dot]

theorem mass (h : φ.Similar b b') (hb : Inv E b) (hb' : Inv E b') {i j : ℕ} (hi : i < b.dof)
    (hj : j < b.dof) :
    φ.joint b i * b'.fresh.massSpec i j * φ.joint b j = φ.ℓ ^ 2 * b.fresh.massSpec i j := by
  rw [Welds.mass_eq, Welds.mass_eq, mul_assoc, mul_comm _ (φ.joint b j)]
  have e : φ.joint b j * b'.fresh.genForce (fun k => b'.fresh.Iw k (b'.fresh.Jw k j)) i =
      b'.fresh.genForce (fun k => b'.fresh.Iw k (φ.joint b j • b'.fresh.Jw k j)) i := by
    unfold Sys.genForce
    rw [mul_sum]
    refine sum_congr rfl fun k _ => ?_
    simp only [Sys.Iw_smul, Motion.dot_smul]
  rw [e]
  exact h.genForce hb hb' (fun k hk => by rw [h.jw hb hb' hk hj, h.iw hb hb' hk]) hi

theorem coriolis (h : φ.Similar b b') (hb : Inv E b) (hb' : Inv E b') {i : ℕ} (hi : i < b.dof) :
    φ.joint b i * b'.fresh.coriolisSpec i = φ.ℓ ^ 2 * b.fresh.coriolisSpec i := by
  refine h.genForce hb hb' (fun k hk => ?_) hi
  rw [h.bias hb hb' hk, h.v hb hb' (u := b.fresh.dq) (u' := b'.fresh.dq) h.dq hk, h.iw hb hb' hk, h.iw hb hb' hk, crossF,
    force_add]

theorem gravity (h : φ.Similar b b') (hb : Inv E b) (hb' : Inv E b') {i : ℕ} (hi : i < b.dof) :
    φ.joint b i * b'.fresh.gravitySpec i = φ.ℓ ^ 2 * b.fresh.gravitySpec i := by
  refine h.genForce hb hb' (fun k hk => ?_) hi
  rw [← h.iw hb hb' hk]
  congr 1
  show -(⟨b'.g, 0⟩ : Motion) = φ.motion (-⟨b.g, 0⟩)
  rw [h.g]
  ext <;> simp [motion, vec, dir]

theorem ext (h : φ.Similar b b') (hb : Inv E b) (hb' : Inv E b') {F F' : FExt}
    (hF : ∀ k < b.dof, F' k = (F k).map φ.force) {i : ℕ} (hi : i < b.dof) :
    φ.joint b i * b'.fresh.extSpec F' i = φ.ℓ ^ 2 * b.fresh.extSpec F i := by
  unfold Sys.extSpec
  rw [mul_neg, mul_neg, h.genForce hb hb' (fun k hk => ?_) hi]
  rw [hF k hk]
  cases F k with
  | none => exact (force_zero _).symm
  | some x => rfl

theorem id (h : φ.Similar b b') (hb : Inv E b) (hb' : Inv E b') {u u' : ℕ → ℝ}
    (hu : ∀ i < b.dof, u' i = φ.joint b i * u i) {F F' : FExt}
    (hF : ∀ k < b.dof, F' k = (F k).map φ.force) (cc grav : Bool) {i : ℕ} (hi : i < b.dof) :
    φ.joint b i * b'.fresh.idSpec u' F' cc grav i = φ.ℓ ^ 2 * b.fresh.idSpec u F cc grav i := by
  unfold Sys.idSpec
  have e : φ.joint b i * ∑ j ∈ range b'.fresh.n, b'.fresh.massSpec i j * u' j =
      φ.ℓ ^ 2 * ∑ j ∈ range b.fresh.n, b.fresh.massSpec i j * u j := by
    rw [mul_sum, mul_sum]
    show ∑ j ∈ range b'.dof, _ = ∑ j ∈ range b.dof, _
    rw [h.dof]
    refine sum_congr rfl fun j hj => ?_
    rw [hu j (mem_range.1 hj), ← mul_assoc (φ.ℓ ^ 2), ← h.mass hb hb' hi (mem_range.1 hj)]
    ring
  have e1 := h.coriolis hb hb' hi
  have e2 := h.gravity hb hb' hi
  have e3 := h.ext hb hb' hF hi
  rw [mul_add, mul_add, mul_add, mul_add, mul_add, mul_add, e, e3]
  cases cc <;> cases grav <;> simp [e1, e2]

end Similar
end Similarity
end SpatialDyn
