import Verif.Lemmas.QuaternionTurn
import Verif.Props.Kinematics
import Verif.Props.ControlDefaults
import Verif.Props.Cache

/-!
# C131: orientations given and answered as quaternions

`Quat.toH` is the quaternion in Mathlib, so `q.toH * v.toH * star q.toH` is the rotation of `v` by the
unit quaternion `q` in the usual sense.
-/

namespace SpatialDyn
open Body
open scoped Quaternion

variable {E : Ext} {b : Body} {d : Bool}

@[simp] theorem Quat.toH_re (q : Quat) : q.toH.re = q.w := rfl
@[simp] theorem Quat.toH_imI (q : Quat) : q.toH.imI = q.x := rfl
@[simp] theorem Quat.toH_imJ (q : Quat) : q.toH.imJ = q.y := rfl
@[simp] theorem Quat.toH_imK (q : Quat) : q.toH.imK = q.z := rfl
@[simp] theorem Vec3.toH_re (v : Vec3) : v.toH.re = 0 := rfl
@[simp] theorem Vec3.toH_imI (v : Vec3) : v.toH.imI = v.x := rfl
@[simp] theorem Vec3.toH_imJ (v : Vec3) : v.toH.imJ = v.y := rfl
@[simp] theorem Vec3.toH_imK (v : Vec3) : v.toH.imK = v.z := rfl

theorem toRot_toH {q : Quat} (h : q.Unit) (v : Vec3) :
    (q.toRot.mulVec v).toH = q.toH * v.toH * star q.toH := by
  unfold Quat.Unit at h
  ext <;> simp [Quat.toRot, Mat3.mulVec]
  · ring
  · linear_combination -v.x * h
  · linear_combination -v.y * h
  · linear_combination -v.z * h

theorem toH_add (a b : Vec3) : (a + b).toH = a.toH + b.toH := by
  ext <;> simp

/-- A quaternion that is neither unit nor real stretches some vector. -/
theorem stretched {q : Quat} (hq : ¬ q.Unit) (hr : ¬ q.IsReal) :
    ∃ v : Vec3, (q.toRot.mulVec v).dot (q.toRot.mulVec v) ≠ v.dot v := by
  have hex : ∃ v : Vec3, 0 < ((⟨q.x, q.y, q.z⟩ : Vec3).cross v).dot ((⟨q.x, q.y, q.z⟩ : Vec3).cross v) := by
    by_contra hn
    push Not at hn
    refine hr ⟨?_, ?_, ?_⟩
    · have := hn ⟨0, 1, 0⟩
      simp only [Vec3.cross, Vec3.dot] at this
      nlinarith [sq_nonneg q.x, sq_nonneg q.z]
    · have := hn ⟨0, 0, 1⟩
      simp only [Vec3.cross, Vec3.dot] at this
      nlinarith [sq_nonneg q.x, sq_nonneg q.y]
    · have := hn ⟨1, 0, 0⟩
      simp only [Vec3.cross, Vec3.dot] at this
      nlinarith [sq_nonneg q.y, sq_nonneg q.z]
  obtain ⟨v, hv⟩ := hex
  refine ⟨v, fun e => hq ?_⟩
  rw [Quat.toRot_length] at e
  have h0 : 4 * (q.norm2 - 1) *
      ((⟨q.x, q.y, q.z⟩ : Vec3).cross v).dot ((⟨q.x, q.y, q.z⟩ : Vec3).cross v) = 0 := by linarith
  have hn : q.norm2 = 1 := by
    rcases mul_eq_zero.1 h0 with h | h
    · linarith
    · exact absurd h hv.ne'
  unfold Quat.norm2 at hn
  unfold Quat.Unit
  linear_combination hn

theorem toH_inj {a b : Vec3} (h : a.toH = b.toH) : a = b := by
  have h1 := congrArg (·.imI) h
  have h2 := congrArg (·.imJ) h
  have h3 := congrArg (·.imK) h
  exact Vec3.ext h1 h2 h3

/-- C131: after `set_T_to_parent(q, p)` with a unit quaternion the point `x` of the link is, at joint
position zero, at `q x q* + p` in the frame of the parent; after `set_T_base_to_world(q, p)` the point
`x` of the base is there in the world. -/
theorem C131_pose {q : Quat} (hq : q.Unit) (p x : Vec3) (r : RB) :
    ((r.setTToParentOri q p).T.app x).toH = q.toH * x.toH * star q.toH + p.toH ∧
    ((b.setBaseOri q p).T0.app x).toH = q.toH * x.toH * star q.toH + p.toH := by
  have : (q.toRot.mulVec x + p).toH = q.toH * x.toH * star q.toH + p.toH := by
    rw [toH_add, toRot_toH hq]
  exact ⟨this, this⟩

/-- C131: with unit quaternions both setters give legal poses, so everything proved about reachable
bodies applies. -/
theorem C131_legal (h : Reach E b d) {q : Quat} (hq : q.Unit) (p : Vec3) :
    (∀ (r : RB) (par : ℤ) (id : ℕ) (b' : Body),
      b.addRigidBody (r.setTToParentOri q p) par = .ok (id, b') → ∃ d', Reach E b' d') ∧
    (d = false → ∃ d', Reach E (b.setBaseOri q p) d') := by
  refine ⟨fun r par id b' e => ⟨_, h.step (b' := b') (.addRigidBody (r.setTToParentOri q p) par)
    (Quat.unit_rot hq) (by simp [Op.exec, Op.step, e, Out.map, Out.bind])⟩, fun hd => ⟨_, h.step (b' := b.setBaseOri q p) (.setBase ⟨q.toRot, p⟩) ⟨Quat.unit_rot hq, hd⟩ rfl⟩⟩

/-- C131: exactly the unit quaternions, and the real ones (which are taken for the identity), give rigid
poses. -/
theorem C131_rigid_iff (q : Quat) (p : Vec3) (r : RB) :
    (r.setTToParentOri q p).T.Valid ↔ q.Unit ∨ q.IsReal := by
  constructor
  · intro h
    have h : q.toRot.IsRot := h
    by_contra hn
    push Not at hn
    obtain ⟨v, hv⟩ := stretched hn.1 hn.2
    exact hv (h.dot v v)
  · rintro (h | ⟨h1, h2, h3⟩)
    · exact Quat.unit_rot h
    · show q.toRot.IsRot
      have : q.toRot = 1 := by ext <;> simp [Quat.toRot, h1, h2, h3]
      rw [this]
      exact Mat3.isRot_one

/-- C131: two unit quaternions give the same pose exactly when they are equal or opposite. -/
theorem C131_sign {q q' : Quat} (hq : q.Unit) (hq' : q'.Unit) (p : Vec3) (r : RB) :
    (r.setTToParentOri q p).T = (r.setTToParentOri q' p).T ↔ q = q' ∨ q = q'.opp := by
  constructor
  · intro h
    exact Quat.eq_or_opp hq hq' (Iso.ext_iff.1 h).1
  · rintro (rfl | rfl)
    · rfl
    · exact Iso.ext (Quat.opp_toRot q') rfl

theorem pose_new {r : RB} {par : ℤ} {id : ℕ} {b' : Body} (e : b.addRigidBody r par = .ok (id, b'))
    (ht : b.Tree) (u : ℕ → ℝ) : (par < 0 → b'.LinkPose u id (r.T * r.joint.type.Tjoint (u id))) ∧
      ∀ k : ℕ, par = k → ∀ X, b.LinkPose u k X → b'.LinkPose u id (X * (r.T * r.joint.type.Tjoint (u id))) := by
  have hrb := addRigidBody_rb e
  obtain ⟨rfl, h1, h2, -⟩ := addRigidBody_ok e
  have hn : b'.rb b.dof = { r with id := (b.dof : ℤ), idParent := par } := by rw [hrb, if_pos rfl]
  refine ⟨fun hp => ?_, fun k hk X hX => ?_⟩
  · have := LinkPose.root (b := b') (u := u) (i := b.dof) (by rw [hn]; exact hp)
    rwa [hn] at this
  · have lift : ∀ {k X}, b.LinkPose u k X → k < b.dof → b'.LinkPose u k X := by
      intro k X h
      induction h with
      | @root i hr =>
        intro hk
        have e := (hrb i).trans (if_neg hk.ne)
        have := LinkPose.root (b := b') (u := u) (by rw [e]; exact hr)
        rwa [e] at this
      | @link i p X hp _ ih =>
        intro hk
        have e := (hrb i).trans (if_neg hk.ne)
        have hlt := ht.parLt _ hk _ (par_eq_some.2 hp)
        have := LinkPose.link (b := b') (u := u) (by rw [e]; exact hp) (ih (hlt.trans hk))
        rwa [e] at this
    have := LinkPose.link (b := b') (u := u) (i := b.dof) (by rw [hn]; exact hk)
      (lift hX (by omega))
    rwa [hn] at this

/-- C131 fails for other quaternions: neither setter normalises or refuses, and a link given a pose with
a quaternion that is neither unit nor real is deformed: whatever body it is attached to, and at all joint
positions, there are two of its points whose distance in the world, as answered by
`Position(ab, q, link, offset)`, is not the distance they have in the link. -/
theorem C131_shape_violated (h : Reach E b d) {q : Quat} (hq : ¬ q.Unit) (hr : ¬ q.IsReal) (p : Vec3)
    (r : RB) {par : ℤ} {id : ℕ} {b' : Body}
    (e : b.addRigidBody (r.setTToParentOri q p) par = .ok (id, b')) (u : ℕ → ℝ) :
    ∃ x y X Y, b'.positionQ u id x = .ok X ∧ b'.positionQ u id y = .ok Y ∧ X.dist2 Y ≠ x.dist2 y := by
  have ht := h.inv.tree
  have ht' := ht.addRigidBody e
  obtain ⟨hid, h1, h2, hb'⟩ := addRigidBody_ok e
  have hid' : id < b'.dof := by rw [addRigidBody_dof e]; omega
  set Q : Iso := (r.setTToParentOri q p).T with hQ
  set J := r.joint.type.Tjoint (u id)
  have hJ : J.Valid := JType.Tjoint_valid _ _
  -- the pose is a rigid motion, the deformation, and a rigid motion
  obtain ⟨A, hA, hpose⟩ : ∃ A : Iso, A.Valid ∧ b'.LinkPose u id (A * (Q * J)) := by
    by_cases hp : par < 0
    · refine ⟨1, Mat3.isRot_one, ?_⟩
      rw [one_mul]
      exact (pose_new e ht u).1 hp
    · obtain ⟨k, rfl⟩ := Int.eq_ofNat_of_zero_le (not_lt.1 hp)
      have hk : k < b.dof := by exact_mod_cast h2
      obtain ⟨X, hX⟩ := linkPose_exists ht u k hk
      exact ⟨X, pose_valid h.inv.rigid.link ht hX hk, (pose_new e ht u).2 k rfl X hX⟩
  have hT0 : b'.T0.Valid := by rw [hb']; exact h.inv.rigid.base
  have hpos : ∀ x, b'.positionQ u id x = .ok ((b'.T0 * (A * (Q * J))).app x) := by
    intro x
    unfold Body.positionQ
    rw [Body.climbStart_ok (LinkIdx.index ⟨hid', .inl rfl⟩)]
    show Out.ok _ = _
    rw [hpose.climb ht' (fun T p => T.app p) (fun A B x => (Iso.mul_app A B x).symm) hid' _ hid',
      ← Iso.mul_app b'.T0]
  obtain ⟨v, hv⟩ := stretched hq hr
  refine ⟨J.R.T.mulVec v, 0, _, _, hpos _, hpos _, fun he => hv ?_⟩
  have hd : ∀ a b : Vec3, a.dist2 b = (a - b).dot (a - b) := fun a b => by
    simp only [Vec3.dist2, Vec3.dot, Vec3.sub_x, Vec3.sub_y, Vec3.sub_z]; ring
  rw [hd, hd, sub_zero, (Mat3.IsRot.T hJ).dot] at he
  rw [← he]
  have e1 : (b'.T0 * (A * (Q * J))).app (J.R.T.mulVec v) - (b'.T0 * (A * (Q * J))).app 0 =
      b'.T0.R.mulVec (A.R.mulVec (q.toRot.mulVec v)) := by
    unfold Iso.app
    rw [add_sub_add_right_eq_sub, Mat3.mulVec_zero, sub_zero]
    show (b'.T0.R * (A.R * (q.toRot * J.R))).mulVec _ = _
    rw [← Mat3.mulVec_mulVec, ← Mat3.mulVec_mulVec, ← Mat3.mulVec_mulVec, Mat3.IsRot.mulVec_T hJ]
  rw [e1, Mat3.IsRot.dot hT0, Mat3.IsRot.dot hA]

/-! ## The answers of `Orientation` -/

/-- The root and the divisor in the conversion of a matrix are defined and not zero, for every matrix. -/
theorem C131_defined (R : Mat3) : 0 < Quat.pivot R := Quat.pivot_pos R

/-- C131: on every reachable body `Orientation(link)` answers a unit quaternion, and it is the
orientation of the link: the point `x` of the link is where `Position` says, at `q x q*` from the origin
of the link. -/
theorem C131_orientation (h : Reach E b d) {i : ℤ} {k : ℕ} (hk : b.LinkIdx i k) :
    ∃ Q b', b.orientationQuat i = .ok (Q, b') ∧ Q.Unit ∧
      ∀ x X O, (b.position i x).map Prod.fst = .ok X → (b.position i 0).map Prod.fst = .ok O →
        X.toH = Q.toH * x.toH * star Q.toH + O.toH := by
  obtain ⟨X, hX⟩ := linkPose_exists h.inv.tree b.pos k hk.1
  have h1 := C17_orientation h hk hX
  have hv : (b.T0 * X).Valid := h.inv.rigid.base.mul (pose_valid h.inv.rigid.link h.inv.tree hX hk.1)
  have ht := Quat.ofRot_table hv
  unfold orientationQuat
  rcases ho : b.orientation i with r | _ | _
  · rw [ho] at h1
    have h1 : r.1 = (b.T0 * X).R := Out.ok.inj h1
    refine ⟨_, r.2, rfl, by rw [h1]; exact ht.unit, fun x Y O hY hO => ?_⟩
    rw [C17_position h hk hX] at hY hO
    rw [← Out.ok.inj hY, ← Out.ok.inj hO, h1, ← toRot_toH ht.unit, ht.toRot, ← toH_add]
    unfold Iso.app
    rw [Mat3.mulVec_zero, zero_add]
  · rw [ho] at h1; cases h1
  · rw [ho] at h1; cases h1

/-- C131: `Orientation(q, link)` answers what `Orientation(link)` answers after `set_q(q)`. -/
theorem C131_orientation_q (h : Reach E b d) {q : List ℝ} {b' : Body} (hq : b.setQ q = .ok b') {i : ℤ}
    {k : ℕ} (hk : b.LinkIdx i k) :
    b.orientationQuatQ (fun j => q.getD j 0) i = (b'.orientationQuat i).map Prod.fst := by
  have := (C17_variants_agree_partial h hq hk 0).2.1
  unfold orientationQuatQ orientationQuat
  rw [this]
  cases b'.orientation i <;> rfl

/-- C131: a link given an orientation by `set_T_to_parent` and just added (so that its joint is at zero)
is answered to have it, relative to its parent: the quaternion answered for the link is the one answered
for the parent times the one given, or its opposite.  For a link on the base the same holds with the
quaternion given to `set_T_base_to_world`. -/
theorem C131_round_trip (h : Reach E b d) {q : Quat} (hq : q.Unit) (p : Vec3) (r : RB) {par : ℤ} {id : ℕ}
    {b' : Body} (e : b.addRigidBody (r.setTToParentOri q p) par = .ok (id, b')) {P : Quat}
    (hP : 0 ≤ par ∧ (b.orientationQuat par).map Prod.fst = .ok P ∨ par = -1 ∧ P.Unit ∧ b.T0.R = P.toRot) :
    ∃ s, (b'.orientationQuat id).map Prod.fst = .ok s ∧ (s = P.mul q ∨ s = (P.mul q).opp) := by
  obtain ⟨d', h'⟩ := (C131_legal h hq p).1 r par id b' e
  have ht := h.inv.tree
  obtain ⟨hid, h1, h2, hb'⟩ := addRigidBody_ok e
  have hid' : id < b'.dof := by rw [addRigidBody_dof e]; omega
  have hT0 : b'.T0 = b.T0 := by rw [hb']
  have hz : b'.pos id = 0 := by
    rw [hb', hid]
    show (b.q ++ [0]).getD b.dof 0 = 0
    rw [getD_append_one, if_pos ht.lq.symm]
  have hpe : ∀ m < b.dof, b'.pos m = b.pos m := fun m hm => by
    rw [hb']
    show (b.q ++ [0]).getD m 0 = b.q.getD m 0
    rw [getD_append_one, if_neg (by rw [ht.lq]; omega)]
  have hz' : ∀ t : JType, t.Tjoint 0 = 1 := fun t => by
    cases t <;> simp [JType.Tjoint] <;> rfl
  -- the pose of the new link
  obtain ⟨A, hPA, hpose⟩ : ∃ A : Iso, (P.Unit ∧ P.toRot = (b.T0 * A).R) ∧
      b'.LinkPose b'.pos id (A * (r.setTToParentOri q p).T) := by
    have hnew := pose_new e ht b'.pos
    rw [hz, hz', mul_one] at hnew
    rcases hP with ⟨h0, hP⟩ | ⟨rfl, hu, hP⟩
    · obtain ⟨k, rfl⟩ := Int.eq_ofNat_of_zero_le h0
      have hk : k < b.dof := by exact_mod_cast h2
      obtain ⟨X, hX⟩ := linkPose_exists ht b.pos k hk
      have ho := C17_orientation h ⟨hk, .inl rfl⟩ hX
      have hv : (b.T0 * X).Valid :=
        h.inv.rigid.base.mul (pose_valid h.inv.rigid.link ht hX hk)
      have hQ := Quat.ofRot_table hv
      have hPe : P = Quat.ofRot (b.T0 * X).R := by
        unfold orientationQuat at hP
        rcases hoo : b.orientation (k : ℤ) with x | _ | _
        · rw [hoo] at ho hP
          have e1 : x.1 = _ := Out.ok.inj ho
          have e2 : Quat.ofRot x.1 = P := Out.ok.inj hP
          rw [← e2, e1]
        · rw [hoo] at ho; cases ho
        · rw [hoo] at ho; cases ho
      refine ⟨X, hPe ▸ ⟨hQ.unit, hQ.toRot⟩, hnew.2 k rfl X ?_⟩
      exact pose_congr ht hX hk fun m hm => hpe m (by omega)
    · refine ⟨1, ⟨hu, by rw [mul_one]; exact hP.symm⟩, ?_⟩
      rw [one_mul]
      exact hnew.1 (by norm_num)
  have hk : b'.LinkIdx id id := ⟨hid', .inl rfl⟩
  have ho := C17_orientation h' hk hpose
  have hR : (b'.T0 * (A * (r.setTToParentOri q p).T)).R = (P.mul q).toRot := by
    rw [hPA.1.toRot_mul hq, hPA.2, hT0, ← mul_assoc]
    rfl
  have hw : (P.mul q).Unit := hPA.1.mul hq
  have hT := Quat.ofRot_table (Quat.unit_rot hw)
  refine ⟨Quat.ofRot (P.mul q).toRot, ?_, Quat.eq_or_opp hT.unit hw hT.toRot⟩
  unfold orientationQuat
  rcases hoo : b'.orientation (id : ℤ) with x | _ | _
  · rw [hoo] at ho
    have e1 : x.1 = _ := Out.ok.inj ho
    show Out.ok (Quat.ofRot x.1) = _
    rw [e1, hR]
  · rw [hoo] at ho; cases ho
  · rw [hoo] at ho; cases ho

/-- C131 fails for continuity: the quaternion answered by `Orientation(q, link)` does not depend
continuously on the position of any turning joint of the path to the link: on every full turn it jumps
(to the opposite quaternion).  It does so on every reachable body. -/
theorem C131_continuous_violated (h : Reach E b d) {i : ℤ} {k : ℕ} (hk : b.LinkIdx i k) {j : ℕ}
    (hj : Anc b.par j k) (ht : (b.rb j).joint.type.Turns) (u : ℕ → ℝ) (a : ℝ) {f : ℝ → Quat}
    (hf : ∀ s, b.orientationQuatQ (Function.update u j s) i = .ok (f s)) :
    ¬ Quat.ContOn f (Set.Icc a (a + 2 * Real.pi)) := by
  intro hc
  obtain ⟨A, B, hA, hB, hs⟩ := pose_update h.inv.rigid.link h.inv.tree (u := u) hj hk.1
  have hR : ∀ s, f s = Quat.ofRot (b.T0.R * A.R * ((b.rb j).joint.type.Tjoint s).R * B.R) := fun s => by
    have h1 := hf s
    unfold orientationQuatQ at h1
    rw [C17_orientation_q h hk (hs s)] at h1
    have h2 : Quat.ofRot _ = f s := Out.ok.inj h1
    rw [← h2, ← mul_assoc, ← mul_assoc]
    rfl
  have hTA : (b.T0.R * A.R).IsRot := Mat3.IsRot.mul h.inv.rigid.base hA
  have hv : ∀ s, (b.T0.R * A.R * ((b.rb j).joint.type.Tjoint s).R * B.R).IsRot := fun s =>
    (hTA.mul (JType.Tjoint_valid _ s)).mul hB
  refine no_lift hTA hB ht (a := a) (f := f) (fun s => ?_) (fun s => ?_) hc ?_
  · rw [hR]; exact (Quat.ofRot_table (hv s)).unit
  · rw [hR]; exact (Quat.ofRot_table (hv s)).toRot
  · rw [hR, hR]
    congr 4
    cases hty : (b.rb j).joint.type <;> rw [hty] at ht <;> first | exact ht.elim | simp [JType.Tjoint]

/-- C131: `NearQuaternion` repairs this.  Of the two quaternions of an orientation it chooses the one on
the side of the reference; if the orientations are less than a half turn apart (the inner product is not
zero) it is the only unit quaternion of the same orientation with a positive product. -/
theorem C131_near {q r : Quat} (hq : q.Unit) :
    (q.near r).Unit ∧ (q.near r).toRot = q.toRot ∧ 0 ≤ (q.near r).dot r ∧
      (q.dot r ≠ 0 → ∀ p : Quat, p.Unit → p.toRot = q.toRot → 0 < p.dot r → p = q.near r) := by
  have hopp : q.opp.dot r = -q.dot r := by unfold Quat.dot Quat.opp; ring
  have hne : q.near r = if q.dot r < 0 then q.opp else q := by
    unfold Quat.near
    congr
  rw [hne]
  split
  · next hlt =>
    refine ⟨hq.opp, Quat.opp_toRot q, by rw [hopp]; linarith, fun _ p hp e h0 => ?_⟩
    rcases Quat.eq_or_opp hp hq e with rfl | rfl
    · linarith
    · rfl
  · next hge =>
    refine ⟨hq, rfl, not_lt.1 hge, fun hne0 p hp e h0 => ?_⟩
    rcases Quat.eq_or_opp hp hq e with rfl | rfl
    · rfl
    · rw [hopp] at h0
      linarith [not_lt.1 hge]

/-! ## The controllers with Eigen's quaternions -/

/-- The external functions of the controllers with Eigen's quaternions, and plain
proportional-derivative control. -/
noncomputable def ctlQuat : Ctl where
  Quat := Quat
  ofRot := Quat.ofRot
  ofXyzw x y z w := ⟨w, x, y, z⟩
  toRot := Quat.toRot
  mul := Quat.mul
  inv := Quat.inv
  near := Quat.near
  pd3 := ctl0.pd3
  pdQ q qd w g m := ctl0.pdQ q.toRot qd.toRot w g m
  pdN := ctl0.pdN

/-- C131: what the theorems about the controllers (C51, C63-C67, C81, C95, ...) assume of quaternions
holds of Eigen's: conversion from matrices, product, inverse and choice of sign. -/
theorem C131_controllers : ctlQuat.Law Quat.Unit where
  pd3_err := ctl0_law.pd3_err
  pd3_acc := ctl0_law.pd3_acc
  pdN_err := ctl0_law.pdN_err
  pdN_acc := ctl0_law.pdN_acc
  pdQ_err q qd := ctl0_law.pdQ_err q.toRot qd.toRot
  pdQ_acc q qd := ctl0_law.pdQ_acc q.toRot qd.toRot
  ori_zero q qd w g m hq hqd e := by
    have h := C131_near (r := qd) hq
    exact ctl0_law.ori_zero _ _ w g m (Quat.unit_rot h.1) (Quat.unit_rot hqd) (h.2.1.trans e)
  rot_unit R h := ⟨(Quat.ofRot_table h).unit, (Quat.ofRot_table h).toRot⟩
  mul_unit _ _ hp hq := ⟨hp.mul hq, hp.toRot_mul hq⟩
  inv_unit _ h := ⟨h.inv, h.toRot_inv⟩
  valid _ h := Quat.unit_rot h

/-! ## Witnesses -/

/-- A unit quaternion, and one that was not normalised. -/
noncomputable def qUnit : Quat := ⟨3 / 5, 0, 0, 4 / 5⟩
def qLong : Quat := ⟨1, 0, 0, 1⟩

theorem qUnit_unit : qUnit.Unit := by unfold Quat.Unit qUnit; norm_num
theorem qLong_long : ¬ qLong.Unit ∧ ¬ qLong.IsReal := by
  constructor
  · unfold Quat.Unit qLong; norm_num
  · rintro ⟨-, -, h⟩; simp [qLong] at h

/-- The hypotheses hold for `demo`, a link with either quaternion added below its last link, and the turn
of its first joint. -/
example : (∃ r, demo.addRigidBody (({} : RB).setTToParentOri qUnit 0) 2 = .ok r) ∧
    (∃ r, demo.addRigidBody (({} : RB).setTToParentOri qLong 0) 2 = .ok r) ∧
    Reach ext0 demo false ∧ demo.LinkIdx (-1) 2 ∧ Anc demo.par 0 2 ∧ (demo.rb 0).joint.type.Turns := by
  refine ⟨?_, ?_, demo_reach_clean ext0, ⟨by simp [demo, dof], .inr ⟨by simp [demo, dof], by norm_num⟩⟩,
    .step (p := 0) (by simp [demo, par, Body.rb, mkRB]) .refl, ?_⟩
  · simp [addRigidBody, demo]
  · simp [addRigidBody, demo]
  · show (mkJoint JType.rz).type.Turns
    trivial

end SpatialDyn
