import Verif.Spec.Quaternion
import Verif.Lemmas.Spatial

/-!
# Quaternions and rotation matrices
-/

namespace SpatialDyn
namespace Quat

theorem unit_rot {q : Quat} (h : q.Unit) : q.toRot.IsRot := by
  unfold Unit at h
  refine ⟨?_, ?_⟩
  · ext <;> simp [toRot, Mat3.T]
    · linear_combination (4 * q.y ^ 2 + 4 * q.z ^ 2) * h
    · linear_combination (-4 * q.x * q.y) * h
    · linear_combination (-4 * q.x * q.z) * h
    · linear_combination (-4 * q.x * q.y) * h
    · linear_combination (4 * q.x ^ 2 + 4 * q.z ^ 2) * h
    · linear_combination (-4 * q.y * q.z) * h
    · linear_combination (-4 * q.x * q.z) * h
    · linear_combination (-4 * q.y * q.z) * h
    · linear_combination (4 * q.x ^ 2 + 4 * q.y ^ 2) * h
  · simp only [toRot, Mat3.det]
    linear_combination (4 * (q.x ^ 2 + q.y ^ 2 + q.z ^ 2)) * h

/-- The squared length of a vector after the matrix of any quaternion. -/
theorem toRot_length (q : Quat) (v : Vec3) : (q.toRot.mulVec v).dot (q.toRot.mulVec v) =
    v.dot v + 4 * (q.norm2 - 1) * ((⟨q.x, q.y, q.z⟩ : Vec3).cross v).dot ((⟨q.x, q.y, q.z⟩ : Vec3).cross v) := by
  simp only [toRot, Mat3.mulVec, Vec3.dot, Vec3.cross, norm2]
  ring

/-- What a rotation matrix satisfies, entry by entry. -/
structure Eqs (R : Mat3) : Prop where
  c00 : R.m00 ^ 2 + R.m10 ^ 2 + R.m20 ^ 2 = 1
  c11 : R.m01 ^ 2 + R.m11 ^ 2 + R.m21 ^ 2 = 1
  c22 : R.m02 ^ 2 + R.m12 ^ 2 + R.m22 ^ 2 = 1
  c01 : R.m00 * R.m01 + R.m10 * R.m11 + R.m20 * R.m21 = 0
  c02 : R.m00 * R.m02 + R.m10 * R.m12 + R.m20 * R.m22 = 0
  c12 : R.m01 * R.m02 + R.m11 * R.m12 + R.m21 * R.m22 = 0
  r00 : R.m00 ^ 2 + R.m01 ^ 2 + R.m02 ^ 2 = 1
  r11 : R.m10 ^ 2 + R.m11 ^ 2 + R.m12 ^ 2 = 1
  r22 : R.m20 ^ 2 + R.m21 ^ 2 + R.m22 ^ 2 = 1
  r01 : R.m00 * R.m10 + R.m01 * R.m11 + R.m02 * R.m12 = 0
  r02 : R.m00 * R.m20 + R.m01 * R.m21 + R.m02 * R.m22 = 0
  r12 : R.m10 * R.m20 + R.m11 * R.m21 + R.m12 * R.m22 = 0
  k00 : R.m11 * R.m22 - R.m12 * R.m21 = R.m00
  k10 : R.m02 * R.m21 - R.m01 * R.m22 = R.m10
  k20 : R.m01 * R.m12 - R.m02 * R.m11 = R.m20
  k01 : R.m12 * R.m20 - R.m10 * R.m22 = R.m01
  k11 : R.m00 * R.m22 - R.m02 * R.m20 = R.m11
  k21 : R.m02 * R.m10 - R.m00 * R.m12 = R.m21
  k02 : R.m10 * R.m21 - R.m11 * R.m20 = R.m02
  k12 : R.m01 * R.m20 - R.m00 * R.m21 = R.m12
  k22 : R.m00 * R.m11 - R.m01 * R.m10 = R.m22

theorem eqs {R : Mat3} (h : R.IsRot) : Eqs R := by
  have h1 := h.1
  have h2 := h.mul_T
  have h3 := h.adj_eq
  rw [Mat3.ext_iff] at h1 h2 h3
  simp [Mat3.T, Mat3.adj] at h1 h2 h3
  obtain ⟨a0, a1, a2, -, a4, a5, -, -, a8⟩ := h1
  obtain ⟨b0, b1, b2, -, b4, b5, -, -, b8⟩ := h2
  obtain ⟨d0, d1, d2, d3, d4, d5, d6, d7, d8⟩ := h3
  constructor <;> first | linear_combination a0 | linear_combination a1 | linear_combination a2 |
    linear_combination a4 | linear_combination a5 | linear_combination a8 | linear_combination b0 |
    linear_combination b1 | linear_combination b2 | linear_combination b4 | linear_combination b5 |
    linear_combination b8 | linear_combination d0 | linear_combination d1 | linear_combination d2 |
    linear_combination d3 | linear_combination d4 | linear_combination d5 | linear_combination d6 |
    linear_combination d7 | linear_combination d8

/-- The number that is divided by is positive for every rotation. -/
theorem pivot_pos (R : Mat3) : 0 < pivot R := by
  unfold pivot
  split
  · linarith
  · split
    · split <;> linarith
    · split <;> linarith

theorem kt {p : ℝ} (hp : 0 < p) : (0.5 / Real.sqrt p) * (0.5 * Real.sqrt p) = 1 / 4 ∧
    (0.5 / Real.sqrt p) ^ 2 * p = 1 / 4 ∧ (0.5 * Real.sqrt p) ^ 2 = p / 4 := by
  have h := Real.sqrt_pos.2 hp
  have e := Real.sq_sqrt hp.le
  refine ⟨by field_simp; norm_num, ?_, by rw [mul_pow, e]; norm_num; ring⟩
  rw [div_pow, e]
  field_simp
  norm_num

variable {R : Mat3}

theorem Eqs.wx (h : Eqs R) : (R.m21 - R.m12) ^ 2 =
    (1 + R.m00 + R.m11 + R.m22) * (1 + R.m00 - R.m11 - R.m22) := by
  linear_combination h.c11 + h.c22 + (-1) * h.r00 + (2) * h.k00

theorem Eqs.wy (h : Eqs R) : (R.m02 - R.m20) ^ 2 =
    (1 + R.m00 + R.m11 + R.m22) * (1 - R.m00 + R.m11 - R.m22) := by
  linear_combination h.c00 + h.c22 + (-1) * h.r11 + (2) * h.k11

theorem Eqs.wz (h : Eqs R) : (R.m10 - R.m01) ^ 2 =
    (1 + R.m00 + R.m11 + R.m22) * (1 - R.m00 - R.m11 + R.m22) := by
  linear_combination (-1) * h.c22 + h.r00 + h.r11 + (2) * h.k22

theorem Eqs.xy (h : Eqs R) : (R.m10 + R.m01) ^ 2 =
    (1 + R.m00 - R.m11 - R.m22) * (1 - R.m00 + R.m11 - R.m22) := by
  linear_combination (-1) * h.c22 + h.r00 + h.r11 + (-2) * h.k22

theorem Eqs.xz (h : Eqs R) : (R.m20 + R.m02) ^ 2 =
    (1 + R.m00 - R.m11 - R.m22) * (1 - R.m00 - R.m11 + R.m22) := by
  linear_combination h.c00 + h.c22 + (-1) * h.r11 + (-2) * h.k11

theorem Eqs.yz (h : Eqs R) : (R.m21 + R.m12) ^ 2 =
    (1 - R.m00 + R.m11 - R.m22) * (1 - R.m00 - R.m11 + R.m22) := by
  linear_combination h.c11 + h.c22 + (-1) * h.r00 + (-2) * h.k00

theorem Eqs.w_xy (h : Eqs R) : (R.m21 - R.m12) * (R.m02 - R.m20) =
    (1 + R.m00 + R.m11 + R.m22) * (R.m10 + R.m01) := by
  linear_combination (-1) * h.c01 + (-1) * h.r01 + h.k10 + h.k01

theorem Eqs.w_xz (h : Eqs R) : (R.m21 - R.m12) * (R.m10 - R.m01) =
    (1 + R.m00 + R.m11 + R.m22) * (R.m20 + R.m02) := by
  linear_combination (-1) * h.c02 + (-1) * h.r02 + h.k20 + h.k02

theorem Eqs.w_yz (h : Eqs R) : (R.m02 - R.m20) * (R.m10 - R.m01) =
    (1 + R.m00 + R.m11 + R.m22) * (R.m21 + R.m12) := by
  linear_combination (-1) * h.c12 + (-1) * h.r12 + h.k21 + h.k12

theorem Eqs.x_wy (h : Eqs R) : (R.m21 - R.m12) * (R.m10 + R.m01) =
    (1 + R.m00 - R.m11 - R.m22) * (R.m02 - R.m20) := by
  linear_combination (-1) * h.c02 + h.r02 + (-1) * h.k20 + h.k02

theorem Eqs.x_wz (h : Eqs R) : (R.m21 - R.m12) * (R.m20 + R.m02) =
    (1 + R.m00 - R.m11 - R.m22) * (R.m10 - R.m01) := by
  linear_combination h.c01 + (-1) * h.r01 + h.k10 + (-1) * h.k01

theorem Eqs.x_yz (h : Eqs R) : (R.m10 + R.m01) * (R.m20 + R.m02) =
    (1 + R.m00 - R.m11 - R.m22) * (R.m21 + R.m12) := by
  linear_combination h.c12 + h.r12 + h.k21 + h.k12

theorem Eqs.y_wx (h : Eqs R) : (R.m02 - R.m20) * (R.m10 + R.m01) =
    (1 - R.m00 + R.m11 - R.m22) * (R.m21 - R.m12) := by
  linear_combination h.c12 + (-1) * h.r12 + h.k21 + (-1) * h.k12

theorem Eqs.y_wz (h : Eqs R) : (R.m02 - R.m20) * (R.m21 + R.m12) =
    (1 - R.m00 + R.m11 - R.m22) * (R.m10 - R.m01) := by
  linear_combination (-1) * h.c01 + h.r01 + h.k10 + (-1) * h.k01

theorem Eqs.y_xz (h : Eqs R) : (R.m10 + R.m01) * (R.m21 + R.m12) =
    (1 - R.m00 + R.m11 - R.m22) * (R.m20 + R.m02) := by
  linear_combination h.c02 + h.r02 + h.k20 + h.k02

theorem Eqs.z_wx (h : Eqs R) : (R.m10 - R.m01) * (R.m20 + R.m02) =
    (1 - R.m00 - R.m11 + R.m22) * (R.m21 - R.m12) := by
  linear_combination (-1) * h.c12 + h.r12 + h.k21 + (-1) * h.k12

theorem Eqs.z_wy (h : Eqs R) : (R.m10 - R.m01) * (R.m21 + R.m12) =
    (1 - R.m00 - R.m11 + R.m22) * (R.m02 - R.m20) := by
  linear_combination h.c02 + (-1) * h.r02 + (-1) * h.k20 + h.k02

theorem Eqs.z_xy (h : Eqs R) : (R.m20 + R.m02) * (R.m21 + R.m12) =
    (1 - R.m00 - R.m11 + R.m22) * (R.m10 + R.m01) := by
  linear_combination h.c01 + h.r01 + h.k10 + h.k01


/-- The products of the entries of a quaternion of `R`. -/
structure Table (R : Mat3) (q : Quat) : Prop where
  ww : 4 * (q.w * q.w) = 1 + R.m00 + R.m11 + R.m22
  xx : 4 * (q.x * q.x) = 1 + R.m00 - R.m11 - R.m22
  yy : 4 * (q.y * q.y) = 1 - R.m00 + R.m11 - R.m22
  zz : 4 * (q.z * q.z) = 1 - R.m00 - R.m11 + R.m22
  wx : 4 * (q.w * q.x) = R.m21 - R.m12
  wy : 4 * (q.w * q.y) = R.m02 - R.m20
  wz : 4 * (q.w * q.z) = R.m10 - R.m01
  xy : 4 * (q.x * q.y) = R.m10 + R.m01
  xz : 4 * (q.x * q.z) = R.m20 + R.m02
  yz : 4 * (q.y * q.z) = R.m21 + R.m12

theorem Table.unit {q : Quat} (h : Table R q) : q.Unit := by
  unfold Unit
  linear_combination (1 / 4) * h.ww + (1 / 4) * h.xx + (1 / 4) * h.yy + (1 / 4) * h.zz

theorem Table.toRot {q : Quat} (h : Table R q) : q.toRot = R := by
  ext <;> simp only [Quat.toRot]
  · linear_combination -(1 / 2) * h.yy - (1 / 2) * h.zz
  · linear_combination (1 / 2) * h.xy - (1 / 2) * h.wz
  · linear_combination (1 / 2) * h.xz + (1 / 2) * h.wy
  · linear_combination (1 / 2) * h.xy + (1 / 2) * h.wz
  · linear_combination -(1 / 2) * h.xx - (1 / 2) * h.zz
  · linear_combination (1 / 2) * h.yz - (1 / 2) * h.wx
  · linear_combination (1 / 2) * h.xz - (1 / 2) * h.wy
  · linear_combination (1 / 2) * h.yz + (1 / 2) * h.wx
  · linear_combination -(1 / 2) * h.xx - (1 / 2) * h.yy

/-- A unit quaternion has the products its matrix says. -/
theorem table_of {q : Quat} (h : q.Unit) : Table q.toRot q := by
  unfold Unit at h
  constructor <;> simp only [Quat.toRot] <;>
    first | ring1 | linear_combination 4 * h | linear_combination h | linear_combination -h

theorem ofRot_table (h : R.IsRot) : Table R (ofRot R) := by
  have e := eqs h
  obtain ⟨h1, h2, h3⟩ := kt (pivot_pos R)
  unfold ofRot
  simp only
  generalize 0.5 / Real.sqrt (pivot R) = k at h1 h2 ⊢
  generalize 0.5 * Real.sqrt (pivot R) = s at h1 h3 ⊢
  unfold pivot at h2 h3
  split_ifs at h2 h3 ⊢
  · constructor <;> simp only
    · linear_combination 4 * h3
    · linear_combination 4 * k ^ 2 * e.wx + 4 * (1 + R.m00 - R.m11 - R.m22) * h2
    · linear_combination 4 * k ^ 2 * e.wy + 4 * (1 - R.m00 + R.m11 - R.m22) * h2
    · linear_combination 4 * k ^ 2 * e.wz + 4 * (1 - R.m00 - R.m11 + R.m22) * h2
    · linear_combination 4 * (R.m21 - R.m12) * h1
    · linear_combination 4 * (R.m02 - R.m20) * h1
    · linear_combination 4 * (R.m10 - R.m01) * h1
    · linear_combination 4 * k ^ 2 * e.w_xy + 4 * (R.m10 + R.m01) * h2
    · linear_combination 4 * k ^ 2 * e.w_xz + 4 * (R.m20 + R.m02) * h2
    · linear_combination 4 * k ^ 2 * e.w_yz + 4 * (R.m21 + R.m12) * h2
  · constructor <;> simp only
    · linear_combination 4 * k ^ 2 * e.wz + 4 * (1 + R.m00 + R.m11 + R.m22) * h2
    · linear_combination 4 * k ^ 2 * e.xz + 4 * (1 + R.m00 - R.m11 - R.m22) * h2
    · linear_combination 4 * k ^ 2 * e.yz + 4 * (1 - R.m00 + R.m11 - R.m22) * h2
    · linear_combination 4 * h3
    · linear_combination 4 * k ^ 2 * e.z_wx + 4 * (R.m21 - R.m12) * h2
    · linear_combination 4 * k ^ 2 * e.z_wy + 4 * (R.m02 - R.m20) * h2
    · linear_combination 4 * (R.m10 - R.m01) * h1
    · linear_combination 4 * k ^ 2 * e.z_xy + 4 * (R.m10 + R.m01) * h2
    · linear_combination 4 * (R.m20 + R.m02) * h1
    · linear_combination 4 * (R.m21 + R.m12) * h1
  · constructor <;> simp only
    · linear_combination 4 * k ^ 2 * e.wy + 4 * (1 + R.m00 + R.m11 + R.m22) * h2
    · linear_combination 4 * k ^ 2 * e.xy + 4 * (1 + R.m00 - R.m11 - R.m22) * h2
    · linear_combination 4 * h3
    · linear_combination 4 * k ^ 2 * e.yz + 4 * (1 - R.m00 - R.m11 + R.m22) * h2
    · linear_combination 4 * k ^ 2 * e.y_wx + 4 * (R.m21 - R.m12) * h2
    · linear_combination 4 * (R.m02 - R.m20) * h1
    · linear_combination 4 * k ^ 2 * e.y_wz + 4 * (R.m10 - R.m01) * h2
    · linear_combination 4 * (R.m10 + R.m01) * h1
    · linear_combination 4 * k ^ 2 * e.y_xz + 4 * (R.m20 + R.m02) * h2
    · linear_combination 4 * (R.m21 + R.m12) * h1
  · constructor <;> simp only
    · linear_combination 4 * k ^ 2 * e.wz + 4 * (1 + R.m00 + R.m11 + R.m22) * h2
    · linear_combination 4 * k ^ 2 * e.xz + 4 * (1 + R.m00 - R.m11 - R.m22) * h2
    · linear_combination 4 * k ^ 2 * e.yz + 4 * (1 - R.m00 + R.m11 - R.m22) * h2
    · linear_combination 4 * h3
    · linear_combination 4 * k ^ 2 * e.z_wx + 4 * (R.m21 - R.m12) * h2
    · linear_combination 4 * k ^ 2 * e.z_wy + 4 * (R.m02 - R.m20) * h2
    · linear_combination 4 * (R.m10 - R.m01) * h1
    · linear_combination 4 * k ^ 2 * e.z_xy + 4 * (R.m10 + R.m01) * h2
    · linear_combination 4 * (R.m20 + R.m02) * h1
    · linear_combination 4 * (R.m21 + R.m12) * h1
  · constructor <;> simp only
    · linear_combination 4 * k ^ 2 * e.wx + 4 * (1 + R.m00 + R.m11 + R.m22) * h2
    · linear_combination 4 * h3
    · linear_combination 4 * k ^ 2 * e.xy + 4 * (1 - R.m00 + R.m11 - R.m22) * h2
    · linear_combination 4 * k ^ 2 * e.xz + 4 * (1 - R.m00 - R.m11 + R.m22) * h2
    · linear_combination 4 * (R.m21 - R.m12) * h1
    · linear_combination 4 * k ^ 2 * e.x_wy + 4 * (R.m02 - R.m20) * h2
    · linear_combination 4 * k ^ 2 * e.x_wz + 4 * (R.m10 - R.m01) * h2
    · linear_combination 4 * (R.m10 + R.m01) * h1
    · linear_combination 4 * (R.m20 + R.m02) * h1
    · linear_combination 4 * k ^ 2 * e.x_yz + 4 * (R.m21 + R.m12) * h2

/-- The homogeneous form of the matrix. -/
def hom (q : Quat) : Mat3 where
  m00 := q.w ^ 2 + q.x ^ 2 - q.y ^ 2 - q.z ^ 2
  m01 := 2 * q.y * q.x - 2 * q.z * q.w
  m02 := 2 * q.z * q.x + 2 * q.y * q.w
  m10 := 2 * q.y * q.x + 2 * q.z * q.w
  m11 := q.w ^ 2 - q.x ^ 2 + q.y ^ 2 - q.z ^ 2
  m12 := 2 * q.z * q.y - 2 * q.x * q.w
  m20 := 2 * q.z * q.x - 2 * q.y * q.w
  m21 := 2 * q.z * q.y + 2 * q.x * q.w
  m22 := q.w ^ 2 - q.x ^ 2 - q.y ^ 2 + q.z ^ 2

theorem Unit.hom {q : Quat} (h : q.Unit) : q.toRot = q.hom := by
  unfold Unit at h
  ext <;> simp only [Quat.toRot, Quat.hom]
  · linear_combination -h
  · linear_combination -h
  · linear_combination -h

theorem hom_mul (a b : Quat) : (a.mul b).hom = a.hom * b.hom := by
  ext <;> simp [Quat.hom, Quat.mul] <;> ring

theorem Unit.mul {a b : Quat} (ha : a.Unit) (hb : b.Unit) : (a.mul b).Unit := by
  unfold Unit at *
  have : (a.mul b).w ^ 2 + (a.mul b).x ^ 2 + (a.mul b).y ^ 2 + (a.mul b).z ^ 2 =
      (a.w ^ 2 + a.x ^ 2 + a.y ^ 2 + a.z ^ 2) * (b.w ^ 2 + b.x ^ 2 + b.y ^ 2 + b.z ^ 2) := by
    simp only [Quat.mul]; ring
  rw [this, ha, hb, one_mul]

theorem Unit.toRot_mul {a b : Quat} (ha : a.Unit) (hb : b.Unit) :
    (a.mul b).toRot = a.toRot * b.toRot := by
  rw [(ha.mul hb).hom, ha.hom, hb.hom, hom_mul]

theorem Unit.norm2 {q : Quat} (h : q.Unit) : q.norm2 = 1 := by
  unfold Unit at h
  unfold Quat.norm2
  linear_combination h

theorem Unit.inv_eq {q : Quat} (h : q.Unit) : q.inv = ⟨q.w, -q.x, -q.y, -q.z⟩ := by
  unfold Quat.inv
  rw [h.norm2, if_pos one_pos]
  simp

theorem Unit.inv {q : Quat} (h : q.Unit) : q.inv.Unit := by
  rw [h.inv_eq]
  unfold Unit at *
  linear_combination h

theorem Unit.toRot_inv {q : Quat} (h : q.Unit) : q.inv.toRot = q.toRot.T := by
  rw [h.inv_eq]
  ext <;> simp [Quat.toRot, Mat3.T] <;> ring

theorem opp_toRot (q : Quat) : q.opp.toRot = q.toRot := by
  ext <;> simp [Quat.toRot, Quat.opp]

theorem Unit.opp {q : Quat} (h : q.Unit) : q.opp.Unit := by
  unfold Unit Quat.opp at *
  linear_combination h

/-- Two unit quaternions with the same matrix are equal or opposite. -/
theorem eq_or_opp {a b : Quat} (ha : a.Unit) (hb : b.Unit) (e : a.toRot = b.toRot) :
    a = b ∨ a = b.opp := by
  have t1 := table_of ha
  have t2 := table_of hb
  rw [e] at t1
  -- the inner product of the two is one or minus one
  have hd : a.dot b ^ 2 = 1 := by
    unfold Unit at ha hb
    unfold Quat.dot
    have e1 : a.w * a.w = b.w * b.w := by linarith [t1.ww, t2.ww]
    have e2 : a.x * a.x = b.x * b.x := by linarith [t1.xx, t2.xx]
    have e3 : a.y * a.y = b.y * b.y := by linarith [t1.yy, t2.yy]
    have e4 : a.z * a.z = b.z * b.z := by linarith [t1.zz, t2.zz]
    have e5 : a.w * a.x = b.w * b.x := by linarith [t1.wx, t2.wx]
    have e6 : a.w * a.y = b.w * b.y := by linarith [t1.wy, t2.wy]
    have e7 : a.w * a.z = b.w * b.z := by linarith [t1.wz, t2.wz]
    have e8 : a.x * a.y = b.x * b.y := by linarith [t1.xy, t2.xy]
    have e9 : a.x * a.z = b.x * b.z := by linarith [t1.xz, t2.xz]
    have e0 : a.y * a.z = b.y * b.z := by linarith [t1.yz, t2.yz]
    linear_combination b.w ^ 2 * e1 + b.x ^ 2 * e2 + b.y ^ 2 * e3 + b.z ^ 2 * e4 +
      2 * b.w * b.x * e5 + 2 * b.w * b.y * e6 + 2 * b.w * b.z * e7 + 2 * b.x * b.y * e8 +
      2 * b.x * b.z * e9 + 2 * b.y * b.z * e0 +
      (b.w ^ 2 + b.x ^ 2 + b.y ^ 2 + b.z ^ 2 + 1) * hb
  unfold Unit at ha hb
  unfold Quat.dot at hd
  have key : ∀ c : ℝ, c = 1 ∨ c = -1 → a.w * b.w + a.x * b.x + a.y * b.y + a.z * b.z = c →
      a.w = c * b.w ∧ a.x = c * b.x ∧ a.y = c * b.y ∧ a.z = c * b.z := by
    intro c hc h
    have hc2 : c ^ 2 = 1 := by rcases hc with rfl | rfl <;> norm_num
    have hz : (a.w - c * b.w) ^ 2 + (a.x - c * b.x) ^ 2 + (a.y - c * b.y) ^ 2 +
        (a.z - c * b.z) ^ 2 = 0 := by
      linear_combination ha + c ^ 2 * hb - 2 * c * h - hc2
    refine ⟨?_, ?_, ?_, ?_⟩ <;>
      nlinarith [sq_nonneg (a.w - c * b.w), sq_nonneg (a.x - c * b.x), sq_nonneg (a.y - c * b.y),
        sq_nonneg (a.z - c * b.z)]
  rw [sq] at hd
  rcases mul_self_eq_one_iff.1 hd with h | h
  · obtain ⟨h1, h2, h3, h4⟩ := key 1 (.inl rfl) h
    left
    ext <;> simp [*]
  · obtain ⟨h1, h2, h3, h4⟩ := key (-1) (.inr rfl) h
    right
    ext <;> simp [Quat.opp, *]

end Quat
end SpatialDyn
