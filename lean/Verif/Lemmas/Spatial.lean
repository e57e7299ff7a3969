import Verif.Model.Spatial

/-! Helper lemmas about the spatial algebra (not property statements). -/

namespace SpatialDyn

section MatSimp
variable (a b : Mat3) (c : ℝ)
@[simp] theorem Mat3.zero_00 : (0 : Mat3).m00 = 0 := rfl
@[simp] theorem Mat3.zero_01 : (0 : Mat3).m01 = 0 := rfl
@[simp] theorem Mat3.zero_02 : (0 : Mat3).m02 = 0 := rfl
@[simp] theorem Mat3.zero_10 : (0 : Mat3).m10 = 0 := rfl
@[simp] theorem Mat3.zero_11 : (0 : Mat3).m11 = 0 := rfl
@[simp] theorem Mat3.zero_12 : (0 : Mat3).m12 = 0 := rfl
@[simp] theorem Mat3.zero_20 : (0 : Mat3).m20 = 0 := rfl
@[simp] theorem Mat3.zero_21 : (0 : Mat3).m21 = 0 := rfl
@[simp] theorem Mat3.zero_22 : (0 : Mat3).m22 = 0 := rfl
@[simp] theorem Mat3.one_00 : (1 : Mat3).m00 = 1 := rfl
@[simp] theorem Mat3.one_01 : (1 : Mat3).m01 = 0 := rfl
@[simp] theorem Mat3.one_02 : (1 : Mat3).m02 = 0 := rfl
@[simp] theorem Mat3.one_10 : (1 : Mat3).m10 = 0 := rfl
@[simp] theorem Mat3.one_11 : (1 : Mat3).m11 = 1 := rfl
@[simp] theorem Mat3.one_12 : (1 : Mat3).m12 = 0 := rfl
@[simp] theorem Mat3.one_20 : (1 : Mat3).m20 = 0 := rfl
@[simp] theorem Mat3.one_21 : (1 : Mat3).m21 = 0 := rfl
@[simp] theorem Mat3.one_22 : (1 : Mat3).m22 = 1 := rfl
@[simp] theorem Mat3.add_00 : (a + b).m00 = a.m00 + b.m00 := rfl
@[simp] theorem Mat3.add_01 : (a + b).m01 = a.m01 + b.m01 := rfl
@[simp] theorem Mat3.add_02 : (a + b).m02 = a.m02 + b.m02 := rfl
@[simp] theorem Mat3.add_10 : (a + b).m10 = a.m10 + b.m10 := rfl
@[simp] theorem Mat3.add_11 : (a + b).m11 = a.m11 + b.m11 := rfl
@[simp] theorem Mat3.add_12 : (a + b).m12 = a.m12 + b.m12 := rfl
@[simp] theorem Mat3.add_20 : (a + b).m20 = a.m20 + b.m20 := rfl
@[simp] theorem Mat3.add_21 : (a + b).m21 = a.m21 + b.m21 := rfl
@[simp] theorem Mat3.add_22 : (a + b).m22 = a.m22 + b.m22 := rfl
@[simp] theorem Mat3.sub_00 : (a - b).m00 = a.m00 - b.m00 := rfl
@[simp] theorem Mat3.sub_01 : (a - b).m01 = a.m01 - b.m01 := rfl
@[simp] theorem Mat3.sub_02 : (a - b).m02 = a.m02 - b.m02 := rfl
@[simp] theorem Mat3.sub_10 : (a - b).m10 = a.m10 - b.m10 := rfl
@[simp] theorem Mat3.sub_11 : (a - b).m11 = a.m11 - b.m11 := rfl
@[simp] theorem Mat3.sub_12 : (a - b).m12 = a.m12 - b.m12 := rfl
@[simp] theorem Mat3.sub_20 : (a - b).m20 = a.m20 - b.m20 := rfl
@[simp] theorem Mat3.sub_21 : (a - b).m21 = a.m21 - b.m21 := rfl
@[simp] theorem Mat3.sub_22 : (a - b).m22 = a.m22 - b.m22 := rfl
@[simp] theorem Mat3.smul_00 : (c • a).m00 = c * a.m00 := rfl
@[simp] theorem Mat3.smul_01 : (c • a).m01 = c * a.m01 := rfl
@[simp] theorem Mat3.smul_02 : (c • a).m02 = c * a.m02 := rfl
@[simp] theorem Mat3.smul_10 : (c • a).m10 = c * a.m10 := rfl
@[simp] theorem Mat3.smul_11 : (c • a).m11 = c * a.m11 := rfl
@[simp] theorem Mat3.smul_12 : (c • a).m12 = c * a.m12 := rfl
@[simp] theorem Mat3.smul_20 : (c • a).m20 = c * a.m20 := rfl
@[simp] theorem Mat3.smul_21 : (c • a).m21 = c * a.m21 := rfl
@[simp] theorem Mat3.smul_22 : (c • a).m22 = c * a.m22 := rfl
theorem Mat3.mul_00 : (a * b).m00 = a.m00 * b.m00 + a.m01 * b.m10 + a.m02 * b.m20 := rfl
theorem Mat3.mul_01 : (a * b).m01 = a.m00 * b.m01 + a.m01 * b.m11 + a.m02 * b.m21 := rfl
theorem Mat3.mul_02 : (a * b).m02 = a.m00 * b.m02 + a.m01 * b.m12 + a.m02 * b.m22 := rfl
theorem Mat3.mul_10 : (a * b).m10 = a.m10 * b.m00 + a.m11 * b.m10 + a.m12 * b.m20 := rfl
theorem Mat3.mul_11 : (a * b).m11 = a.m10 * b.m01 + a.m11 * b.m11 + a.m12 * b.m21 := rfl
theorem Mat3.mul_12 : (a * b).m12 = a.m10 * b.m02 + a.m11 * b.m12 + a.m12 * b.m22 := rfl
theorem Mat3.mul_20 : (a * b).m20 = a.m20 * b.m00 + a.m21 * b.m10 + a.m22 * b.m20 := rfl
theorem Mat3.mul_21 : (a * b).m21 = a.m20 * b.m01 + a.m21 * b.m11 + a.m22 * b.m21 := rfl
theorem Mat3.mul_22 : (a * b).m22 = a.m20 * b.m02 + a.m21 * b.m12 + a.m22 * b.m22 := rfl
end MatSimp

attribute [simp] Mat3.mul_00 Mat3.mul_01 Mat3.mul_02 Mat3.mul_10 Mat3.mul_11 Mat3.mul_12
  Mat3.mul_20 Mat3.mul_21 Mat3.mul_22

theorem Mat3.mul_assoc' (a b c : Mat3) : a * b * c = a * (b * c) := by ext <;> simp <;> ring
theorem Mat3.one_mul' (a : Mat3) : 1 * a = a := by ext <;> simp
theorem Mat3.mul_one' (a : Mat3) : a * 1 = a := by ext <;> simp
theorem Mat3.T_mul (a b : Mat3) : (a * b).T = b.T * a.T := by
  ext <;> simp [Mat3.T] <;> ring
theorem Mat3.T_T (a : Mat3) : a.T.T = a := rfl
theorem Mat3.T_one : (1 : Mat3).T = 1 := rfl
theorem Mat3.det_mul (a b : Mat3) : (a * b).det = a.det * b.det := by
  simp [Mat3.det]; ring
theorem Mat3.det_T (a : Mat3) : a.T.det = a.det := by
  simp [Mat3.det, Mat3.T]; ring
theorem Mat3.det_one : (1 : Mat3).det = 1 := by simp [Mat3.det]

theorem Mat3.mulVec_mulVec (a b : Mat3) (v : Vec3) :
    a.mulVec (b.mulVec v) = (a * b).mulVec v := by
  ext <;> simp [Mat3.mulVec] <;> ring
@[simp] theorem Mat3.one_mulVec (v : Vec3) : (1 : Mat3).mulVec v = v := by
  ext <;> simp [Mat3.mulVec]
@[simp] theorem Mat3.mulVec_zero (a : Mat3) : a.mulVec 0 = 0 := by ext <;> simp [Mat3.mulVec]
theorem Mat3.mulVec_add (a : Mat3) (v w : Vec3) : a.mulVec (v + w) = a.mulVec v + a.mulVec w := by
  ext <;> simp [Mat3.mulVec] <;> ring
theorem Mat3.mulVec_neg (a : Mat3) (v : Vec3) : a.mulVec (-v) = -a.mulVec v := by
  ext <;> simp [Mat3.mulVec] <;> ring
theorem Mat3.mulVec_sub (a : Mat3) (v w : Vec3) : a.mulVec (v - w) = a.mulVec v - a.mulVec w := by
  ext <;> simp [Mat3.mulVec] <;> ring
theorem Mat3.mulVec_smul (a : Mat3) (c : ℝ) (v : Vec3) : a.mulVec (c • v) = c • a.mulVec v := by
  ext <;> simp [Mat3.mulVec] <;> ring
theorem Mat3.dot_mulVec (a : Mat3) (v w : Vec3) : v.dot (a.mulVec w) = (a.T.mulVec v).dot w := by
  simp [Vec3.dot, Mat3.mulVec, Mat3.T]; ring

/-- Classical adjugate. -/
def Mat3.adj (a : Mat3) : Mat3 where
  m00 := a.m11 * a.m22 - a.m12 * a.m21
  m01 := a.m02 * a.m21 - a.m01 * a.m22
  m02 := a.m01 * a.m12 - a.m02 * a.m11
  m10 := a.m12 * a.m20 - a.m10 * a.m22
  m11 := a.m00 * a.m22 - a.m02 * a.m20
  m12 := a.m02 * a.m10 - a.m00 * a.m12
  m20 := a.m10 * a.m21 - a.m11 * a.m20
  m21 := a.m01 * a.m20 - a.m00 * a.m21
  m22 := a.m00 * a.m11 - a.m01 * a.m10

theorem Mat3.mul_adj (a : Mat3) : a * a.adj = a.det • (1 : Mat3) := by
  ext <;> simp [Mat3.adj, Mat3.det] <;> ring

theorem Mat3.one_smul' (a : Mat3) : (1 : ℝ) • a = a := by ext <;> simp

theorem Mat3.IsRot.adj_eq {a : Mat3} (h : a.IsRot) : a.adj = a.T := by
  have h1 : a * a.adj = 1 := by rw [Mat3.mul_adj, h.2, Mat3.one_smul']
  calc a.adj = (a.T * a) * a.adj := by rw [h.1, Mat3.one_mul']
    _ = a.T * (a * a.adj) := Mat3.mul_assoc' _ _ _
    _ = a.T := by rw [h1, Mat3.mul_one']

theorem Mat3.IsRot.mul_T {a : Mat3} (h : a.IsRot) : a * a.T = 1 := by
  rw [← h.adj_eq, Mat3.mul_adj, h.2, Mat3.one_smul']

theorem Mat3.IsRot.T {a : Mat3} (h : a.IsRot) : a.T.IsRot :=
  ⟨by rw [Mat3.T_T]; exact h.mul_T, by rw [Mat3.det_T]; exact h.2⟩

theorem Mat3.isRot_one : (1 : Mat3).IsRot :=
  ⟨by rw [Mat3.T_one, Mat3.one_mul'], Mat3.det_one⟩

theorem Mat3.IsRot.mul {a b : Mat3} (ha : a.IsRot) (hb : b.IsRot) : (a * b).IsRot := by
  refine ⟨?_, by rw [Mat3.det_mul, ha.2, hb.2]; ring⟩
  rw [Mat3.T_mul, Mat3.mul_assoc', ← Mat3.mul_assoc' a.T, ha.1, Mat3.one_mul', hb.1]

theorem Mat3.IsRot.T_mulVec {a : Mat3} (h : a.IsRot) (v : Vec3) : a.T.mulVec (a.mulVec v) = v := by
  rw [Mat3.mulVec_mulVec, h.1, Mat3.one_mulVec]

theorem Mat3.IsRot.mulVec_T {a : Mat3} (h : a.IsRot) (v : Vec3) : a.mulVec (a.T.mulVec v) = v := by
  rw [Mat3.mulVec_mulVec, h.mul_T, Mat3.one_mulVec]

theorem Mat3.IsRot.dot {a : Mat3} (h : a.IsRot) (v w : Vec3) :
    (a.mulVec v).dot (a.mulVec w) = v.dot w := by
  rw [Mat3.dot_mulVec, h.T_mulVec]

theorem Mat3.cross_adj (a : Mat3) (v w : Vec3) :
    (a.mulVec v).cross (a.mulVec w) = a.adj.T.mulVec (v.cross w) := by
  ext <;> simp [Mat3.mulVec, Mat3.adj, Mat3.T, Vec3.cross] <;> ring

theorem Mat3.IsRot.cross {a : Mat3} (h : a.IsRot) (v w : Vec3) :
    (a.mulVec v).cross (a.mulVec w) = a.mulVec (v.cross w) := by
  rw [Mat3.cross_adj, h.adj_eq, Mat3.T_T]

section Vec3
variable (a b c : Vec3) (k : ℝ)
theorem Vec3.cross_anti : a.cross b = -(b.cross a) := by ext <;> simp [Vec3.cross] <;> ring
theorem Vec3.cross_add : a.cross (b + c) = a.cross b + a.cross c := by
  ext <;> simp [Vec3.cross] <;> ring
theorem Vec3.add_cross : (a + b).cross c = a.cross c + b.cross c := by
  ext <;> simp [Vec3.cross] <;> ring
theorem Vec3.sub_cross : (a - b).cross c = a.cross c - b.cross c := by
  ext <;> simp [Vec3.cross] <;> ring
theorem Vec3.cross_sub : a.cross (b - c) = a.cross b - a.cross c := by
  ext <;> simp [Vec3.cross] <;> ring
theorem Vec3.cross_neg : a.cross (-b) = -(a.cross b) := by
  ext <;> simp [Vec3.cross] <;> ring
theorem Vec3.neg_cross : (-a).cross b = -(a.cross b) := by
  ext <;> simp [Vec3.cross] <;> ring
theorem Vec3.cross_smul : a.cross (k • b) = k • (a.cross b) := by
  ext <;> simp [Vec3.cross] <;> ring
theorem Vec3.smul_cross : (k • a).cross b = k • (a.cross b) := by
  ext <;> simp [Vec3.cross] <;> ring
@[simp] theorem Vec3.cross_zero : a.cross 0 = 0 := by ext <;> simp [Vec3.cross]
@[simp] theorem Vec3.zero_cross : (0 : Vec3).cross a = 0 := by ext <;> simp [Vec3.cross]
@[simp] theorem Vec3.cross_self : a.cross a = 0 := by ext <;> simp [Vec3.cross] <;> ring
theorem Vec3.dot_comm' : a.dot b = b.dot a := by simp [Vec3.dot]; ring
theorem Vec3.dot_add : a.dot (b + c) = a.dot b + a.dot c := by simp [Vec3.dot]; ring
theorem Vec3.add_dot : (a + b).dot c = a.dot c + b.dot c := by simp [Vec3.dot]; ring
theorem Vec3.dot_smul : a.dot (k • b) = k * a.dot b := by simp [Vec3.dot]; ring
theorem Vec3.smul_dot : (k • a).dot b = k * a.dot b := by simp [Vec3.dot]; ring
theorem Vec3.dot_self_nonneg : 0 ≤ a.dot a := by
  simp only [Vec3.dot]; nlinarith [mul_self_nonneg a.x, mul_self_nonneg a.y, mul_self_nonneg a.z]
theorem Vec3.dot_cross : a.dot (b.cross c) = (a.cross b).dot c := by
  simp [Vec3.dot, Vec3.cross]; ring
end Vec3

namespace Iso

@[simp] theorem one_R : (1 : Iso).R = 1 := rfl
@[simp] theorem one_t : (1 : Iso).t = 0 := rfl
@[simp] theorem mul_R (a b : Iso) : (a * b).R = a.R * b.R := rfl
@[simp] theorem mul_t (a b : Iso) : (a * b).t = a.R.mulVec b.t + a.t := rfl
@[simp] theorem inv_R (a : Iso) : a.inv.R = a.R.T := rfl
@[simp] theorem inv_t (a : Iso) : a.inv.t = -(a.R.T.mulVec a.t) := rfl

theorem mul_assoc' (a b c : Iso) : a * b * c = a * (b * c) := by
  ext <;> simp [Mat3.mulVec] <;> ring

instance : Monoid Iso where
  mul_assoc := mul_assoc'
  one_mul a := by ext <;> simp 
  mul_one a := by ext <;> simp

theorem valid_one : (1 : Iso).Valid := Mat3.isRot_one
theorem Valid.mul {a b : Iso} (ha : a.Valid) (hb : b.Valid) : (a * b).Valid := Mat3.IsRot.mul ha hb
theorem Valid.inv {a : Iso} (ha : a.Valid) : a.inv.Valid := Mat3.IsRot.T ha

theorem Valid.inv_mul {a : Iso} (ha : a.Valid) : a.inv * a = 1 := by
  have h := ha.1
  refine Iso.ext h ?_
  simp

theorem Valid.mul_inv {a : Iso} (ha : a.Valid) : a * a.inv = 1 := by
  refine Iso.ext (Mat3.IsRot.mul_T ha) ?_
  simp [Mat3.mulVec_neg, Mat3.IsRot.mulVec_T ha]

theorem Valid.inv_inv {a : Iso} (ha : a.Valid) : a.inv.inv = a := by
  refine Iso.ext rfl ?_
  simp [Mat3.T_T, Mat3.mulVec_neg, Mat3.IsRot.mulVec_T ha]

theorem inv_mul_rev {a b : Iso} (ha : a.Valid) (hb : b.Valid) : (a * b).inv = b.inv * a.inv := by
  have h1 : (a * b).inv * (a * b) = 1 := (ha.mul hb).inv_mul
  calc (a * b).inv = (a * b).inv * ((a * b) * (b.inv * a.inv)) := by
        rw [mul_assoc a b, ← mul_assoc b, hb.mul_inv, one_mul, ha.mul_inv, mul_one]
    _ = b.inv * a.inv := by rw [← mul_assoc, h1, one_mul]

theorem mul_app (a b : Iso) (p : Vec3) : (a * b).app p = a.app (b.app p) := by
  ext <;> simp [Iso.app, Mat3.mulVec] <;> ring
@[simp] theorem one_app (p : Vec3) : (1 : Iso).app p = p := by
  ext <;> simp [Iso.app]

/-! ### action on motions -/

theorem actM_mul (a b : Iso) (hb : a.Valid) (m : Motion) :
    (a * b).actM m = a.actM (b.actM m) := by
  have hc := hb.cross (b.R.mulVec m.ang) b.t
  refine Motion.ext ?_ ?_
  · simp only [actM, mul_R, mul_t, Mat3.mulVec_sub, Vec3.cross_add, ← hc,
      Mat3.mulVec_mulVec]
    abel
  · simp [actM, Mat3.mulVec_mulVec]

theorem actF_mul (a b : Iso) (hb : a.Valid) (f : Force) :
    (a * b).actF f = a.actF (b.actF f) := by
  have hc := hb.cross (b.R.mulVec f.lin) b.t
  refine Force.ext ?_ ?_
  · simp [actF, Mat3.mulVec_mulVec]
  · simp only [actF, mul_R, mul_t, Mat3.mulVec_sub, Vec3.cross_add, ← hc,
      Mat3.mulVec_mulVec]
    abel

@[simp] theorem one_actM (m : Motion) : (1 : Iso).actM m = m := by
  ext <;> simp [actM]
@[simp] theorem one_actF (m : Force) : (1 : Iso).actF m = m := by
  ext <;> simp [actF]

theorem Valid.inv_actM {a : Iso} (ha : a.Valid) (m : Motion) : a.inv.actM (a.actM m) = m := by
  rw [← actM_mul _ _ ha.inv, ha.inv_mul, one_actM]
theorem Valid.actM_inv {a : Iso} (ha : a.Valid) (m : Motion) : a.actM (a.inv.actM m) = m := by
  rw [← actM_mul _ _ ha, ha.mul_inv, one_actM]
theorem Valid.inv_actF {a : Iso} (ha : a.Valid) (m : Force) : a.inv.actF (a.actF m) = m := by
  rw [← actF_mul _ _ ha.inv, ha.inv_mul, one_actF]
theorem Valid.actF_inv {a : Iso} (ha : a.Valid) (m : Force) : a.actF (a.inv.actF m) = m := by
  rw [← actF_mul _ _ ha, ha.mul_inv, one_actF]

variable (T : Iso)
theorem actM_add (m n : Motion) : T.actM (m + n) = T.actM m + T.actM n := by
  ext <;> simp [actM, Mat3.mulVec, Vec3.cross] <;> ring
theorem actM_smul (c : ℝ) (m : Motion) : T.actM (c • m) = c • T.actM m := by
  ext <;> simp [actM, Mat3.mulVec, Vec3.cross] <;> ring
@[simp] theorem actM_zero : T.actM 0 = 0 := by
  ext <;> simp [actM]
theorem actM_neg (m : Motion) : T.actM (-m) = -T.actM m := by
  ext <;> simp [actM, Mat3.mulVec, Vec3.cross] <;> ring
theorem actM_sub (m n : Motion) : T.actM (m - n) = T.actM m - T.actM n := by
  ext <;> simp [actM, Mat3.mulVec, Vec3.cross] <;> ring
theorem actF_add (m n : Force) : T.actF (m + n) = T.actF m + T.actF n := by
  ext <;> simp [actF, Mat3.mulVec, Vec3.cross] <;> ring
theorem actF_smul (c : ℝ) (m : Force) : T.actF (c • m) = c • T.actF m := by
  ext <;> simp [actF, Mat3.mulVec, Vec3.cross] <;> ring
@[simp] theorem actF_zero : T.actF 0 = 0 := by
  ext <;> simp [actF]
theorem actF_neg (m : Force) : T.actF (-m) = -T.actF m := by
  ext <;> simp [actF, Mat3.mulVec, Vec3.cross] <;> ring
theorem actF_sub (m n : Force) : T.actF (m - n) = T.actF m - T.actF n := by
  ext <;> simp [actF, Mat3.mulVec, Vec3.cross] <;> ring

/-- `actM` as an additive homomorphism (for sums). -/
def actMHom : Motion →+ Motion := ⟨⟨T.actM, T.actM_zero⟩, T.actM_add⟩
def actFHom : Force →+ Force := ⟨⟨T.actF, T.actF_zero⟩, T.actF_add⟩
theorem actM_sum {ι : Type*} (s : Finset ι) (f : ι → Motion) :
    T.actM (∑ i ∈ s, f i) = ∑ i ∈ s, T.actM (f i) := map_sum T.actMHom f s
theorem actF_sum {ι : Type*} (s : Finset ι) (f : ι → Force) :
    T.actF (∑ i ∈ s, f i) = ∑ i ∈ s, T.actF (f i) := map_sum T.actFHom f s

end Iso

section dot
variable (m n : Motion) (f g : Force) (c : ℝ)
theorem Motion.dot_eq : m.dot f = m.lin.dot f.lin + m.ang.dot f.ang := by
  simp [Motion.dot, Vec3.dot]; ring
theorem Force.dot_eq : f.dot m = m.dot f := by simp [Motion.dot, Force.dot]; ring
theorem Motion.add_dot : (m + n).dot f = m.dot f + n.dot f := by simp [Motion.dot]; ring
theorem Motion.dot_add : m.dot (f + g) = m.dot f + m.dot g := by simp [Motion.dot]; ring
theorem Motion.smul_dot : (c • m).dot f = c * m.dot f := by simp [Motion.dot]; ring
theorem Motion.dot_smul : m.dot (c • f) = c * m.dot f := by simp [Motion.dot]; ring
theorem Motion.neg_dot : (-m).dot f = -m.dot f := by simp [Motion.dot]; ring
theorem Motion.dot_neg : m.dot (-f) = -m.dot f := by simp [Motion.dot]; ring
theorem Motion.sub_dot : (m - n).dot f = m.dot f - n.dot f := by simp [Motion.dot]; ring
theorem Motion.dot_sub : m.dot (f - g) = m.dot f - m.dot g := by simp [Motion.dot]; ring
@[simp] theorem Motion.zero_dot : (0 : Motion).dot f = 0 := by simp [Motion.dot]
@[simp] theorem Motion.dot_zero : m.dot 0 = 0 := by simp [Motion.dot]
def Motion.dotHomL (f : Force) : Motion →+ ℝ :=
  ⟨⟨fun m => m.dot f, Motion.zero_dot f⟩, fun a b => Motion.add_dot a b f⟩
def Motion.dotHomR (m : Motion) : Force →+ ℝ :=
  ⟨⟨fun f => m.dot f, Motion.dot_zero m⟩, fun a b => Motion.dot_add m a b⟩
theorem Motion.sum_dot {ι : Type*} (s : Finset ι) (u : ι → Motion) :
    (∑ i ∈ s, u i).dot f = ∑ i ∈ s, (u i).dot f := map_sum (Motion.dotHomL f) u s
theorem Motion.dot_sum {ι : Type*} (s : Finset ι) (u : ι → Force) :
    m.dot (∑ i ∈ s, u i) = ∑ i ∈ s, m.dot (u i) := map_sum (Motion.dotHomR m) u s
end dot

/-- A force is determined by its power on all motions. -/
theorem Force.ext_dot {f g : Force} (h : ∀ m : Motion, m.dot f = m.dot g) : f = g := by
  have h1 := h ⟨⟨1,0,0⟩,0⟩
  have h2 := h ⟨⟨0,1,0⟩,0⟩
  have h3 := h ⟨⟨0,0,1⟩,0⟩
  have h4 := h ⟨0,⟨1,0,0⟩⟩
  have h5 := h ⟨0,⟨0,1,0⟩⟩
  have h6 := h ⟨0,⟨0,0,1⟩⟩
  simp [Motion.dot] at h1 h2 h3 h4 h5 h6
  ext <;> assumption

/-- A motion is determined by its power on all forces. -/
theorem Motion.ext_dot {m n : Motion} (h : ∀ f : Force, m.dot f = n.dot f) : m = n := by
  have h1 := h ⟨⟨1,0,0⟩,0⟩
  have h2 := h ⟨⟨0,1,0⟩,0⟩
  have h3 := h ⟨⟨0,0,1⟩,0⟩
  have h4 := h ⟨0,⟨1,0,0⟩⟩
  have h5 := h ⟨0,⟨0,1,0⟩⟩
  have h6 := h ⟨0,⟨0,0,1⟩⟩
  simp [Motion.dot] at h1 h2 h3 h4 h5 h6
  ext <;> assumption

theorem Iso.Valid.dot_act {T : Iso} (h : T.Valid) (m : Motion) (f : Force) :
    (T.actM m).dot (T.actF f) = m.dot f := by
  have h1 := h.dot m.lin f.lin
  have h2 := h.dot m.ang f.ang
  have e : ∀ a b u v t : Vec3, (a - b.cross t).dot u + b.dot (v - u.cross t) =
      a.dot u + b.dot v := by
    intro a b u v t; simp [Vec3.dot, Vec3.cross]; ring
  simp only [Motion.dot_eq, Iso.actM, Iso.actF, e, h1, h2]

theorem Iso.Valid.dot_actF {T : Iso} (h : T.Valid) (m : Motion) (f : Force) :
    m.dot (T.actF f) = (T.inv.actM m).dot f := by
  rw [← h.dot_act (T.inv.actM m) f, h.actM_inv]

theorem Motion.crossM_lin (l r : Motion) :
    (l.crossM r).lin = l.lin.cross r.ang + l.ang.cross r.lin := by
  ext <;> simp [Motion.crossM, Vec3.cross] <;> ring
theorem Motion.crossM_ang (l r : Motion) : (l.crossM r).ang = l.ang.cross r.ang := by
  ext <;> simp [Motion.crossM, Vec3.cross]
theorem Motion.crossF_lin (l : Motion) (r : Force) : (l.crossF r).lin = l.ang.cross r.lin := by
  ext <;> simp [Motion.crossF, Vec3.cross]
theorem Motion.crossF_ang (l : Motion) (r : Force) :
    (l.crossF r).ang = l.lin.cross r.lin + l.ang.cross r.ang := by
  ext <;> simp [Motion.crossF, Vec3.cross] <;> ring

section cross
variable (a b c : Motion) (f g : Force) (k : ℝ)
theorem Motion.crossM_add : a.crossM (b + c) = a.crossM b + a.crossM c := by
  ext <;> simp [Motion.crossM] <;> ring
theorem Motion.add_crossM : (a + b).crossM c = a.crossM c + b.crossM c := by
  ext <;> simp [Motion.crossM] <;> ring
theorem Motion.crossM_sub : a.crossM (b - c) = a.crossM b - a.crossM c := by
  ext <;> simp [Motion.crossM] <;> ring
theorem Motion.sub_crossM : (a - b).crossM c = a.crossM c - b.crossM c := by
  ext <;> simp [Motion.crossM] <;> ring
theorem Motion.crossM_smul : a.crossM (k • b) = k • a.crossM b := by
  ext <;> simp [Motion.crossM] <;> ring
theorem Motion.smul_crossM : (k • a).crossM b = k • a.crossM b := by
  ext <;> simp [Motion.crossM] <;> ring
@[simp] theorem Motion.crossM_zero : a.crossM 0 = 0 := by ext <;> simp [Motion.crossM]
@[simp] theorem Motion.zero_crossM : (0 : Motion).crossM a = 0 := by ext <;> simp [Motion.crossM]
@[simp] theorem Motion.crossM_self : a.crossM a = 0 := by ext <;> simp [Motion.crossM] <;> ring
theorem Motion.crossM_anti : a.crossM b = -(b.crossM a) := by
  ext <;> simp [Motion.crossM] <;> ring
theorem Motion.crossF_add : a.crossF (f + g) = a.crossF f + a.crossF g := by
  ext <;> simp [Motion.crossF] <;> ring
theorem Motion.add_crossF : (a + b).crossF f = a.crossF f + b.crossF f := by
  ext <;> simp [Motion.crossF] <;> ring
theorem Motion.crossF_smul : a.crossF (k • f) = k • a.crossF f := by
  ext <;> simp [Motion.crossF] <;> ring
theorem Motion.smul_crossF : (k • a).crossF f = k • a.crossF f := by
  ext <;> simp [Motion.crossF] <;> ring
@[simp] theorem Motion.crossF_zero : a.crossF 0 = 0 := by ext <;> simp [Motion.crossF]
@[simp] theorem Motion.zero_crossF : (0 : Motion).crossF f = 0 := by ext <;> simp [Motion.crossF]
theorem Motion.crossM_dot : (a.crossM b).dot f = -(b.dot (a.crossF f)) := by
  simp [Motion.crossM, Motion.crossF, Motion.dot]; ring
end cross

theorem Iso.Valid.actM_crossM {T : Iso} (h : T.Valid) (a b : Motion) :
    T.actM (a.crossM b) = (T.actM a).crossM (T.actM b) := by
  refine Motion.ext ?_ ?_
  · simp only [Iso.actM, Motion.crossM_lin, Motion.crossM_ang, Mat3.mulVec_add, ← h.cross]
    ext <;> simp [Vec3.cross] <;> ring
  · simp only [Iso.actM, Motion.crossM_ang, ← h.cross]

theorem Iso.Valid.actF_crossF {T : Iso} (h : T.Valid) (a : Motion) (f : Force) :
    T.actF (a.crossF f) = (T.actM a).crossF (T.actF f) := by
  refine Force.ext ?_ ?_
  · simp only [Iso.actM, Iso.actF, Motion.crossF_lin, ← h.cross]
  · simp only [Iso.actM, Iso.actF, Motion.crossF_lin, Motion.crossF_ang, Mat3.mulVec_add, ← h.cross]
    ext <;> simp [Vec3.cross] <;> ring

namespace Inertia
variable (I : Inertia)
theorem app_add (m n : Motion) : I.app (m + n) = I.app m + I.app n := by
  ext <;> simp [app, Mat3.mulVec, Vec3.cross] <;> ring
theorem app_sub (m n : Motion) : I.app (m - n) = I.app m - I.app n := by
  ext <;> simp [app, Mat3.mulVec, Vec3.cross] <;> ring
theorem app_neg (m : Motion) : I.app (-m) = -I.app m := by
  ext <;> simp [app, Mat3.mulVec, Vec3.cross] <;> ring
theorem app_smul (c : ℝ) (m : Motion) : I.app (c • m) = c • I.app m := by
  ext <;> simp [app, Mat3.mulVec, Vec3.cross] <;> ring
@[simp] theorem app_zero : I.app 0 = 0 := by ext <;> simp [app]
def appHom : Motion →+ Force := ⟨⟨I.app, I.app_zero⟩, I.app_add⟩
theorem app_sum {ι : Type*} (s : Finset ι) (f : ι → Motion) :
    I.app (∑ i ∈ s, f i) = ∑ i ∈ s, I.app (f i) := map_sum I.appHom f s

theorem actI_app {T : Iso} (h : T.Valid) (m : Motion) :
    (T.actI I).app (T.actM m) = T.actF (I.app m) := by
  have hang : (T.R * I.Icom * T.R.T).mulVec (T.R.mulVec m.ang) =
      T.R.mulVec (I.Icom.mulVec m.ang) := by
    rw [← Mat3.mulVec_mulVec, h.T_mulVec, ← Mat3.mulVec_mulVec]
  refine Force.ext ?_ ?_
  · simp only [app, Iso.actI, Iso.actM, Iso.actF, Mat3.mulVec_add, Mat3.mulVec_smul, ← h.cross,
      Vec3.cross_smul, Iso.app]
    ext <;> simp [Vec3.cross] <;> ring
  · simp only [app, Iso.actI, Iso.actM, Iso.actF, Mat3.mulVec_add, Mat3.mulVec_sub,
      Mat3.mulVec_smul, ← h.cross, Vec3.cross_smul, Iso.app, hang]
    ext <;> simp [Vec3.cross] <;> ring

theorem actI_app' {T : Iso} (h : T.Valid) (m : Motion) :
    (T.actI I).app m = T.actF (I.app (T.inv.actM m)) := by
  rw [← actI_app I h, h.actM_inv]

theorem add_app (a b : Inertia) (h : a.AddDefined b) (m : Motion) :
    (a.add b).app m = a.app m + b.app m := by
  have h' : a.mass + b.mass ≠ 0 := h
  ext <;> simp [app, add, Mat3.mulVec, Vec3.cross, doubleCross] <;> field_simp <;> ring

theorem dot_app_symm (h : I.Icom.IsSymm) (m n : Motion) : m.dot (I.app n) = n.dot (I.app m) := by
  have h01 : I.Icom.m10 = I.Icom.m01 := congrArg Mat3.m01 h
  have h02 : I.Icom.m20 = I.Icom.m02 := congrArg Mat3.m02 h
  have h12 : I.Icom.m21 = I.Icom.m12 := congrArg Mat3.m12 h
  simp [Motion.dot, app, Mat3.mulVec, Vec3.cross, h01, h02, h12]; ring

theorem dot_app_self (m : Motion) : m.dot (I.app m) =
    I.mass * (m.lin + m.ang.cross I.com).dot (m.lin + m.ang.cross I.com) +
      m.ang.dot (I.Icom.mulVec m.ang) := by
  simp [Motion.dot, app, Mat3.mulVec, Vec3.cross, Vec3.dot]; ring

theorem matrix_app (h : I.Icom.IsSymm) (m : Motion) : I.matrix.app m = I.app m := by
  have h01 : I.Icom.m10 = I.Icom.m01 := congrArg Mat3.m01 h
  have h02 : I.Icom.m20 = I.Icom.m02 := congrArg Mat3.m02 h
  have h12 : I.Icom.m21 = I.Icom.m12 := congrArg Mat3.m12 h
  ext <;> simp [Mat6.app, matrix, app, Mat3.mulVec, Vec3.cross, h01, h02, h12] <;> ring

theorem actI_symm {T : Iso} (h : I.Icom.IsSymm) : (T.actI I).Icom.IsSymm := by
  have h' : I.Icom.T = I.Icom := h
  show (T.R * I.Icom * T.R.T).T = T.R * I.Icom * T.R.T
  rw [Mat3.T_mul, Mat3.T_mul, Mat3.T_T, h', Mat3.mul_assoc']

theorem doubleCross_symm (a : Vec3) : (doubleCross a).T = doubleCross a := rfl

theorem add_symm (a b : Inertia) (ha : a.Icom.IsSymm) (hb : b.Icom.IsSymm) :
    (a.add b).Icom.IsSymm := by
  have a01 : a.Icom.m10 = a.Icom.m01 := congrArg Mat3.m01 ha
  have a02 : a.Icom.m20 = a.Icom.m02 := congrArg Mat3.m02 ha
  have a12 : a.Icom.m21 = a.Icom.m12 := congrArg Mat3.m12 ha
  have b01 : b.Icom.m10 = b.Icom.m01 := congrArg Mat3.m01 hb
  have b02 : b.Icom.m20 = b.Icom.m02 := congrArg Mat3.m02 hb
  have b12 : b.Icom.m21 = b.Icom.m12 := congrArg Mat3.m12 hb
  show (a.add b).Icom.T = (a.add b).Icom
  ext <;> simp [Mat3.T, add, doubleCross, a01, a02, a12, b01, b02, b12]

end Inertia

namespace Mat6
variable (A B : Mat6)
theorem app_add (m n : Motion) : A.app (m + n) = A.app m + A.app n := by
  ext <;> simp [app, Mat3.mulVec] <;> ring
theorem app_smul (c : ℝ) (m : Motion) : A.app (c • m) = c • A.app m := by
  ext <;> simp [app, Mat3.mulVec] <;> ring
@[simp] theorem app_zero : A.app 0 = 0 := by ext <;> simp [app]
theorem add_app (m : Motion) : (A + B).app m = A.app m + B.app m := by
  show (Mat6.mk _ _ _ _).app m = _
  ext <;> simp [app, Mat3.mulVec] <;> ring
theorem sub_app (m : Motion) : (A - B).app m = A.app m - B.app m := by
  show (Mat6.mk _ _ _ _).app m = _
  ext <;> simp [app, Mat3.mulVec] <;> ring
theorem outerDiv_app (h : Force) (d : ℝ) (m : Motion) :
    (outerDiv h d).app m = (m.dot h / d) • h := by
  ext <;> simp [app, outerDiv, Mat3.mulVec, Motion.dot] <;> ring

theorem ext_app {A B : Mat6} (h : ∀ m, A.app m = B.app m) : A = B := by
  have h1 := h ⟨⟨1,0,0⟩,0⟩
  have h2 := h ⟨⟨0,1,0⟩,0⟩
  have h3 := h ⟨⟨0,0,1⟩,0⟩
  have h4 := h ⟨0,⟨1,0,0⟩⟩
  have h5 := h ⟨0,⟨0,1,0⟩⟩
  have h6 := h ⟨0,⟨0,0,1⟩⟩
  simp [app, Mat3.mulVec, Force.ext_iff, Vec3.ext_iff] at h1 h2 h3 h4 h5 h6
  ext <;> simp_all

theorem actMat_app {T : Iso} (h : T.Valid) (m : Motion) :
    (T.actMat A).app m = T.actF (A.app (T.inv.actM m)) := by
  have hR := h.mul_T
  have hRt := h.1
  have e00 := congrArg Mat3.m00 hR
  have hrow : ∀ (B : Mat3) (t w : Vec3), (B.rowCross t).mulVec w = -(B.mulVec (w.cross t)) := by
    intro B t w
    ext <;> simp [Mat3.rowCross, Mat3.ofRows, Mat3.row0, Mat3.row1, Mat3.row2, Mat3.mulVec,
      Vec3.cross] <;> ring
  have hcol : ∀ (B : Mat3) (t w : Vec3), (B.colCross t).mulVec w = (B.mulVec w).cross t := by
    intro B t w
    ext <;> simp [Mat3.colCross, Mat3.ofCols, Mat3.col0, Mat3.col1, Mat3.col2, Mat3.mulVec,
      Vec3.cross] <;> ring
  have hsub : ∀ (B C : Mat3) (w : Vec3), (B - C).mulVec w = B.mulVec w - C.mulVec w := by
    intro B C w; ext <;> simp [Mat3.mulVec] <;> ring
  have hinv : T.inv.actM m = ⟨T.R.T.mulVec (m.lin + m.ang.cross T.t), T.R.T.mulVec m.ang⟩ := by
    simp only [Iso.actM, Iso.inv_R, Iso.inv_t, Vec3.cross_neg, (Mat3.IsRot.T h).cross, sub_neg_eq_add,
      Mat3.mulVec_add]
  rw [hinv]
  refine Force.ext ?_ ?_
  · simp only [app, Iso.actMat, Iso.actF, ← Mat3.mulVec_mulVec, hsub, hrow, hcol, Mat3.mulVec_add,
      Mat3.mulVec_sub, Mat3.mulVec_neg, Vec3.add_cross, Vec3.sub_cross, Vec3.neg_cross]
    abel
  · simp only [app, Iso.actMat, Iso.actF, ← Mat3.mulVec_mulVec, hsub, hrow, hcol, Mat3.mulVec_add,
      Mat3.mulVec_sub, Mat3.mulVec_neg, Vec3.add_cross, Vec3.sub_cross, Vec3.neg_cross]
    abel

end Mat6

end SpatialDyn
