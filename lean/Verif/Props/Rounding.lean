import Verif.Spec.Rounding
import Verif.Props.Turns

/-!
# C138: poses computed with rounded arithmetic
-/

namespace SpatialDyn
open Finset Body

variable {E : Ext} {b b' : Body} {d : Bool} {A : Arith} {u l : ℝ}

/-! ## Sizes -/

namespace Mat3

theorem frob_nonneg (m : Mat3) : 0 ≤ m.frob := Real.sqrt_nonneg _

theorem frob_sq (m : Mat3) : m.frob ^ 2 = m.m00 ^ 2 + m.m01 ^ 2 + m.m02 ^ 2 + m.m10 ^ 2 + m.m11 ^ 2 +
    m.m12 ^ 2 + m.m20 ^ 2 + m.m21 ^ 2 + m.m22 ^ 2 := Real.sq_sqrt (by positivity)

theorem frob_le {m : Mat3} {a : ℝ} (ha : 0 ≤ a) (h : m.m00 ^ 2 + m.m01 ^ 2 + m.m02 ^ 2 + m.m10 ^ 2 +
    m.m11 ^ 2 + m.m12 ^ 2 + m.m20 ^ 2 + m.m21 ^ 2 + m.m22 ^ 2 ≤ a ^ 2) : m.frob ≤ a :=
  le_of_sq_le_sq (by rw [frob_sq]; exact h) ha

/-- Size of a matrix from the lengths of its rows. -/
theorem frob_rows (m : Mat3) :
    m.frob = (⟨(Arith.row m 0).len, (Arith.row m 1).len, (Arith.row m 2).len⟩ : Vec3).len := by
  refine (sq_eq_sq₀ m.frob_nonneg (Vec3.len_nonneg _)).1 ?_
  rw [frob_sq, Vec3.len_sq]
  have h0 := (Arith.row m 0).len_sq
  have h1 := (Arith.row m 1).len_sq
  have h2 := (Arith.row m 2).len_sq
  simp only [Vec3.dot, Arith.row] at *
  nlinarith

theorem frob_T (m : Mat3) : m.T.frob = m.frob := by
  unfold frob Mat3.T
  congr 1
  ring

theorem row_add (m n : Mat3) (i : Fin 3) : Arith.row (m + n) i = Arith.row m i + Arith.row n i := by
  fin_cases i <;> rfl

end Mat3

theorem Vec3.len_mono {v w : Vec3} (hx : |v.x| ≤ |w.x|) (hy : |v.y| ≤ |w.y|) (hz : |v.z| ≤ |w.z|) :
    v.len ≤ w.len := by
  refine le_of_sq_le_sq ?_ w.len_nonneg
  rw [Vec3.len_sq, Vec3.len_sq]
  have h1 := sq_le_sq.2 hx
  have h2 := sq_le_sq.2 hy
  have h3 := sq_le_sq.2 hz
  unfold Vec3.dot
  nlinarith

theorem Vec3.dot_le (v w : Vec3) : |v.x * w.x| + |v.y * w.y| + |v.z * w.z| ≤ v.len * w.len := by
  refine le_of_sq_le_sq ?_ (mul_nonneg v.len_nonneg w.len_nonneg)
  rw [mul_pow, Vec3.len_sq, Vec3.len_sq, abs_mul, abs_mul, abs_mul]
  unfold Vec3.dot
  have e1 := abs_mul_abs_self v.x
  have e2 := abs_mul_abs_self v.y
  have e3 := abs_mul_abs_self v.z
  have e4 := abs_mul_abs_self w.x
  have e5 := abs_mul_abs_self w.y
  have e6 := abs_mul_abs_self w.z
  rw [← e1, ← e2, ← e3, ← e4, ← e5, ← e6]
  nlinarith [sq_nonneg (|v.x| * |w.y| - |v.y| * |w.x|), sq_nonneg (|v.x| * |w.z| - |v.z| * |w.x|),
    sq_nonneg (|v.y| * |w.z| - |v.z| * |w.y|)]

theorem Vec3.abs_dot_le (v w : Vec3) : |v.dot w| ≤ v.len * w.len := by
  refine le_trans ?_ (v.dot_le w)
  unfold Vec3.dot
  exact (abs_add_le _ _).trans (add_le_add (abs_add_le _ _) le_rfl)

theorem Mat3.mulVec_row (m : Mat3) (v : Vec3) : m.mulVec v =
    ⟨(Arith.row m 0).dot v, (Arith.row m 1).dot v, (Arith.row m 2).dot v⟩ := rfl

theorem Mat3.frob_add (m n : Mat3) : (m + n).frob ≤ m.frob + n.frob := by
  rw [frob_rows m, frob_rows n]
  refine le_trans ?_ (Vec3.len_add _ _)
  rw [frob_rows]
  refine Vec3.len_mono ?_ ?_ ?_ <;>
  · simp only [row_add, Vec3.add_x, Vec3.add_y, Vec3.add_z]
    rw [abs_of_nonneg (Vec3.len_nonneg _),
      abs_of_nonneg (add_nonneg (Vec3.len_nonneg _) (Vec3.len_nonneg _))]
    exact Vec3.len_add _ _

theorem Vec3.len_scale {a : ℝ} (ha : 0 ≤ a) (x y z : ℝ) :
    (⟨x, y, z⟩ : Vec3).len * a = (⟨x * a, y * a, z * a⟩ : Vec3).len := by
  have := Vec3.len_smul a ⟨x, y, z⟩
  rw [abs_of_nonneg ha, mul_comm] at this
  rw [← this]
  congr 1
  ext <;> simp [mul_comm]

theorem Mat3.len_mulVec (m : Mat3) (v : Vec3) : (m.mulVec v).len ≤ m.frob * v.len := by
  rw [frob_rows, mulVec_row, Vec3.len_scale v.len_nonneg]
  refine Vec3.len_mono ?_ ?_ ?_ <;>
  · simp only
    rw [abs_of_nonneg (mul_nonneg (Vec3.len_nonneg _) (Vec3.len_nonneg _))]
    exact Vec3.abs_dot_le _ _

theorem Mat3.mul_rows (m n : Mat3) (i : Fin 3) :
    Arith.row (m * n) i = n.T.mulVec (Arith.row m i) := by
  fin_cases i <;> ext <;> simp [Arith.row, Mat3.mulVec, Mat3.T] <;> ring

theorem Mat3.frob_mul (m n : Mat3) : (m * n).frob ≤ m.frob * n.frob := by
  rw [frob_rows m, frob_rows (m * n)]
  rw [Vec3.len_scale n.frob_nonneg]
  refine Vec3.len_mono ?_ ?_ ?_ <;>
  · rw [abs_of_nonneg (Vec3.len_nonneg _),
      abs_of_nonneg (mul_nonneg (Vec3.len_nonneg _) n.frob_nonneg), mul_rows, mul_comm, ← frob_T n]
    exact len_mulVec _ _

theorem Mat3.IsRot.frob_right {R : Mat3} (hR : R.IsRot) (m : Mat3) : (m * R).frob = m.frob := by
  rw [frob_rows, frob_rows, mul_rows, mul_rows, mul_rows, Vec3.len_rot hR.T, Vec3.len_rot hR.T,
    Vec3.len_rot hR.T]

theorem Mat3.IsRot.frob_left {R : Mat3} (hR : R.IsRot) (m : Mat3) : (R * m).frob = m.frob := by
  have e : (R * m).T = m.T * R.T := by ext <;> simp [Mat3.T] <;> ring
  rw [← frob_T, e, hR.T.frob_right, frob_T]

theorem Mat3.frob_one : (1 : Mat3).frob = Real.sqrt 3 := by
  unfold frob
  congr 1
  simp
  norm_num

theorem Mat3.IsRot.frob {R : Mat3} (hR : R.IsRot) : R.frob = Real.sqrt 3 := by
  rw [← frob_one, ← hR.frob_left 1, Mat3.mul_one']

/-! ## One operation -/

theorem Vec3.len_const {c : ℝ} (hc : 0 ≤ c) : (⟨c, c, c⟩ : Vec3).len = Real.sqrt 3 * c := by
  have := Vec3.len_scale hc 1 1 1
  simp only [one_mul] at this
  rw [← this]
  congr 1
  unfold Vec3.len Vec3.dot
  norm_num

theorem sqrt3_sq : Real.sqrt 3 * Real.sqrt 3 = 3 := Real.mul_self_sqrt (by norm_num)

theorem sqrt3_le : Real.sqrt 3 ≤ 2 := by
  rw [Real.sqrt_le_left (by norm_num)]
  norm_num

theorem sqrt3_ge : 1 ≤ Real.sqrt 3 := Real.one_le_sqrt.2 (by norm_num)

/-- Length of a vector of errors. -/
theorem Vec3.len_err {v : Vec3} {x y z a c : ℝ} (ha : 0 ≤ a) (hc : 0 ≤ c) (hx0 : 0 ≤ x) (hy0 : 0 ≤ y)
    (hz0 : 0 ≤ z) (hx : |v.x| ≤ x * a + c) (hy : |v.y| ≤ y * a + c) (hz : |v.z| ≤ z * a + c) :
    v.len ≤ (⟨x, y, z⟩ : Vec3).len * a + Real.sqrt 3 * c := by
  rw [Vec3.len_scale ha, ← Vec3.len_const hc]
  refine le_trans (Vec3.len_mono ?_ ?_ ?_) (Vec3.len_add _ _)
  · simp only [Vec3.add_x]; rwa [abs_of_nonneg (a := x * a + c) (by positivity)]
  · simp only [Vec3.add_y]; rwa [abs_of_nonneg (a := y * a + c) (by positivity)]
  · simp only [Vec3.add_z]; rwa [abs_of_nonneg (a := z * a + c) (by positivity)]

namespace Arith.Within

theorem dot_err (h : A.Within u l) (v w : Vec3) :
    |A.dot v w - v.dot w| ≤ v.len * (u * w.len) + u * l := by
  refine (h.dot v w).trans ?_
  nlinarith [v.dot_le w, h.nonneg.1]

theorem mulVec_err (h : A.Within u l) (m : Mat3) (v : Vec3) :
    (A.mulVec m v - m.mulVec v).len ≤ u * (m.frob * v.len + Real.sqrt 3 * l) := by
  have hu := h.nonneg.1
  have hl := h.tiny.1
  have := Vec3.len_err (v := A.mulVec m v - m.mulVec v) (a := u * v.len) (c := u * l)
    (mul_nonneg hu v.len_nonneg) (mul_nonneg hu hl) (row m 0).len_nonneg (row m 1).len_nonneg
    (row m 2).len_nonneg (by simpa [mulVec, Mat3.mulVec_row] using h.dot_err (row m 0) v)
    (by simpa [mulVec, Mat3.mulVec_row] using h.dot_err (row m 1) v)
    (by simpa [mulVec, Mat3.mulVec_row] using h.dot_err (row m 2) v)
  rw [← Mat3.frob_rows] at this
  linarith

theorem mulMat_err (h : A.Within u l) (m n : Mat3) :
    (A.mulMat m n - m * n).frob ≤ u * (m.frob * n.frob + 3 * l) := by
  have hu := h.nonneg.1
  have hl := h.tiny.1
  have hrow : ∀ i : Fin 3, (row (A.mulMat m n - m * n) i).len ≤
      (row m i).len * (u * n.frob) + Real.sqrt 3 * (u * l) := by
    intro i
    have hd : ∀ j : Fin 3, |A.dot (row m i) (row n.T j) - (row m i).dot (row n.T j)| ≤
        (row n.T j).len * (u * (row m i).len) + u * l := fun j => by
      have := h.dot_err (row m i) (row n.T j)
      linarith
    have := Vec3.len_err (v := row (A.mulMat m n - m * n) i) (a := u * (row m i).len) (c := u * l)
      (mul_nonneg hu (Vec3.len_nonneg _)) (mul_nonneg hu hl) (row n.T 0).len_nonneg
      (row n.T 1).len_nonneg (row n.T 2).len_nonneg
      (by convert hd 0 using 2; fin_cases i <;> simp [row, mulMat, Vec3.dot, Mat3.T])
      (by convert hd 1 using 2; fin_cases i <;> simp [row, mulMat, Vec3.dot, Mat3.T])
      (by convert hd 2 using 2; fin_cases i <;> simp [row, mulMat, Vec3.dot, Mat3.T])
    rw [← Mat3.frob_rows, Mat3.frob_T] at this
    linarith
  have hs := Real.sqrt_nonneg 3
  have := Vec3.len_err (v := ⟨(row (A.mulMat m n - m * n) 0).len, (row (A.mulMat m n - m * n) 1).len,
      (row (A.mulMat m n - m * n) 2).len⟩) (a := u * n.frob) (c := Real.sqrt 3 * (u * l))
    (mul_nonneg hu n.frob_nonneg) (by positivity) (row m 0).len_nonneg (row m 1).len_nonneg
    (row m 2).len_nonneg (by rw [abs_of_nonneg (Vec3.len_nonneg _)]; exact hrow 0)
    (by rw [abs_of_nonneg (Vec3.len_nonneg _)]; exact hrow 1)
    (by rw [abs_of_nonneg (Vec3.len_nonneg _)]; exact hrow 2)
  rw [← Mat3.frob_rows, ← Mat3.frob_rows, ← mul_assoc (Real.sqrt 3), sqrt3_sq] at this
  linarith

theorem addVec_err (h : A.Within u l) (v w : Vec3) :
    (A.addVec v w - (v + w)).len ≤ u * (v + w).len := by
  have hu := h.nonneg.1
  have e := Vec3.len_smul u (v + w)
  rw [abs_of_nonneg hu] at e
  rw [← e]
  refine Vec3.len_mono ?_ ?_ ?_ <;>
  · simp only [Vec3.smul_x, Vec3.smul_y, Vec3.smul_z, abs_mul, abs_of_nonneg hu]
    exact h.add _ _

end Arith.Within

theorem Vec3.len_tri (a b c : Vec3) : (a - c).len ≤ (a - b).len + (b - c).len := by
  have := Vec3.len_add (a - b) (b - c)
  rwa [show a - b + (b - c) = a - c by ext <;> simp] at this

theorem Vec3.len_le_add (a b : Vec3) : a.len ≤ b.len + (a - b).len := by
  have := Vec3.len_add b (a - b)
  rwa [show b + (a - b) = a by ext <;> simp] at this

theorem Mat3.frob_tri (a b c : Mat3) : (a - c).frob ≤ (a - b).frob + (b - c).frob := by
  have := Mat3.frob_add (a - b) (b - c)
  rwa [show a - b + (b - c) = a - c by ext <;> simp] at this

theorem Mat3.frob_le_add (a b : Mat3) : a.frob ≤ b.frob + (a - b).frob := by
  have := Mat3.frob_add b (a - b)
  rwa [show b + (a - b) = a by ext <;> simp] at this

/-- Product of two rotations that are not quite right. -/
theorem Arith.Within.rot (h : A.Within u l) {R S R' S' : Mat3} (hR : R.IsRot) (hS : S.IsRot)
    {K L : ℝ} (h1 : (R' - R).frob ≤ K - 1) (h2 : (S' - S).frob ≤ L - 1) :
    (A.mulMat R' S' - R * S).frob ≤ (1 + 6 * u) * (K * L) - 1 := by
  have hu := h.nonneg.1
  have hl := h.tiny.2
  have g1 := Mat3.frob_nonneg (R' - R)
  have g2 := Mat3.frob_nonneg (S' - S)
  have m1 : R'.frob ≤ Real.sqrt 3 * K := by
    have := Mat3.frob_le_add R' R
    rw [hR.frob] at this
    nlinarith [sqrt3_ge]
  have m2 : S'.frob ≤ Real.sqrt 3 * L := by
    have := Mat3.frob_le_add S' S
    rw [hS.frob] at this
    nlinarith [sqrt3_ge]
  have m3 : R'.frob * S'.frob ≤ 3 * (K * L) := by
    have := mul_le_mul m1 m2 S'.frob_nonneg (R'.frob_nonneg.trans m1)
    rwa [mul_mul_mul_comm, sqrt3_sq] at this
  have e1 : (R' * S' - R * S).frob ≤ K * L - 1 := by
    have e : R' * S' - R * S = (R * (S' - S) + (R' - R) * S) + (R' - R) * (S' - S) := by
      ext <;> simp <;> ring
    rw [e]
    have t1 := Mat3.frob_add (R * (S' - S) + (R' - R) * S) ((R' - R) * (S' - S))
    have t2 := Mat3.frob_add (R * (S' - S)) ((R' - R) * S)
    have t3 := Mat3.frob_mul (R' - R) (S' - S)
    rw [hR.frob_left, hS.frob_right] at t2
    have t4 : (R' - R).frob * (S' - S).frob ≤ (K - 1) * (L - 1) := mul_le_mul h1 h2 g2 (g1.trans h1)
    nlinarith
  have e2 := h.mulMat_err R' S'
  have e3 := Mat3.frob_tri (A.mulMat R' S') (R' * S') (R * S)
  have k1 : 1 ≤ K * L := by nlinarith
  nlinarith

/-- A point moved by a transform, none of them quite right. -/
theorem Arith.Within.app_err (h : A.Within u l) {R R' : Mat3} (hR : R.IsRot) {x x' t t' : Vec3}
    {K L X Y : ℝ} (h1 : (R' - R).frob ≤ K - 1) (hx : x.len ≤ X) (ht : t.len ≤ Y)
    (h2 : (x' - x).len ≤ (L - 1) * X) (hL : 1 ≤ L) (h3 : (t' - t).len ≤ (K * L - 1) * Y)
    (hl : l ≤ X + Y) :
    (A.app ⟨R', t'⟩ x' - (⟨R, t⟩ : Iso).app x).len ≤ ((1 + 6 * u) * (K * L) - 1) * (X + Y) := by
  have hu := h.nonneg.1
  have hu4 := h.nonneg.2
  have hl0 := h.tiny.1
  have g1 := Mat3.frob_nonneg (R' - R)
  have hX : 0 ≤ X := x.len_nonneg.trans hx
  have hY : 0 ≤ Y := t.len_nonneg.trans ht
  have hK : 1 ≤ K := by linarith
  have k1 : 1 ≤ K * L := by nlinarith
  have m1 : R'.frob ≤ 2 * K := by
    have := Mat3.frob_le_add R' R
    rw [hR.frob] at this
    nlinarith [sqrt3_le]
  have m2 : x'.len ≤ L * X := by
    have := Vec3.len_le_add x' x
    linarith
  have m3 : R'.frob * x'.len ≤ 2 * K * (L * X) :=
    mul_le_mul m1 m2 x'.len_nonneg (by positivity)
  -- the product
  have e1 : (R'.mulVec x' - R.mulVec x).len ≤ (K * L - 1) * X := by
    have e : R'.mulVec x' - R.mulVec x = (R' - R).mulVec x' + R.mulVec (x' - x) := by
      ext <;> simp [Mat3.mulVec] <;> ring
    rw [e]
    have t1 := Vec3.len_add ((R' - R).mulVec x') (R.mulVec (x' - x))
    rw [Vec3.len_rot hR] at t1
    have t2 := Mat3.len_mulVec (R' - R) x'
    have t3 : (R' - R).frob * x'.len ≤ (K - 1) * (L * X) :=
      mul_le_mul h1 m2 x'.len_nonneg (by linarith)
    nlinarith
  have e2 : (A.mulVec R' x' - R.mulVec x).len ≤ (K * L * (1 + 2 * u) - 1) * X + 2 * u * (X + Y) := by
    have t1 := Vec3.len_tri (A.mulVec R' x') (R'.mulVec x') (R.mulVec x)
    have t2 := h.mulVec_err R' x'
    have t3 : Real.sqrt 3 * l ≤ 2 * (X + Y) := mul_le_mul sqrt3_le hl hl0 (by norm_num)
    have t4 : u * (R'.frob * x'.len + Real.sqrt 3 * l) ≤ u * (2 * K * (L * X) + 2 * (X + Y)) :=
      mul_le_mul_of_nonneg_left (add_le_add m3 t3) hu
    nlinarith
  -- the sum
  have e3 : (A.mulVec R' x' + t' - (R.mulVec x + t)).len ≤ (K * L * (1 + 4 * u) - 1) * (X + Y) := by
    rw [show A.mulVec R' x' + t' - (R.mulVec x + t) = (A.mulVec R' x' - R.mulVec x) + (t' - t) by
      ext <;> simp <;> ring]
    have t1 := Vec3.len_add (A.mulVec R' x' - R.mulVec x) (t' - t)
    have t2 : u * (X + Y) ≤ K * L * u * (X + Y) := by
      have : 0 ≤ u * (X + Y) := by positivity
      nlinarith
    have t3 : 0 ≤ K * L * u * Y := by positivity
    nlinarith
  have e4 : (A.mulVec R' x' + t').len ≤ K * L * (1 + 4 * u) * (X + Y) := by
    have t1 := Vec3.len_le_add (A.mulVec R' x' + t') (R.mulVec x + t)
    have t2 := Vec3.len_add (R.mulVec x) t
    rw [Vec3.len_rot hR] at t2
    linarith
  have e5 := h.addVec_err (A.mulVec R' x') t'
  have e6 := Vec3.len_tri (A.addVec (A.mulVec R' x') t') (A.mulVec R' x' + t') (R.mulVec x + t)
  have e7 : u * (A.mulVec R' x' + t').len ≤ u * (K * L * (1 + 4 * u) * (X + Y)) :=
    mul_le_mul_of_nonneg_left e4 hu
  have e8 : 0 ≤ K * L * (X + Y) := by positivity
  have e9 : (1 + u) * (1 + 4 * u) ≤ 1 + 6 * u := by nlinarith
  have e10 := mul_le_mul_of_nonneg_right e9 e8
  show (A.addVec (A.mulVec R' x') t' - (R.mulVec x + t)).len ≤ _
  nlinarith

/-! ## Joints and links -/

theorem Arith.Within.one_axis (h : A.Within u l) (q : ℝ) :
    |A.add (A.sub 1 (A.cos q)) (A.cos q) - 1| ≤ 4 * u := by
  have hu := h.nonneg.1
  have hu4 := h.nonneg.2
  have c1 := h.cos q
  have c2 := Real.abs_cos_le_one q
  have c3 : |A.cos q| ≤ 1 + u := by
    have := abs_add_le (A.cos q - Real.cos q) (Real.cos q)
    rw [sub_add_cancel] at this
    linarith
  have c4 : |1 - A.cos q| ≤ 2 + u := by
    have := abs_sub 1 (A.cos q)
    rw [abs_one] at this
    linarith
  have c5 := h.sub 1 (A.cos q)
  have c6 := h.add (A.sub 1 (A.cos q)) (A.cos q)
  have c7 : |A.sub 1 (A.cos q) + A.cos q - 1| ≤ u * (2 + u) := by
    rw [show A.sub 1 (A.cos q) + A.cos q - 1 = A.sub 1 (A.cos q) - (1 - A.cos q) by ring]
    exact c5.trans (mul_le_mul_of_nonneg_left c4 hu)
  have c8 : |A.sub 1 (A.cos q) + A.cos q| ≤ 1 + u * (2 + u) := by
    have := abs_add_le (A.sub 1 (A.cos q) + A.cos q - 1) 1
    rw [sub_add_cancel, abs_one] at this
    linarith
  have c9 := abs_add_le (A.add (A.sub 1 (A.cos q)) (A.cos q) - (A.sub 1 (A.cos q) + A.cos q))
    (A.sub 1 (A.cos q) + A.cos q - 1)
  rw [sub_add_sub_cancel] at c9
  have c10 := mul_le_mul_of_nonneg_left c8 hu
  have c11 : u * u ≤ u * (1 / 4) := mul_le_mul_of_nonneg_left hu4 hu
  have c12 : u * (u * u) ≤ u * (1 / 16) := mul_le_mul_of_nonneg_left (by linarith) hu
  linarith

theorem Arith.Within.joint_err (h : A.Within u l) (t : JType) (q : ℝ) :
    ((A.Tjoint t q).R - (t.Tjoint q).R).frob ≤ 5 * u ∧ (A.Tjoint t q).t = (t.Tjoint q).t := by
  have hu := h.nonneg.1
  have e1 := sq_le_sq' (abs_le.1 (h.one_axis q)).1 (abs_le.1 (h.one_axis q)).2
  have e2 := sq_le_sq' (abs_le.1 (h.cos q)).1 (abs_le.1 (h.cos q)).2
  have e3 := sq_le_sq' (abs_le.1 (h.sin q)).1 (abs_le.1 (h.sin q)).2
  refine ⟨Mat3.frob_le (by positivity) ?_, ?_⟩
  · cases t <;> simp [Arith.Tjoint, JType.Tjoint] <;> nlinarith
  · cases t <;> ext <;> simp [Arith.Tjoint, JType.Tjoint]

theorem freshTp_len (h : b.Inv E) {k : ℕ} (hk : k < b.dof) : (b.freshTp k).t.len ≤ b.stride k := by
  have := stride_le h hk 0
  rw [show (b.freshTp k).app 0 = (b.freshTp k).t by
    ext <;> simp [Iso.app, Mat3.mulVec], show (0 : Vec3).len = 0 by simp [Vec3.len, Vec3.dot]] at this
  linarith

theorem stride_eq (b : Body) (k : ℕ) : b.stride k =
    ((b.rb k).joint.type.Tjoint (b.q.getD k 0)).t.len + (b.rb k).T.t.len := by
  unfold stride
  rw [add_comm]
  congr 1
  cases (b.rb k).joint.type <;> simp [JType.Tjoint, Vec3.len_smul] <;> simp [Vec3.len, Vec3.dot]

theorem stride_nonneg (b : Body) (k : ℕ) : 0 ≤ b.stride k := by
  rw [stride_eq]
  exact add_nonneg (Vec3.len_nonneg _) (Vec3.len_nonneg _)

/-- A link in its parent. -/
theorem Arith.Within.link_err (h : A.Within u l) (hb : b.Inv E) {k : ℕ} (hk : k < b.dof) :
    ((b.roundTpAt A k (b.q.getD k 0)).R - (b.freshTp k).R).frob ≤ (1 + 6 * u) ^ 2 - 1 ∧
    ((b.roundTpAt A k (b.q.getD k 0)).t - (b.freshTp k).t).len ≤
      ((1 + 6 * u) ^ 2 - 1) * (b.stride k + l) := by
  have hu := h.nonneg.1
  have hl := h.tiny.1
  obtain ⟨j1, j2⟩ := h.joint_err (b.rb k).joint.type (b.q.getD k 0)
  have hT : (b.rb k).T.R.IsRot := hb.rigid.link k hk
  have hz : (1 + 6 * u) * (1 * (1 + 5 * u)) ≤ (1 + 6 * u) ^ 2 := by nlinarith
  have z0 : ((b.rb k).T.R - (b.rb k).T.R).frob = 0 := by simp [Mat3.frob]
  have v0 : (0 : Vec3).len = 0 := by simp [Vec3.len, Vec3.dot]
  constructor
  · refine le_trans (h.rot hT (JType.Tjoint_valid (b.rb k).joint.type (b.q.getD k 0)) (K := 1)
      (L := 1 + 5 * u) (by rw [z0]; norm_num) (by linarith)) (by linarith)
  · have e := h.app_err hT (R' := (b.rb k).T.R) (x := ((b.rb k).joint.type.Tjoint (b.q.getD k 0)).t)
      (x' := (A.Tjoint (b.rb k).joint.type (b.q.getD k 0)).t) (t := (b.rb k).T.t) (t' := (b.rb k).T.t)
      (K := 1) (L := 1) (X := ((b.rb k).joint.type.Tjoint (b.q.getD k 0)).t.len + l)
      (Y := (b.rb k).T.t.len) (by rw [z0]; norm_num) (by linarith) le_rfl
      (by rw [j2, sub_self, v0]; simp) le_rfl (by rw [sub_self, v0]; simp)
      (by have := ((b.rb k).joint.type.Tjoint (b.q.getD k 0)).t.len_nonneg
          have := (b.rb k).T.t.len_nonneg
          linarith)
    rw [show ((b.rb k).joint.type.Tjoint (b.q.getD k 0)).t.len + l + (b.rb k).T.t.len =
      b.stride k + l by rw [stride_eq]; ring] at e
    refine le_trans e (mul_le_mul_of_nonneg_right (by nlinarith [mul_nonneg hu hu]) (add_nonneg (stride_nonneg b k) hl))

/-! ## The chain from the base -/

/-- All lengths between the base and link `k`. -/
noncomputable def Body.span (b : Body) (l : ℝ) (k : ℕ) : ℝ :=
  ∑ i ∈ (b.anc.getD k []).toFinset, (b.stride i + l)

theorem anc_root_set (h : b.Inv E) {k : ℕ} (hk : k < b.dof) (hp : b.par k = none) :
    (b.anc.getD k []).toFinset = {k} := by
  ext i
  rw [List.mem_toFinset, h.tree.anc_mem k hk, mem_singleton]
  constructor
  · intro ha
    cases ha with
    | refl => rfl
    | step e _ => rw [hp] at e; cases e
  · rintro rfl
    exact .refl

theorem span_root (h : b.Inv E) {k : ℕ} (hk : k < b.dof) (hp : b.par k = none) (l : ℝ) :
    b.span l k = b.stride k + l ∧ (b.anc.getD k []).toFinset.card = 1 := by
  unfold Body.span
  rw [anc_root_set h hk hp]
  simp

theorem span_step (h : b.Inv E) {k p : ℕ} (hk : k < b.dof) (hp : b.par k = some p) (l : ℝ) :
    b.span l k = b.stride k + l + b.span l p ∧
      (b.anc.getD k []).toFinset.card = (b.anc.getD p []).toFinset.card + 1 := by
  obtain ⟨-, h1, h2⟩ := anc_insert h hk hp
  unfold Body.span
  rw [h2, sum_insert h1, card_insert_of_notMem h1]
  exact ⟨rfl, rfl⟩

theorem span_nonneg (hl : 0 ≤ l) (k : ℕ) : 0 ≤ b.span l k :=
  sum_nonneg fun i _ => add_nonneg (stride_nonneg b i) hl

theorem span_ge (h : b.Inv E) {k : ℕ} (hk : k < b.dof) (hl : 0 ≤ l) : b.stride k + l ≤ b.span l k :=
  single_le_sum (f := fun i => b.stride i + l) (fun i _ => add_nonneg (stride_nonneg b i) hl)
    (List.mem_toFinset.2 ((h.tree.anc_mem k hk k).2 .refl))

theorem freshTw_len (h : b.Inv E) (hl : 0 ≤ l) {k : ℕ} (hk : k < b.dof) :
    (b.freshTw k).t.len ≤ b.span l k + b.T0.t.len := by
  have h1 := reach_base h k hk 0
  rw [show (b.freshTw k).app 0 = (b.freshTw k).t by
    ext <;> simp [Iso.app, Mat3.mulVec], show (0 : Vec3).len = 0 by simp [Vec3.len, Vec3.dot]] at h1
  have h2 := Vec3.len_le_add (b.freshTw k).t b.T0.t
  have h3 : ∑ i ∈ (b.anc.getD k []).toFinset, b.stride i ≤ b.span l k :=
    sum_le_sum fun i _ => by linarith
  linarith

theorem roundTw_rec (h : b.Inv E) {k : ℕ} (hk : k < b.dof) : b.roundTw A k = match b.par k with
    | none => A.mulIso b.T0 (b.roundTpAt A k (b.q.getD k 0))
    | some p => A.mulIso (b.roundTw A p) (b.roundTpAt A k (b.q.getD k 0)) := by
  have := Sys.fwdLoop_spec' (n := b.dof) (f := fun (Tw : ℕ → Iso) j _ => match b.par j with
    | none => A.mulIso b.T0 (b.roundTpAt A j (b.q.getD j 0))
    | some p => A.mulIso (Tw p) (b.roundTpAt A j (b.q.getD j 0))) (fun i hi x y o hxy => by
      cases hpar : b.par i with
      | none => rfl
      | some p => simp only; rw [hxy p (h.tree.parLt i hi p hpar)]) (fun _ => 1) k hk
  exact this

/-- One link farther. -/
theorem Arith.Within.world_step (h : A.Within u l) (hb : b.Inv E) {k : ℕ} (hk : k < b.dof) {P P' : Iso}
    (hP : P.Valid) {K Y : ℝ} (hK : 1 ≤ K) (h1 : (P'.R - P.R).frob ≤ K - 1) (hY : P.t.len ≤ Y)
    (h2 : (P'.t - P.t).len ≤ (K - 1) * Y) :
    ((A.mulIso P' (b.roundTpAt A k (b.q.getD k 0))).R - (P * b.freshTp k).R).frob ≤
        K * (1 + 6 * u) ^ 3 - 1 ∧
    ((A.mulIso P' (b.roundTpAt A k (b.q.getD k 0))).t - (P * b.freshTp k).t).len ≤
        (K * (1 + 6 * u) ^ 3 - 1) * (b.stride k + l + Y) := by
  have hu := h.nonneg.1
  have hl := h.tiny.1
  have hY0 := P.t.len_nonneg.trans hY
  have hs := stride_nonneg b k
  obtain ⟨l1, l2⟩ := h.link_err hb hk
  have z1 : (1 : ℝ) ≤ (1 + 6 * u) ^ 2 := one_le_pow₀ (by linarith)
  have hv : (b.freshTp k).R.IsRot :=
    (hb.rigid.link k hk).mul (JType.Tjoint_valid (b.rb k).joint.type (b.q.getD k 0))
  have e1 := h.rot (R' := P'.R) (S' := (b.roundTpAt A k (b.q.getD k 0)).R) hP hv h1 l1
  have e2 := h.app_err (R' := P'.R) (x' := (b.roundTpAt A k (b.q.getD k 0)).t) (t' := P'.t) hP
    (X := b.stride k + l) h1 ((freshTp_len hb hk).trans (by linarith)) hY l2 z1
    (h2.trans (mul_le_mul_of_nonneg_right (by nlinarith) hY0)) (by linarith)
  rw [show (1 + 6 * u) * (K * (1 + 6 * u) ^ 2) = K * (1 + 6 * u) ^ 3 by ring] at e1 e2
  exact ⟨e1, e2⟩

theorem Arith.Within.world_err (h : A.Within u l) (hb : b.Inv E) : ∀ k < b.dof,
    ((b.roundTw A k).R - (b.freshTw k).R).frob ≤
      (1 + 6 * u) ^ (3 * (b.anc.getD k []).toFinset.card) - 1 ∧
    ((b.roundTw A k).t - (b.freshTw k).t).len ≤
      ((1 + 6 * u) ^ (3 * (b.anc.getD k []).toFinset.card) - 1) * (b.span l k + b.T0.t.len) := by
  have hu := h.nonneg.1
  have hl := h.tiny.1
  intro k
  induction k using Nat.strong_induction_on with
  | _ k ih =>
    intro hk
    rw [roundTw_rec hb hk, freshTw_top hb.tree hk]
    cases hp : b.par k with
    | none =>
      obtain ⟨s1, s2⟩ := span_root hb hk hp l
      have := h.world_step hb hk (P := b.T0) (P' := b.T0) (K := 1) (Y := b.T0.t.len) hb.rigid.base le_rfl
        (by rw [show (b.T0.R - b.T0.R).frob = 0 by simp [Mat3.frob]]; norm_num) le_rfl
        (by rw [show (b.T0.t - b.T0.t).len = 0 by simp [Vec3.len, Vec3.dot]]; simp)
      rw [s1, s2, mul_one]
      rw [one_mul] at this
      exact this
    | some p =>
      have hpk : p < k := hb.tree.parLt k hk p hp
      have hpd : p < b.dof := by omega
      obtain ⟨s1, s2⟩ := span_step hb hk hp l
      obtain ⟨i1, i2⟩ := ih p hpk hpd
      have := h.world_step hb hk (P := b.freshTw p) (fresh_rot hb hpd)
        (one_le_pow₀ (by linarith : (1 : ℝ) ≤ 1 + 6 * u)) i1 (freshTw_len hb hl hpd) i2
      rw [← pow_add, ← add_assoc] at this
      rw [s1, s2, mul_add, mul_one]
      exact this

theorem Arith.Within.climb_err (h : A.Within u l) (hb : b.Inv E) : ∀ (n k : ℕ), k < b.dof → k < n →
    ∀ (x x' : Vec3) (L X : ℝ), 1 ≤ L → x.len ≤ X → (x' - x).len ≤ (L - 1) * X →
    (b.roundClimb A (fun j => b.q.getD j 0) n (some k) x' -
        b.climb (fun j => b.q.getD j 0) (fun T p => T.app p) n (some k) x).len ≤
      ((1 + 6 * u) ^ (3 * (b.anc.getD k []).toFinset.card) * L - 1) * (X + b.span l k) ∧
    (b.climb (fun j => b.q.getD j 0) (fun T p => T.app p) n (some k) x).len ≤ X + b.span l k := by
  have hu := h.nonneg.1
  have hl := h.tiny.1
  intro n
  induction n with
  | zero => intro k _ hk; omega
  | succ n ih =>
    intro k hk hkn x x' L X hL hX hx
    have hs := stride_nonneg b k
    have hX0 := x.len_nonneg.trans hX
    obtain ⟨l1, l2⟩ := h.link_err hb hk
    have hv : (b.freshTp k).R.IsRot :=
      (hb.rigid.link k hk).mul (JType.Tjoint_valid (b.rb k).joint.type (b.q.getD k 0))
    have z1 : (1 : ℝ) ≤ (1 + 6 * u) ^ 2 := one_le_pow₀ (by linarith)
    have e1 := h.app_err (R' := (b.roundTpAt A k (b.q.getD k 0)).R) (x' := x')
      (t' := (b.roundTpAt A k (b.q.getD k 0)).t) hv (Y := b.stride k + l) l1 hX
      ((freshTp_len hb hk).trans (by linarith)) hx hL
      (l2.trans (mul_le_mul_of_nonneg_right (by nlinarith) (by linarith))) (by linarith)
    rw [show (1 + 6 * u) * ((1 + 6 * u) ^ 2 * L) = (1 + 6 * u) ^ 3 * L by ring] at e1
    have e2 : ((b.freshTp k).app x).len ≤ X + (b.stride k + l) := by
      have := stride_le hb hk x
      linarith
    have z3 : (1 : ℝ) ≤ (1 + 6 * u) ^ 3 * L := by
      have : (1 : ℝ) ≤ (1 + 6 * u) ^ 3 := one_le_pow₀ (by linarith)
      nlinarith
    show (b.roundClimb A _ n (b.par k) (A.app (b.roundTpAt A k (b.q.getD k 0)) x') -
      b.climb _ _ n (b.par k) ((b.freshTp k).app x)).len ≤ _ ∧
      (b.climb _ _ n (b.par k) ((b.freshTp k).app x)).len ≤ _
    cases hp : b.par k with
    | none =>
      obtain ⟨s1, s2⟩ := span_root hb hk hp l
      have c1 : ∀ y, b.roundClimb A (fun j => b.q.getD j 0) n none y = y := fun y => by cases n <;> rfl
      have c2 : ∀ y, b.climb (fun j => b.q.getD j 0) (fun T p => T.app p) n none y = y := fun y => by
        cases n <;> rfl
      rw [c1, c2, s1, s2, mul_one]
      exact ⟨e1, e2⟩
    | some p =>
      have hpk : p < k := hb.tree.parLt k hk p hp
      obtain ⟨s1, s2⟩ := span_step hb hk hp l
      have := ih p (by omega) (by omega) _ _ _ _ z3 e2 e1
      rw [← mul_assoc, ← pow_add, add_assoc X] at this
      rw [s1, s2, mul_add 3, mul_one]
      exact this

theorem anc_list (h : b.Inv E) {k : ℕ} (hk : k < b.dof) (l : ℝ) :
    (b.anc.getD k []).toFinset.card = (b.anc.getD k []).length ∧
      b.span l k = ((b.anc.getD k []).map fun i => b.stride i + l).sum := by
  have := anc_sum h hk (fun i => b.stride i + l) (fun _ => True)
  simp only [decide_true, List.filter_true, filter_true] at this
  refine ⟨List.toFinset_card_of_nodup ((h.tree.anc_sorted k hk).imp fun h => h.ne), this.symm⟩

/-- C138: the pose of a link, computed with operations that are right up to `u`, is off by no more than
`(1 + 6 u) ^ (3 n) - 1` in its rotation, `n` being the number of joints up to the link, and by that part of
the lengths of the links in its translation.  Errors do not grow with the number of calls. -/
theorem C138_pose (h : Reach E b d) (hA : A.Within u l) {k : ℕ} (hk : k < b.dof) :
    ∃ X a, (b.tToWorld (k : ℕ)).map Prod.fst = .ok X ∧ b.ancestors (k : ℕ) = .ok a ∧
      ((b.roundTw A k).R - X.R).frob ≤ (1 + 6 * u) ^ (3 * a.length) - 1 ∧
      ((b.roundTw A k).t - X.t).len ≤ ((1 + 6 * u) ^ (3 * a.length) - 1) *
        ((a.map fun i => b.stride i + l).sum + b.T0.t.len) := by
  obtain ⟨a1, a2⟩ := anc_list h.inv hk l
  refine ⟨b.freshTw k, b.anc.getD k [], ?_, by unfold ancestors; rw [index_ofNat hk]; rfl, ?_⟩
  · unfold Body.tToWorld
    rw [index_ofNat hk]
    show Out.ok _ = _
    rw [h.inv.viewTw k hk]
  · rw [← a1, ← a2]
    exact hA.world_err h.inv k hk

/-- C138: the position of a point of a link. -/
theorem C138_position (h : Reach E b d) (hA : A.Within u l) {k : ℕ} (hk : k < b.dof) (x : Vec3) :
    ∃ p p' a, (b.position (k : ℕ) x).map Prod.fst = .ok p ∧ b.roundPosition A (k : ℕ) x = .ok p' ∧
      b.ancestors (k : ℕ) = .ok a ∧
      (p' - p).len ≤ ((1 + 6 * u) ^ (3 * a.length + 1) - 1) *
        (x.len + (a.map fun i => b.stride i + l).sum + b.T0.t.len) := by
  have hu := hA.nonneg.1
  have hl := hA.tiny.1
  obtain ⟨a1, a2⟩ := anc_list h.inv hk l
  refine ⟨(b.freshTw k).app x, A.app (b.roundTw A k) x, b.anc.getD k [], ?_, ?_,
    by unfold ancestors; rw [index_ofNat hk]; rfl, ?_⟩
  · unfold Body.position
    rw [index_ofNat hk]
    show Out.ok _ = _
    rw [h.inv.viewTw k hk]
  · unfold roundPosition
    rw [index_ofNat hk]
    rfl
  · obtain ⟨w1, w2⟩ := hA.world_err h.inv k hk
    have hsp := span_ge h.inv hk hl
    have hst := stride_nonneg b k
    have := hA.app_err (R' := (b.roundTw A k).R) (x' := x) (t' := (b.roundTw A k).t) (fresh_rot h.inv hk)
      (L := 1) (X := x.len) (Y := b.span l k + b.T0.t.len) w1 le_rfl (freshTw_len h.inv hl hk)
      (by rw [show (x - x).len = 0 by simp [Vec3.len, Vec3.dot]]; simp) le_rfl (by rw [mul_one]; exact w2)
      (by have := x.len_nonneg; have := b.T0.t.len_nonneg; linarith)
    rw [mul_one, ← pow_succ', ← add_assoc] at this
    rw [← a1, ← a2]
    exact this

/-- C138: the position of a point at given joint positions, which multiplies in the other order. -/
theorem C138_position_q (h : Reach E b d) {q : List ℝ} {B : Body} (hB : b.setQ q = .ok B)
    (hA : A.Within u l) {k : ℕ} (hk : k < b.dof) (x : Vec3) :
    ∃ p p' a, b.positionQ (fun j => q.getD j 0) (k : ℕ) x = .ok p ∧
      b.roundPositionQ A (fun j => q.getD j 0) (k : ℕ) x = .ok p' ∧ b.ancestors (k : ℕ) = .ok a ∧
      (p' - p).len ≤ ((1 + 6 * u) ^ (3 * a.length + 1) - 1) *
        (x.len + (a.map fun i => B.stride i + l).sum + b.T0.t.len) := by
  have hu := hA.nonneg.1
  have hl := hA.tiny.1
  obtain ⟨s, n, -, _, r⟩ := h.after_setQ hB
  have hk' : k < B.dof := by rw [n]; exact hk
  obtain ⟨a1, a2⟩ := anc_list r.inv hk' l
  have hq : B.q = q := (setQ_pos hB).1
  have hrb : B.rb = b.rb := by unfold Body.rb; rw [s.rbs]
  have hpar : B.par = b.par := by unfold Body.par; rw [hrb]
  have c0 : b.climbStart (k : ℕ) = .ok (some k) := Body.climbStart_ok (index_ofNat hk)
  have c1 : ∀ m o y, B.climb (fun j => q.getD j 0) (fun T p => T.app p) m o y =
      b.climb (fun j => q.getD j 0) (fun T p => T.app p) m o y := by
    intro m
    induction m with
    | zero => intros; rfl
    | succ m ih =>
      intro o y
      cases o with
      | none => rfl
      | some i =>
        show B.climb _ _ m (B.par i) ((B.TpAt i _).app y) = b.climb _ _ m (b.par i) ((b.TpAt i _).app y)
        rw [ih, hpar]
        unfold TpAt
        rw [hrb]
  have c2 : ∀ m o y, B.roundClimb A (fun j => q.getD j 0) m o y =
      b.roundClimb A (fun j => q.getD j 0) m o y := by
    intro m
    induction m with
    | zero => intros; rfl
    | succ m ih =>
      intro o y
      cases o with
      | none => rfl
      | some i =>
        show B.roundClimb A _ m (B.par i) (A.app (B.roundTpAt A i _) y) =
          b.roundClimb A _ m (b.par i) (A.app (b.roundTpAt A i _) y)
        rw [ih, hpar]
        unfold roundTpAt
        rw [hrb]
  refine ⟨_, _, b.anc.getD k [], by unfold positionQ; rw [c0]; rfl, by unfold roundPositionQ; rw [c0]; rfl,
    by unfold ancestors; rw [index_ofNat hk]; rfl, ?_⟩
  obtain ⟨e1, e2⟩ := hA.climb_err r.inv b.dof k hk' hk x x 1 x.len le_rfl le_rfl
    (by rw [show (x - x).len = 0 by simp [Vec3.len, Vec3.dot]]; simp)
  rw [hq, c1, c2] at e1
  rw [hq, c1] at e2
  have hsp := span_ge r.inv hk' hl
  have hst := stride_nonneg B k
  have hT : b.T0.R.IsRot := h.inv.rigid.base
  rw [mul_one] at e1
  have := hA.app_err (R' := b.T0.R) (t' := b.T0.t) hT (K := 1)
    (by rw [show (b.T0.R - b.T0.R).frob = 0 by simp [Mat3.frob]]; norm_num) e2 (t := b.T0.t) le_rfl e1
    (one_le_pow₀ (by linarith))
    (by rw [show (b.T0.t - b.T0.t).len = 0 by simp [Vec3.len, Vec3.dot], one_mul]
        exact mul_nonneg (sub_nonneg.2 (one_le_pow₀ (by linarith))) (Vec3.len_nonneg _))
    (by have := x.len_nonneg; have := b.T0.t.len_nonneg; linarith)
  rw [one_mul, ← pow_succ'] at this
  rw [← s.anc, ← a1, ← a2]
  exact this

/-- C138: in numbers.  As long as `6 n u` is at most one, `(1 + 6 u) ^ n - 1` is at most `12 n u`. -/
theorem C138_small {n : ℕ} (hu : 0 ≤ u) (hn : 6 * n * u ≤ 1) : (1 + 6 * u) ^ n - 1 ≤ 12 * n * u := by
  have h1 : (1 + 6 * u) ^ n ≤ Real.exp (6 * u) ^ n :=
    pow_le_pow_left₀ (by linarith) (by linarith [Real.add_one_le_exp (6 * u)]) n
  rw [← Real.exp_nat_mul] at h1
  have h2 : ((n : ℝ) * (6 * u)) ≤ 1 := by linarith
  have h3 : 0 ≤ (n : ℝ) * (6 * u) := by positivity
  have h4 := Real.abs_exp_sub_one_le (x := (n : ℝ) * (6 * u)) (by rw [abs_of_nonneg h3]; exact h2)
  rw [abs_of_nonneg h3] at h4
  have h5 := le_abs_self (Real.exp ((n : ℝ) * (6 * u)) - 1)
  linarith

/-! ## Arithmetics -/

theorem Arith.exact_within : Arith.exact.Within 0 0 where
  nonneg := ⟨le_rfl, by norm_num⟩
  tiny := ⟨le_rfl, by norm_num⟩
  add x y := by simp [Arith.exact]
  sub x y := by simp [Arith.exact]
  sin x := by simp [Arith.exact]
  cos x := by simp [Arith.exact]
  dot v w := by simp [Arith.exact]

theorem sum_err {add : ℝ → ℝ → ℝ} {e : ℝ} (he : 0 ≤ e)
    (ha : ∀ x y, |add x y - (x + y)| ≤ e * |x + y|) {x y x0 y0 K p q : ℝ} (hK : 1 ≤ K)
    (hx0 : |x0| ≤ p) (hy0 : |y0| ≤ q)
    (hx : |x - x0| ≤ (K - 1) * p) (hy : |y - y0| ≤ (K - 1) * q) :
    |add x y - (x0 + y0)| ≤ ((1 + e) * K - 1) * (p + q) := by
  have h1 := ha x y
  have h2 : |x + y - (x0 + y0)| ≤ (K - 1) * (p + q) := by
    have := abs_add_le (x - x0) (y - y0)
    rw [show x - x0 + (y - y0) = x + y - (x0 + y0) by ring] at this
    linarith
  have h3 : |x + y| ≤ K * (p + q) := by
    have t1 := abs_add_le (x + y - (x0 + y0)) (x0 + y0)
    have t2 := abs_add_le x0 y0
    rw [sub_add_cancel] at t1
    linarith
  have h4 := abs_add_le (add x y - (x + y)) (x + y - (x0 + y0))
  rw [sub_add_sub_cancel] at h4
  have h5 := mul_le_mul_of_nonneg_left h3 he
  linarith

/-- C138: operations that are right up to `e` each (products that underflow up to `e * t`), as those of
IEEE 754 are with `e` the unit of roundoff, make an arithmetic that is right up to `(1 + e) ^ 3 - 1`,
whatever the order of additions. -/
theorem C138_operations {add sub mul : ℝ → ℝ → ℝ} {sin cos : ℝ → ℝ} {e t : ℝ} (he : 0 ≤ e)
    (he' : e ≤ 1 / 16) (ht : 0 ≤ t) (ht' : t ≤ 1 / 3) (ha : ∀ x y, |add x y - (x + y)| ≤ e * |x + y|)
    (hs : ∀ x y, |sub x y - (x - y)| ≤ e * |x - y|)
    (hm : ∀ x y, |mul x y - x * y| ≤ e * (|x * y| + t))
    (h1 : ∀ x, |sin x - Real.sin x| ≤ e) (h2 : ∀ x, |cos x - Real.cos x| ≤ e) (left : Bool) :
    ({ add := add, sub := sub, sin := sin, cos := cos, dot := dotOf left add mul } : Arith).Within
      ((1 + e) ^ 3 - 1) (3 * t) := by
  have hu : e ≤ (1 + e) ^ 3 - 1 := by nlinarith [mul_nonneg he he, mul_nonneg he (mul_nonneg he he)]
  have hm' : ∀ x y, |mul x y - x * y| ≤ ((1 + e) - 1) * (|x * y| + t) := fun x y => by
    rw [add_sub_cancel_left]
    exact hm x y
  have hle : ∀ x : ℝ, |x| ≤ |x| + t := fun x => by linarith
  refine ⟨⟨he.trans hu, by nlinarith [mul_nonneg he he]⟩, ⟨by linarith, by linarith⟩,
    fun x y => (ha x y).trans (mul_le_mul_of_nonneg_right hu (abs_nonneg _)),
    fun x y => (hs x y).trans (mul_le_mul_of_nonneg_right hu (abs_nonneg _)),
    fun x => (h1 x).trans hu, fun x => (h2 x).trans hu, fun v w => ?_⟩
  have k1 : 1 ≤ 1 + e := by linarith
  have k2 : 1 ≤ (1 + e) * (1 + e) := by nlinarith
  have k3 : 1 + e ≤ (1 + e) * (1 + e) := by nlinarith
  have up : ∀ x y, |mul x y - x * y| ≤ ((1 + e) * (1 + e) - 1) * (|x * y| + t) := fun x y =>
    (hm' x y).trans (mul_le_mul_of_nonneg_right (by linarith) (add_nonneg (abs_nonneg _) ht))
  show |dotOf left add mul v w - v.dot w| ≤ _
  unfold dotOf Vec3.dot
  cases left
  · have s1 := sum_err he ha k1 (hle (v.y * w.y)) (hle (v.z * w.z)) (hm' _ _) (hm' _ _)
    have s2 := sum_err he ha k2 (hle (v.x * w.x))
      ((abs_add_le (v.y * w.y) (v.z * w.z)).trans (add_le_add (hle _) (hle _))) (up _ _) s1
    simp only [Bool.false_eq_true, if_false]
    rw [add_assoc (v.x * w.x)]
    refine s2.trans (le_of_eq ?_)
    ring
  · have s1 := sum_err he ha k1 (hle (v.x * w.x)) (hle (v.y * w.y)) (hm' _ _) (hm' _ _)
    have s2 := sum_err he ha k2 
      ((abs_add_le (v.x * w.x) (v.y * w.y)).trans (add_le_add (hle _) (hle _))) (hle (v.z * w.z)) s1 (up _ _)
    simp only [if_true]
    refine s2.trans (le_of_eq ?_)
    ring

theorem nearest_err (n : ℕ) (x : ℝ) : |nearest n x - x| ≤ (1 / 2) ^ n * |x| := by
  rcases eq_or_ne x 0 with rfl | hx
  · simp [nearest]
  have h0 : 0 < |x| := abs_pos.2 hx
  have h1 : (2 : ℝ) ^ Int.log 2 |x| ≤ |x| := by
    have := Int.zpow_log_le_self (b := 2) (r := |x|) (by norm_num) h0
    exact_mod_cast this
  unfold nearest
  generalize hc : (2 : ℝ) ^ (Int.log 2 |x| + 1 - n) = c
  have hc0 : 0 < c := by rw [← hc]; positivity
  have hc1 : c = 2 ^ Int.log 2 |x| * (2 * (1 / 2) ^ n) := by
    rw [← hc, zpow_sub₀ two_ne_zero, zpow_add_one₀ two_ne_zero, zpow_natCast]
    rw [one_div, inv_pow]
    ring
  have h2 := abs_sub_round (x / c)
  rw [abs_sub_comm] at h2
  rw [show (round (x / c) : ℝ) * c - x = (round (x / c) - x / c) * c by
    rw [sub_mul, div_mul_cancel₀ _ hc0.ne'], abs_mul, abs_of_pos hc0]
  calc _ ≤ 1 / 2 * c := mul_le_mul_of_nonneg_right h2 hc0.le
    _ = (1 / 2) ^ n * 2 ^ Int.log 2 |x| := by rw [hc1]; ring
    _ ≤ _ := mul_le_mul_of_nonneg_left h1 (by positivity)

/-- C138: rounding every operation to the nearest number with `n` digits is such an arithmetic. -/
theorem C138_digits (left : Bool) {n : ℕ} (hn : 4 ≤ n) :
    (Arith.digits left n).Within ((1 + (1 / 2) ^ n) ^ 3 - 1) 0 := by
  have h0 : (0 : ℝ) ≤ (1 / 2) ^ n := by positivity
  have := C138_operations (add := fun x y => nearest n (x + y)) (sub := fun x y => nearest n (x - y))
    (mul := fun x y => nearest n (x * y)) (sin := fun x => nearest n (Real.sin x))
    (cos := fun x => nearest n (Real.cos x)) (e := (1 / 2) ^ n) (t := 0) h0
    ((pow_le_pow_of_le_one (by norm_num) (by norm_num) hn).trans (by norm_num)) le_rfl (by norm_num)
    (fun x y => nearest_err n _) (fun x y => nearest_err n _)
    (fun x y => by rw [add_zero]; exact nearest_err n _)
    (fun x => (nearest_err n _).trans (mul_le_of_le_one_right h0 (Real.abs_sin_le_one x)))
    (fun x => (nearest_err n _).trans (mul_le_of_le_one_right h0 (Real.abs_cos_le_one x))) left
  rw [mul_zero] at this
  exact this

theorem double_unit : ((1 : ℝ) + (1 / 2) ^ 53) ^ 3 - 1 ≤ 4 * (1 / 2) ^ 53 := by norm_num

/-- C138: with numbers of 53 digits, a point that hangs on at most a million joints is placed within
`3e-14` of the length of the chain for every joint. -/
theorem C138_double (h : Reach E b d) (left : Bool) {k : ℕ} (hk : k < b.dof) (x : Vec3) :
    ∃ p p' a, (b.position (k : ℕ) x).map Prod.fst = .ok p ∧
      b.roundPosition (Arith.digits left 53) (k : ℕ) x = .ok p' ∧ b.ancestors (k : ℕ) = .ok a ∧
      (a.length ≤ 1000000 → (p' - p).len ≤ 3 / 10 ^ 14 * a.length *
        (x.len + (a.map fun i => b.stride i).sum + b.T0.t.len)) := by
  have hA := C138_digits left (n := 53) (by norm_num)
  obtain ⟨p, p', a, h1, h2, h3, h4⟩ := C138_position h hA hk x
  refine ⟨p, p', a, h1, h2, h3, fun hn => ?_⟩
  simp only [add_zero] at h4
  have hU := double_unit
  have hu0 := hA.nonneg.1
  generalize ((1 : ℝ) + (1 / 2) ^ 53) ^ 3 - 1 = w at hU hu0 h4
  have hN : (a.length : ℝ) ≤ 1000000 := by exact_mod_cast hn
  have ha1 : (1 : ℝ) ≤ a.length := by
    have e : b.anc.getD k [] = a := by
      have : b.ancestors (k : ℕ) = .ok (b.anc.getD k []) := by unfold ancestors; rw [index_ofNat hk]; rfl
      rw [this] at h3
      exact Out.ok.inj h3
    rw [← e]
    exact_mod_cast List.length_pos_of_mem ((h.inv.tree.anc_mem k hk k).2 .refl)
  have h5 : (1 + 6 * w) ^ (3 * a.length + 1) - 1 ≤ 12 * ((3 * a.length + 1 : ℕ) : ℝ) * w := by
    refine C138_small hu0 ?_
    push_cast
    calc 6 * (3 * (a.length : ℝ) + 1) * w ≤ 6 * (3 * 1000000 + 1) * (4 * (1 / 2) ^ 53) := by gcongr
      _ ≤ 1 := by norm_num
  have h6 : 12 * ((3 * a.length + 1 : ℕ) : ℝ) * w ≤ 3 / 10 ^ 14 * a.length := by
    push_cast
    calc 12 * (3 * (a.length : ℝ) + 1) * w ≤ 12 * (4 * a.length) * (4 * (1 / 2) ^ 53) := by
          gcongr
          linarith
      _ = (192 * (1 / 2) ^ 53) * a.length := by ring
      _ ≤ _ := by gcongr; norm_num
  have hs : 0 ≤ (a.map fun i => b.stride i).sum :=
    List.sum_nonneg fun y hy => by
      obtain ⟨i, -, rfl⟩ := List.mem_map.1 hy
      exact stride_nonneg b i
  exact h4.trans (mul_le_mul_of_nonneg_right (h5.trans h6)
    (add_nonneg (add_nonneg x.len_nonneg hs) b.T0.t.len_nonneg))

/-- C138: the two overloads of `Position`, equal in exact arithmetic, differ by no more than twice the
bound. -/
theorem C138_agree (h : Reach E b d) {q : List ℝ} {B : Body} (hB : b.setQ q = .ok B)
    (hA : A.Within u l) {k : ℕ} (hk : k < b.dof) (x : Vec3) :
    ∃ p p' a, B.roundPosition A (k : ℕ) x = .ok p ∧
      b.roundPositionQ A (fun j => q.getD j 0) (k : ℕ) x = .ok p' ∧ b.ancestors (k : ℕ) = .ok a ∧
      (p' - p).len ≤ 2 * (((1 + 6 * u) ^ (3 * a.length + 1) - 1) *
        (x.len + (a.map fun i => B.stride i + l).sum + b.T0.t.len)) := by
  obtain ⟨s, n, -, _, r⟩ := h.after_setQ hB
  obtain ⟨p, p', a, h1, h2, h3, h4⟩ := C138_position_q h hB hA hk x
  obtain ⟨r1, r2, a', g1, g2, g3, g4⟩ := C138_position r hA (by rw [n]; exact hk) x
  have e := (C17_variants_agree_partial h hB (i := (k : ℕ)) (k := k) (by
    exact Or.inl rfl |> fun e => ⟨hk, e⟩) x).1
  rw [h1, g1] at e
  obtain rfl := Out.ok.inj e
  have ea : a' = a := by
    have : B.ancestors (k : ℕ) = b.ancestors (k : ℕ) := by
      unfold ancestors
      rw [index_ofNat hk, index_ofNat (by rw [n]; exact hk), s.anc]
    rw [g3, h3] at this
    exact Out.ok.inj this
  subst ea
  refine ⟨r2, p', a', g2, h2, h3, ?_⟩
  have t := Vec3.len_tri p' p r2
  rw [show (p - r2).len = (r2 - p).len by
    unfold Vec3.len Vec3.dot; congr 1; simp only [Vec3.sub_x, Vec3.sub_y, Vec3.sub_z]; ring] at t
  rw [s.T0] at g4
  linarith

/-- C138: exact arithmetic gives the exact answers. -/
theorem C138_exact (h : Reach E b d) {k : ℕ} (hk : k < b.dof) (x : Vec3) :
    (b.position (k : ℕ) x).map Prod.fst = b.roundPosition .exact (k : ℕ) x ∧
    (b.tToWorld (k : ℕ)).map Prod.fst = .ok (b.roundTw .exact k) := by
  obtain ⟨p, p', a, h1, h2, -, h4⟩ := C138_position h Arith.exact_within hk x
  obtain ⟨X, a', g1, -, g2, g3⟩ := C138_pose h Arith.exact_within hk
  simp only [mul_zero, add_zero, one_pow, sub_self, zero_mul] at h4 g2 g3
  have z : ∀ v w : Vec3, (v - w).len ≤ 0 → v = w := fun v w hv => by
    have := Vec3.len_sq (v - w)
    rw [le_antisymm hv (Vec3.len_nonneg _)] at this
    simp only [Vec3.dot, Vec3.sub_x, Vec3.sub_y, Vec3.sub_z] at this
    ext <;> nlinarith
  refine ⟨by rw [h1, h2, z _ _ h4], ?_⟩
  rw [g1]
  congr 1
  have hR : (b.roundTw .exact k).R = X.R := by
    have s := Mat3.frob_sq ((b.roundTw .exact k).R - X.R)
    rw [le_antisymm g2 (Mat3.frob_nonneg _)] at s
    generalize (b.roundTw .exact k).R = R at s ⊢
    change (0 : ℝ) ^ 2 = (R.m00 - X.R.m00) ^ 2 + (R.m01 - X.R.m01) ^ 2 + (R.m02 - X.R.m02) ^ 2 +
      (R.m10 - X.R.m10) ^ 2 + (R.m11 - X.R.m11) ^ 2 + (R.m12 - X.R.m12) ^ 2 + (R.m20 - X.R.m20) ^ 2 +
      (R.m21 - X.R.m21) ^ 2 + (R.m22 - X.R.m22) ^ 2 at s
    have z0 : ∀ a c : ℝ, (a - c) ^ 2 ≤ 0 → a = c := fun a c hac =>
      sub_eq_zero.1 (pow_eq_zero_iff two_ne_zero |>.1 (le_antisymm hac (sq_nonneg _)))
    have p0 := sq_nonneg (R.m00 - X.R.m00)
    have p1 := sq_nonneg (R.m01 - X.R.m01)
    have p2 := sq_nonneg (R.m02 - X.R.m02)
    have p3 := sq_nonneg (R.m10 - X.R.m10)
    have p4 := sq_nonneg (R.m11 - X.R.m11)
    have p5 := sq_nonneg (R.m12 - X.R.m12)
    have p6 := sq_nonneg (R.m20 - X.R.m20)
    have p7 := sq_nonneg (R.m21 - X.R.m21)
    have p8 := sq_nonneg (R.m22 - X.R.m22)
    ext <;> exact z0 _ _ (by linarith)
  cases hx : X; cases hy : b.roundTw .exact k
  rw [hx, hy] at hR g3
  simp only at hR g3
  rw [hR, z _ _ g3]

/-- C138: the computed rotations stay close to rotations. -/
theorem C138_orthonormal (h : Reach E b d) (hA : A.Within u l) {k : ℕ} (hk : k < b.dof) :
    ∃ a, b.ancestors (k : ℕ) = .ok a ∧
      ((b.roundTw A k).R.T * (b.roundTw A k).R - 1).frob ≤ (1 + 6 * u) ^ (6 * a.length) - 1 := by
  obtain ⟨a1, -⟩ := anc_list h.inv hk l
  refine ⟨b.anc.getD k [], by unfold ancestors; rw [index_ofNat hk]; rfl, ?_⟩
  have w1 := (hA.world_err h.inv k hk).1
  have hr := fresh_rot h.inv hk
  rw [a1] at w1
  rw [show 6 * (b.anc.getD k []).length = 3 * (b.anc.getD k []).length + 3 * (b.anc.getD k []).length by ring,
    pow_add]
  generalize (1 + 6 * u) ^ (3 * (b.anc.getD k []).length) = K at w1 ⊢
  generalize (b.roundTw A k).R = R' at w1 ⊢
  generalize (b.freshTw k).R = R at w1 hr ⊢
  have e : R'.T * R' - 1 = R.T * (R' - R) + (R' - R).T * R + (R' - R).T * (R' - R) := by
    rw [← hr.1]
    ext <;> simp [Mat3.T] <;> ring
  rw [e]
  have s1 := Mat3.frob_add (R.T * (R' - R) + (R' - R).T * R) ((R' - R).T * (R' - R))
  have s2 := Mat3.frob_add (R.T * (R' - R)) ((R' - R).T * R)
  have s3 := Mat3.frob_mul (R' - R).T (R' - R)
  rw [hr.frob_right, Mat3.frob_T, hr.T.frob_left] at s2
  rw [Mat3.frob_T] at s3
  have s4 := mul_self_le_mul_self (Mat3.frob_nonneg (R' - R)) w1
  linarith

theorem nearest_17 : nearest 4 17 = 18 := by
  have h : Int.log 2 |(17 : ℝ)| = 4 := by
    rw [abs_of_pos (by norm_num), show (17 : ℝ) = ((17 : ℕ) : ℝ) by norm_num, Int.log_natCast]
    rw [Nat.log_eq_of_pow_le_of_lt_pow (m := 4) (by norm_num) (by norm_num)]
    rfl
  unfold nearest
  rw [h, round_eq, show (17 : ℝ) / 2 ^ ((4 : ℤ) + 1 - (4 : ℕ)) + 1 / 2 = ((9 : ℤ) : ℝ) by norm_num,
    Int.floor_intCast]
  norm_num

/-- The hypotheses of C138 are met by the demo robot and an arithmetic that is not exact. -/
example : (∃ d, Reach ext0 Body.demo d) ∧ (Arith.digits true 4).Within ((1 + (1 / 2) ^ 4) ^ 3 - 1) 0 ∧
    (Arith.digits true 4).add 16 1 = 18 :=
  ⟨demo_reach ext0, C138_digits true le_rfl, by
    show nearest 4 (16 + 1) = 18
    norm_num [nearest_17]⟩

end SpatialDyn
