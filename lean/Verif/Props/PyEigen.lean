import Mathlib.Algebra.BigOperators.Fin
import Verif.Model.PyEigen
import Verif.Lemmas.Spatial

/-! # Property C142: transforms made in Python -/

namespace SpatialDyn
open PyIso

/-! ## Specification -/

/-- The columns of `linear()` are of unit length and at right angles. -/
def PyIso.Orthonormal (T : PyIso) : Prop :=
  ∀ i j : Fin 3, ∑ k, T.get (.linear k i) * T.get (.linear k j) = if i = j then 1 else 0

/-- The third column of `linear()` is the cross product of the first two. -/
def PyIso.RightHanded (T : PyIso) : Prop :=
  T.get (.linear 0 2) = T.get (.linear 1 0) * T.get (.linear 2 1) - T.get (.linear 2 0) * T.get (.linear 1 1) ∧
  T.get (.linear 1 2) = T.get (.linear 2 0) * T.get (.linear 0 1) - T.get (.linear 0 0) * T.get (.linear 2 1) ∧
  T.get (.linear 2 2) = T.get (.linear 0 0) * T.get (.linear 1 1) - T.get (.linear 1 0) * T.get (.linear 0 1)

/-! ## Arrays that share memory -/

/-- C142: assigning to an entry of `matrix()` changes that entry of the transform and no other; entries of
`linear()` and `translation()` are entries of `matrix()`. -/
theorem C142_views (T : PyIso) (i j k l : Fin 4) (a c : Fin 3) (x : ℝ) :
    (T.put (.matrix i j) x).get (.matrix i j) = x ∧
    ((k, l) ≠ (i, j) → (T.put (.matrix i j) x).get (.matrix k l) = T.get (.matrix k l)) ∧
    T.put (.linear a c) x = T.put (.matrix a.castSucc c.castSucc) x ∧
    T.get (.linear a c) = T.get (.matrix a.castSucc c.castSucc) ∧
    T.put (.translation a) x = T.put (.matrix a.castSucc 3) x ∧
    T.get (.translation a) = T.get (.matrix a.castSucc 3) := by
  refine ⟨?_, fun h => ?_, rfl, rfl, rfl, rfl⟩
  · simp [PyIso.put, PyIso.get, place]
  · exact if_neg h

/-- C142: constructing a transform from a 4x4 matrix takes all entries as they are. -/
theorem C142_from_matrix (M : Fin 4 → Fin 4 → ℝ) (i j : Fin 4) : (ofMatrix M).get (.matrix i j) = M i j := rfl

/-- C142: constructing a transform from a 3x3 matrix takes it as `linear()`, with no translation. -/
theorem C142_from_linear (R : Fin 3 → Fin 3 → ℝ) (i j : Fin 3) (l : Fin 4) :
    (ofLinear R).get (.linear i j) = R i j ∧ (ofLinear R).get (.translation i) = 0 ∧
    (ofLinear R).get (.matrix 3 l) = if l = 3 then 1 else 0 := by
  refine ⟨?_, ?_, ?_⟩
  · have hi : ((i.castSucc : Fin 4) : ℕ) < 3 := i.2
    have hj : ((j.castSucc : Fin 4) : ℕ) < 3 := j.2
    exact (dif_pos hi).trans (dif_pos hj)
  · have hi : ((i.castSucc : Fin 4) : ℕ) < 3 := i.2
    exact (dif_pos hi).trans (dif_neg (lt_irrefl 3))
  · fin_cases l <;> simp [PyIso.get, place, ofLinear]

/-- The vector `T.linear() @ v`. -/
def PyIso.turned (T : PyIso) (v : Vec3) : Vec3 where
  x := T.get (.linear 0 0) * v.x + T.get (.linear 0 1) * v.y + T.get (.linear 0 2) * v.z
  y := T.get (.linear 1 0) * v.x + T.get (.linear 1 1) * v.y + T.get (.linear 1 2) * v.z
  z := T.get (.linear 2 0) * v.x + T.get (.linear 2 1) * v.y + T.get (.linear 2 2) * v.z

/-- The vector `np.cross(T.translation(), v)`. -/
def PyIso.levered (T : PyIso) (v : Vec3) : Vec3 where
  x := T.get (.translation 1) * v.z - T.get (.translation 2) * v.y
  y := T.get (.translation 2) * v.x - T.get (.translation 0) * v.z
  z := T.get (.translation 0) * v.y - T.get (.translation 1) * v.x

/-- C142: what `mdot` and `fdot` answer, whatever the entries: both halves are turned by `linear()`, and the
lever arm `translation()` adds the velocity of the turning and the moment of the force. -/
theorem C142_act (T : PyIso) (m : Motion) (f : Force) :
    T.mdot m = ⟨T.turned m.lin + T.levered (T.turned m.ang), T.turned m.ang⟩ ∧
    T.fdot f = ⟨T.turned f.lin, T.turned f.ang + T.levered (T.turned f.lin)⟩ := by
  have ht : ∀ v, T.turned v = T.iso.R.mulVec v := fun v => rfl
  have hl : ∀ v : Vec3, T.levered v = -(v.cross T.iso.t) := fun v => by
    ext <;> simp [levered, PyIso.get, place, Vec3.cross, iso] <;> ring
  constructor
  · refine Motion.ext ?_ rfl
    rw [hl, ht, ht, ← sub_eq_add_neg]
    rfl
  · refine Force.ext rfl ?_
    rw [hl, ht, ht, ← sub_eq_add_neg]
    rfl

/-! ## Inverses -/

/-- C142: what `inverse()` answers, whatever the entries. -/
theorem C142_inverse (T : PyIso) (i j : Fin 3) (l : Fin 4) :
    T.inverse.get (.linear i j) = T.get (.linear j i) ∧
    T.inverse.get (.translation i) = -∑ k, T.get (.linear k i) * T.get (.translation k) ∧
    T.inverse.get (.matrix 3 l) = if l = 3 then 1 else 0 := by
  refine ⟨?_, ?_, ?_⟩
  · fin_cases i <;> fin_cases j <;> rfl
  · rw [Fin.sum_univ_three]
    fin_cases i <;> simp [PyIso.get, place, inverse, ofIso, iso, Mat3.mulVec, Mat3.T] <;> ring
  · fin_cases l <;> rfl

theorem ofIso_iso (A : Iso) : (ofIso A).iso = A := rfl

theorem inverse_iso (T : PyIso) : T.inverse.iso = ⟨T.iso.R.T, -(T.iso.R.T.mulVec T.iso.t)⟩ := rfl

theorem orthonormal_iff (T : PyIso) : T.Orthonormal ↔ T.iso.R.T * T.iso.R = 1 := by
  unfold Orthonormal
  constructor
  · intro h
    have h' := fun i j => h i j
    simp only [Fin.sum_univ_three] at h'
    have e := fun i j => h' i j
    ext
    · exact e 0 0
    · exact e 0 1
    · exact e 0 2
    · exact e 1 0
    · exact e 1 1
    · exact e 1 2
    · exact e 2 0
    · exact e 2 1
    · exact e 2 2
  · intro h i j
    rw [Fin.sum_univ_three]
    fin_cases i <;> fin_cases j
    · exact congrArg Mat3.m00 h
    · exact congrArg Mat3.m01 h
    · exact congrArg Mat3.m02 h
    · exact congrArg Mat3.m10 h
    · exact congrArg Mat3.m11 h
    · exact congrArg Mat3.m12 h
    · exact congrArg Mat3.m20 h
    · exact congrArg Mat3.m21 h
    · exact congrArg Mat3.m22 h

theorem det_sq {R : Mat3} (h : R.T * R = 1) : R.det * R.det = 1 := by
  have := congrArg Mat3.det h
  rwa [Mat3.det_mul, Mat3.det_T, Mat3.det_one] at this

theorem adj_orth {R : Mat3} (h : R.T * R = 1) : R.adj = R.det • R.T := by
  calc R.adj = (R.T * R) * R.adj := by rw [h, Mat3.one_mul']
    _ = R.T * (R * R.adj) := Mat3.mul_assoc' _ _ _
    _ = R.det • R.T := by
      rw [Mat3.mul_adj]
      ext <;> simp <;> ring

theorem rightHanded_iff {T : PyIso} (h : T.Orthonormal) : T.RightHanded ↔ T.iso.R.det = 1 := by
  have h1 := (orthonormal_iff T).1 h
  have h2 := adj_orth h1
  have h3 := det_sq h1
  constructor
  · rintro ⟨a, b, c⟩
    have e : T.iso.R.m02 * T.iso.R.m02 + T.iso.R.m12 * T.iso.R.m12 + T.iso.R.m22 * T.iso.R.m22 = 1 :=
      congrArg Mat3.m22 h1
    have a' : T.iso.R.m02 = T.iso.R.m10 * T.iso.R.m21 - T.iso.R.m20 * T.iso.R.m11 := a
    have b' : T.iso.R.m12 = T.iso.R.m20 * T.iso.R.m01 - T.iso.R.m00 * T.iso.R.m21 := b
    have c' : T.iso.R.m22 = T.iso.R.m00 * T.iso.R.m11 - T.iso.R.m10 * T.iso.R.m01 := c
    rw [← e]
    unfold Mat3.det
    linear_combination -T.iso.R.m02 * a' - T.iso.R.m12 * b' - T.iso.R.m22 * c'
  · intro hd
    rw [hd, Mat3.one_smul'] at h2
    have k0 := congrArg Mat3.m20 h2
    have k1 := congrArg Mat3.m21 h2
    have k2 := congrArg Mat3.m22 h2
    simp only [Mat3.adj, Mat3.T] at k0 k1 k2
    refine ⟨?_, ?_, ?_⟩
    · show T.iso.R.m02 = T.iso.R.m10 * T.iso.R.m21 - T.iso.R.m20 * T.iso.R.m11
      linarith
    · show T.iso.R.m12 = T.iso.R.m20 * T.iso.R.m01 - T.iso.R.m00 * T.iso.R.m21
      linarith
    · show T.iso.R.m22 = T.iso.R.m00 * T.iso.R.m11 - T.iso.R.m10 * T.iso.R.m01
      linarith

/-- Transposed matrix and cross product, for any matrix. -/
theorem T_cross (R : Mat3) (u v : Vec3) : R.T.mulVec ((R.mulVec u).cross (R.mulVec v)) = R.det • u.cross v := by
  ext <;> simp [Mat3.mulVec, Mat3.T, Vec3.cross, Mat3.det] <;> ring

theorem mulVec_ext {A B : Mat3} (h : ∀ v, A.mulVec v = B.mulVec v) : A = B := by
  have h0 := h ⟨1, 0, 0⟩
  have h1 := h ⟨0, 1, 0⟩
  have h2 := h ⟨0, 0, 1⟩
  simp only [Mat3.mulVec, Vec3.mk.injEq, mul_one, mul_zero, add_zero, zero_add] at h0 h1 h2
  ext
  exacts [h0.1, h1.1, h2.1, h0.2.1, h1.2.1, h2.2.1, h0.2.2, h1.2.2, h2.2.2]

theorem T_mul_of {R : Mat3} (h : R.T * R = 1) : R * R.T = 1 := by
  have h2 := adj_orth h
  have h3 := det_sq h
  have h4 := Mat3.mul_adj R
  rw [h2] at h4
  have e : R * (R.det • R.T) = R.det • (R * R.T) := by
    ext <;> simp <;> ring
  rw [e] at h4
  have h5 : R.det • R.det • (R * R.T) = R.det • R.det • (1 : Mat3) := by rw [h4]
  have e2 : ∀ M : Mat3, R.det • R.det • M = M := fun M => by
    have : R.det • R.det • M = (R.det * R.det) • M := by ext <;> simp <;> ring
    rw [this, h3, Mat3.one_smul']
  rwa [e2, e2] at h5

theorem cross_all {t : Vec3} (h : ∀ v : Vec3, v.cross t = 0) : t = 0 := by
  have h0 := h ⟨1, 0, 0⟩
  have h1 := h ⟨0, 1, 0⟩
  have k1 := congrArg Vec3.z h0
  have k2 := congrArg Vec3.y h0
  have k3 := congrArg Vec3.z h1
  simp [Vec3.cross] at k1 k2 k3
  ext <;> simp [k1, k2, k3]

/-- One half of undoing a transform. -/
theorem undo_half {R : Mat3} (h : R.T * R = 1) (t a l : Vec3) :
    R.T.mulVec (R.mulVec l - (R.mulVec a).cross t) - (R.T.mulVec (R.mulVec a)).cross (-(R.T.mulVec t)) =
      l + (1 - R.det) • a.cross (R.T.mulVec t) := by
  have ht : t = R.mulVec (R.T.mulVec t) := by
    rw [Mat3.mulVec_mulVec, T_mul_of h, Mat3.one_mulVec]
  have h1 : R.T.mulVec (R.mulVec l - (R.mulVec a).cross t) =
      l - R.det • a.cross (R.T.mulVec t) := by
    conv_lhs => rw [ht]
    have e : ∀ u v : Vec3, R.T.mulVec (u - v) = R.T.mulVec u - R.T.mulVec v := fun u v => by
      ext <;> simp [Mat3.mulVec] <;> ring
    rw [e, T_cross, Mat3.mulVec_mulVec R.T R l, h, Mat3.one_mulVec]
  rw [h1, Mat3.mulVec_mulVec R.T R a, h, Mat3.one_mulVec]
  ext <;> simp [Vec3.cross] <;> ring

theorem undo_iff (T : PyIso) : (T.iso.R.T * T.iso.R = 1 ∧ ∀ a : Vec3,
    (1 - T.iso.R.det) • a.cross (T.iso.R.T.mulVec T.iso.t) = 0) ↔
    T.Orthonormal ∧ (T.RightHanded ∨ ∀ i, T.get (.translation i) = 0) := by
  rw [orthonormal_iff]
  constructor
  · rintro ⟨h, h2⟩
    refine ⟨h, ?_⟩
    by_cases hd : T.iso.R.det = 1
    · exact Or.inl ((rightHanded_iff ((orthonormal_iff T).2 h)).2 hd)
    · right
      have h0 : T.iso.R.T.mulVec T.iso.t = 0 := cross_all fun v =>
        (smul_eq_zero.1 (h2 v)).resolve_left fun k => hd (by linarith)
      have ht : T.iso.t = 0 := by
        have := congrArg T.iso.R.mulVec h0
        rw [Mat3.mulVec_mulVec, T_mul_of h, Mat3.one_mulVec] at this
        rw [this]
        ext <;> simp [Mat3.mulVec]
      intro i
      fin_cases i
      · exact congrArg Vec3.x ht
      · exact congrArg Vec3.y ht
      · exact congrArg Vec3.z ht
  · rintro ⟨h, h2⟩
    refine ⟨h, fun a => ?_⟩
    rcases h2 with h2 | h2
    · rw [(rightHanded_iff ((orthonormal_iff T).2 h)).1 h2, sub_self, zero_smul]
    · have ht : T.iso.t = 0 := by
        ext
        · exact h2 0
        · exact h2 1
        · exact h2 2
      rw [ht]
      ext <;> simp [Mat3.mulVec, Vec3.cross]

/-- C142: `T.inverse()` undoes `T.mdot` exactly for the transforms whose `linear()` has orthonormal
columns, and is right-handed or comes without translation. -/
theorem C142_undo_motion_iff (T : PyIso) : (∀ m, T.inverse.mdot (T.mdot m) = m) ↔
    T.Orthonormal ∧ (T.RightHanded ∨ ∀ i, T.get (.translation i) = 0) := by
  rw [← undo_iff]
  constructor
  · intro h
    have h1 : T.iso.R.T * T.iso.R = 1 := mulVec_ext fun v => by
      have := congrArg Motion.ang (h ⟨0, v⟩)
      rw [Mat3.one_mulVec, ← Mat3.mulVec_mulVec]
      exact this
    refine ⟨h1, fun a => ?_⟩
    have := congrArg Motion.lin (h ⟨0, a⟩)
    have e := undo_half h1 T.iso.t a 0
    rw [zero_add] at e
    rw [← e]
    exact this
  · rintro ⟨h1, h2⟩ m
    refine Motion.ext ?_ ?_
    · refine (undo_half h1 T.iso.t m.ang m.lin).trans ?_
      rw [h2, add_zero]
    · show T.iso.R.T.mulVec (T.iso.R.mulVec m.ang) = m.ang
      rw [Mat3.mulVec_mulVec, h1, Mat3.one_mulVec]

/-- C142: the same for forces. -/
theorem C142_undo_force_iff (T : PyIso) : (∀ f, T.inverse.fdot (T.fdot f) = f) ↔
    T.Orthonormal ∧ (T.RightHanded ∨ ∀ i, T.get (.translation i) = 0) := by
  rw [← undo_iff]
  constructor
  · intro h
    have h1 : T.iso.R.T * T.iso.R = 1 := mulVec_ext fun v => by
      have := congrArg Force.lin (h ⟨v, 0⟩)
      rw [Mat3.one_mulVec, ← Mat3.mulVec_mulVec]
      exact this
    refine ⟨h1, fun a => ?_⟩
    have := congrArg Force.ang (h ⟨a, 0⟩)
    have e := undo_half h1 T.iso.t a 0
    rw [zero_add] at e
    rw [← e]
    exact this
  · rintro ⟨h1, h2⟩ m
    refine Force.ext ?_ ?_
    · show T.iso.R.T.mulVec (T.iso.R.mulVec m.lin) = m.lin
      rw [Mat3.mulVec_mulVec, h1, Mat3.one_mulVec]
    · refine (undo_half h1 T.iso.t m.lin m.ang).trans ?_
      rw [h2, add_zero]

/-- C142: power is the same before and after `mdot` and `fdot` exactly if `linear()` has orthonormal
columns. -/
theorem C142_power_iff (T : PyIso) : (∀ m f, (T.mdot m).dot (T.fdot f) = m.dot f) ↔ T.Orthonormal := by
  rw [orthonormal_iff]
  have key : ∀ m f, (T.mdot m).dot (T.fdot f) =
      m.lin.dot ((T.iso.R.T * T.iso.R).mulVec f.lin) + m.ang.dot ((T.iso.R.T * T.iso.R).mulVec f.ang) := by
    intro m f
    unfold mdot fdot
    generalize T.iso = A
    simp [Iso.actM, Iso.actF, Motion.dot, Mat3.mulVec, Mat3.T, Vec3.cross, Vec3.dot]
    ring
  constructor
  · intro h
    refine mulVec_ext fun v => ?_
    have k := fun u => (key ⟨u, 0⟩ ⟨v, 0⟩).symm.trans (h ⟨u, 0⟩ ⟨v, 0⟩)
    have k0 := k ⟨1, 0, 0⟩
    have k1 := k ⟨0, 1, 0⟩
    have k2 := k ⟨0, 0, 1⟩
    simp only [Vec3.dot, Motion.dot, Vec3.zero_x, Vec3.zero_y, Vec3.zero_z, one_mul, zero_mul, add_zero,
      zero_add] at k0 k1 k2
    rw [Mat3.one_mulVec]
    exact Vec3.ext k0 k1 k2
  · intro h m f
    rw [key, h, Mat3.one_mulVec, Mat3.one_mulVec]
    simp [Vec3.dot, Motion.dot]
    ring

/-- C142: nothing keeps a transform rigid.  A matrix that doubles lengths is accepted, and its inverse does
not undo it; so is one assignment to an entry of the identity. -/
theorem C142_violated : (∃ M, ∃ m, (ofMatrix M).inverse.mdot ((ofMatrix M).mdot m) ≠ m) ∧
    ∃ m, ((ofLinear fun i j => if i = j then 1 else 0).put (.linear 0 0) 2).inverse.mdot
      (((ofLinear fun i j => if i = j then 1 else 0).put (.linear 0 0) 2).mdot m) ≠ m := by
  constructor
  · refine ⟨fun i j => if i = j then if i = 3 then 1 else 2 else 0, ?_⟩
    by_contra h
    push Not at h
    have := ((C142_undo_motion_iff _).1 h).1 0 0
    rw [Fin.sum_univ_three] at this
    simp [ofMatrix, PyIso.get, place] at this
    norm_num at this
  · by_contra h
    push Not at h
    have := ((C142_undo_motion_iff _).1 h).1 0 0
    rw [Fin.sum_univ_three] at this
    simp [PyIso.put, ofLinear, PyIso.get, place] at this
    norm_num at this

/-! ## Translations -/

/-- C142: a `Translation3d` is undone by its inverse, preserves power, and acts as the `Isometry3d` with the
same translation that does not turn. -/
theorem C142_translation (t : PyTrans) (T : PyIso) (m : Motion) (f : Force)
    (hT : ∀ i j, T.get (.linear i j) = if i = j then 1 else 0)
    (ht : T.get (.translation 0) = t.x ∧ T.get (.translation 1) = t.y ∧ T.get (.translation 2) = t.z) :
    t.inverse.mdot (t.mdot m) = m ∧ t.inverse.fdot (t.fdot f) = f ∧ (t.mdot m).dot (t.fdot f) = m.dot f ∧
    T.mdot m = t.mdot m ∧ T.fdot f = t.fdot f := by
  have e : T.iso = ⟨1, t⟩ := by
    refine Iso.ext ?_ (Vec3.ext ht.1 ht.2.1 ht.2.2)
    ext
    exacts [hT 0 0, hT 0 1, hT 0 2, hT 1 0, hT 1 1, hT 1 2, hT 2 0, hT 2 1, hT 2 2]
  refine ⟨?_, ?_, ?_, ?_, ?_⟩
  · ext <;> simp [PyTrans.mdot, PyTrans.inverse, transM, Vec3.cross] <;> ring
  · ext <;> simp [PyTrans.fdot, PyTrans.inverse, transF, Vec3.cross] <;> ring
  · simp [PyTrans.mdot, PyTrans.fdot, transM, transF, Motion.dot, Vec3.cross]; ring
  · unfold PyIso.mdot
    rw [e]
    simp [Iso.actM, PyTrans.mdot, transM, Mat3.one_mulVec]
  · unfold PyIso.fdot
    rw [e]
    simp [Iso.actF, PyTrans.fdot, transF, Mat3.one_mulVec]

/-! ## Examples -/

/-- A quarter turn with a translation meets the condition; a mirror meets it only without translation. -/
example : (ofIso ⟨⟨0, -1, 0, 1, 0, 0, 0, 0, 1⟩, ⟨5, 6, 7⟩⟩).Orthonormal ∧
    (ofIso ⟨⟨0, -1, 0, 1, 0, 0, 0, 0, 1⟩, ⟨5, 6, 7⟩⟩).RightHanded ∧
    (ofIso ⟨⟨-1, 0, 0, 0, 1, 0, 0, 0, 1⟩, ⟨5, 6, 7⟩⟩).Orthonormal ∧
    ¬(ofIso ⟨⟨-1, 0, 0, 0, 1, 0, 0, 0, 1⟩, ⟨5, 6, 7⟩⟩).RightHanded := by
  have h1 : (ofIso ⟨⟨0, -1, 0, 1, 0, 0, 0, 0, 1⟩, ⟨5, 6, 7⟩⟩).Orthonormal := by
    rw [orthonormal_iff, ofIso_iso]
    ext <;> simp [Mat3.T]
  have h2 : (ofIso ⟨⟨-1, 0, 0, 0, 1, 0, 0, 0, 1⟩, ⟨5, 6, 7⟩⟩).Orthonormal := by
    rw [orthonormal_iff, ofIso_iso]
    ext <;> simp [Mat3.T]
  refine ⟨h1, ?_, h2, ?_⟩
  · rw [rightHanded_iff h1, ofIso_iso]
    norm_num [Mat3.det]
  · rw [rightHanded_iff h2, ofIso_iso]
    norm_num [Mat3.det]

end SpatialDyn
