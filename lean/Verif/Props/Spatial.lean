import Verif.Lemmas.Spatial

/-! # Properties C01-C05: spatial algebra -/

namespace SpatialDyn

/-- A concrete rigid transform used as a non-vacuity witness: quarter turn about z and a
translation. -/
def quarterTurn : Iso := ⟨⟨0, -1, 0, 1, 0, 0, 0, 0, 1⟩, ⟨1, 2, 3⟩⟩

theorem quarterTurn_valid : quarterTurn.Valid := by
  constructor
  · ext <;> simp [quarterTurn, Mat3.T]
  · simp [quarterTurn, Mat3.det]

theorem quarterTurn_ne_one : quarterTurn ≠ 1 := by
  intro h
  have := congrArg (fun T : Iso => T.R.m00) h
  simp [quarterTurn] at this

/-- A concrete physical inertia used as a witness. -/
def unitInertia : Inertia := ⟨2, ⟨1, 0, -1⟩, ⟨3, 1, 0, 1, 3, 0, 0, 0, 2⟩⟩

theorem unitInertia_phys : unitInertia.Phys := by
  refine ⟨by norm_num [unitInertia], by ext <;> rfl, fun v => ?_⟩
  simp only [unitInertia, Mat3.mulVec, Vec3.dot]
  nlinarith [mul_self_nonneg (v.x + v.y), mul_self_nonneg v.x, mul_self_nonneg v.y,
    mul_self_nonneg v.z]

/-! ## C01 -/

/-- C01: products of transforms act by composition on motions, forces and inertias. -/
theorem C01_transform_compose (A B : Iso) (hA : A.Valid) (m : Motion) (f : Force) (I : Inertia) :
    (A * B).actM m = A.actM (B.actM m) ∧ (A * B).actF f = A.actF (B.actF f) ∧
      (A * B).actI I = A.actI (B.actI I) := by
  refine ⟨Iso.actM_mul A B hA m, Iso.actF_mul A B hA f, ?_⟩
  refine Inertia.ext rfl (Iso.mul_app A B I.com) ?_
  simp only [Iso.actI, Iso.mul_R, Mat3.T_mul, Mat3.mul_assoc']

example : ∃ A B : Iso, A.Valid ∧ B.Valid ∧ A * B ≠ 1 := by
  refine ⟨quarterTurn, quarterTurn, quarterTurn_valid, quarterTurn_valid, fun h => ?_⟩
  have := congrArg (fun T : Iso => T.R.m00) h
  simp [quarterTurn] at this
  norm_num at this

/-- C01: a transform followed by its inverse (both orders) is the identity on motions, forces and
inertias, and the identity transform changes nothing. -/
theorem C01_transform_inverse (A : Iso) (hA : A.Valid) (m : Motion) (f : Force) (I : Inertia) :
    A.inv.actM (A.actM m) = m ∧ A.actM (A.inv.actM m) = m ∧
      A.inv.actF (A.actF f) = f ∧ A.actF (A.inv.actF f) = f ∧
      A.inv.actI (A.actI I) = I ∧ A.actI (A.inv.actI I) = I ∧
      (1 : Iso).actM m = m ∧ (1 : Iso).actF f = f ∧ (1 : Iso).actI I = I := by
  have h1 : (1 : Iso).actI I = I := by
    refine Inertia.ext rfl (Iso.one_app _) ?_
    simp only [Iso.actI, Iso.one_R, Mat3.T_one, Mat3.one_mul', Mat3.mul_one']
  refine ⟨hA.inv_actM m, hA.actM_inv m, hA.inv_actF f, hA.actF_inv f, ?_, ?_, Iso.one_actM m,
    Iso.one_actF f, h1⟩
  · rw [← (C01_transform_compose _ _ hA.inv m f I).2.2, hA.inv_mul, h1]
  · rw [← (C01_transform_compose _ _ hA m f I).2.2, hA.mul_inv, h1]

/-- C01: rigid transforms are closed under product and inverse, and form a group. -/
theorem C01_rigid_group (A B C : Iso) (hA : A.Valid) (hB : B.Valid) :
    (A * B).Valid ∧ A.inv.Valid ∧ (A * B) * C = A * (B * C) ∧ A.inv * A = 1 ∧ A * A.inv = 1 ∧
      (A * B).inv = B.inv * A.inv :=
  ⟨hA.mul hB, hA.inv, mul_assoc A B C, hA.inv_mul, hA.mul_inv, Iso.inv_mul_rev hA hB⟩

/-- C01: the `Translation` overloads agree with the `Transform` overloads for a pure
translation. -/
theorem C01_translation_overloads (t : Vec3) (m : Motion) (f : Force) (I : Inertia) (A : Mat6) :
    transM t m = (⟨1, t⟩ : Iso).actM m ∧ transF t f = (⟨1, t⟩ : Iso).actF f ∧
      transI t I = (⟨1, t⟩ : Iso).actI I ∧ transMat t A = (⟨1, t⟩ : Iso).actMat A := by
  refine ⟨?_, ?_, ?_, ?_⟩
  · ext <;> simp [transM, Iso.actM]
  · ext <;> simp [transF, Iso.actF]
  · refine Inertia.ext rfl ?_ ?_
    · ext <;> simp [transI, Iso.actI, Iso.app, add_comm]
    · simp [transI, Iso.actI, Mat3.T_one, Mat3.one_mul', Mat3.mul_one']
  · simp [transMat, Iso.actMat, Mat3.T_one, Mat3.one_mul', Mat3.mul_one']

/-! ## C02 -/

/-- C02: power is independent of the frame. -/
theorem C02_power_invariant (T : Iso) (hT : T.Valid) (m : Motion) (f : Force) :
    (T.actM m).dot (T.actF f) = m.dot f ∧ (T.actF f).dot (T.actM m) = m.dot f :=
  ⟨hT.dot_act m f, by rw [Force.dot_eq, hT.dot_act]⟩

example : ∃ T : Iso, T.Valid ∧ T ≠ 1 := ⟨quarterTurn, quarterTurn_valid, quarterTurn_ne_one⟩

/-- C02: spatial cross products commute with rigid transforms. -/
theorem C02_cross_equivariant (T : Iso) (hT : T.Valid) (a b : Motion) (f : Force) :
    T.actM (a.crossM b) = (T.actM a).crossM (T.actM b) ∧
      T.actF (a.crossF f) = (T.actM a).crossF (T.actF f) :=
  ⟨hT.actM_crossM a b, hT.actF_crossF a f⟩

/-- C02: the force cross product is the negative adjoint of the motion cross product; the motion
cross product is antisymmetric and satisfies the Jacobi identity. -/
theorem C02_cross_laws (a b c : Motion) (f : Force) :
    (a.crossM b).dot f = -(b.dot (a.crossF f)) ∧ a.crossM b = -(b.crossM a) ∧
      a.crossM (b.crossM c) + b.crossM (c.crossM a) + c.crossM (a.crossM b) = 0 ∧
      a.dot (a.crossF f) = 0 := by
  refine ⟨Motion.crossM_dot a b f, Motion.crossM_anti a b, ?_, ?_⟩
  · ext <;> simp [Motion.crossM] <;> ring
  · simp [Motion.dot, Motion.crossF]; ring

/-! ## C03 -/

/-- C03: the inertia operator is symmetric for the power pairing. -/
theorem C03_inertia_symmetric (I : Inertia) (h : I.Icom.IsSymm) (m n : Motion) :
    m.dot (I.app n) = n.dot (I.app m) := I.dot_app_symm h m n

/-- C03: kinetic energy.  `m · I m` is mass times squared velocity of the centre of mass plus the
rotational term, hence nonnegative for physical inertias. -/
theorem C03_inertia_energy (I : Inertia) (m : Motion) :
    m.dot (I.app m) = I.mass * (m.lin + m.ang.cross I.com).dot (m.lin + m.ang.cross I.com) +
        m.ang.dot (I.Icom.mulVec m.ang) ∧
      (I.Phys → 0 ≤ m.dot (I.app m)) := by
  refine ⟨I.dot_app_self m, fun h => ?_⟩
  rw [I.dot_app_self m]
  exact add_nonneg (mul_nonneg h.1 (Vec3.dot_self_nonneg _)) (h.2.2 _)

example : unitInertia.Phys ∧ unitInertia.app ⟨⟨1, 0, 0⟩, 0⟩ ≠ 0 := by
  refine ⟨unitInertia_phys, fun h => ?_⟩
  have := congrArg (fun f : Force => f.lin.x) h
  simp [unitInertia, Inertia.app] at this

/-- C03: transforming an inertia is conjugation of the operator. -/
theorem C03_inertia_equivariant (I : Inertia) (T : Iso) (hT : T.Valid) (m : Motion) :
    (T.actI I).app (T.actM m) = T.actF (I.app m) := I.actI_app hT m

/-- C03: the 6x6 matrix agrees with the operator, and transforming the 6x6 matrix agrees with
transforming the inertia. -/
theorem C03_inertia_matrix (I : Inertia) (h : I.Icom.IsSymm) (T : Iso) (hT : T.Valid)
    (m : Motion) :
    I.matrix.app m = I.app m ∧ T.actMat I.matrix = (T.actI I).matrix := by
  refine ⟨I.matrix_app h m, Mat6.ext_app fun n => ?_⟩
  rw [Mat6.actMat_app _ hT, I.matrix_app h, (T.actI I).matrix_app (I.actI_symm h),
    I.actI_app' hT]

/-- C03: a rotational inertia that is not symmetric breaks the agreement between `matrix()` and
`operator*` (the code reads only the upper triangle in `matrix()`). -/
theorem C03_matrix_needs_symmetry :
    ∃ (I : Inertia) (m : Motion), I.matrix.app m ≠ I.app m := by
  refine ⟨⟨1, 0, ⟨1, 1, 0, 0, 1, 0, 0, 0, 1⟩⟩, ⟨0, ⟨1, 0, 0⟩⟩, fun h => ?_⟩
  have := congrArg (fun f : Force => f.ang.y) h
  simp [Mat6.app, Inertia.matrix, Inertia.app, Mat3.mulVec, Vec3.cross] at this

/-! ## C04 -/

/-- C04: merging inertias adds their actions when the total mass is nonzero. -/
theorem C04_inertia_add (a b c : Inertia) (h : a.add? b = some c) (m : Motion) :
    c.app m = a.app m + b.app m ∧ c.mass = a.mass + b.mass := by
  unfold Inertia.add? at h
  split at h
  · cases h
  · next hne =>
    cases h
    exact ⟨Inertia.add_app a b hne m, rfl⟩

example : ∃ c, unitInertia.add? unitInertia = some c := by
  refine ⟨unitInertia.add unitInertia, ?_⟩
  simp [Inertia.add?, unitInertia]

/-- C04: the result does not depend on the merge order or grouping. -/
theorem C04_inertia_add_assoc (a b c ab bc l r ba : Inertia) (h1 : a.add? b = some ab)
    (h2 : ab.add? c = some l) (h3 : b.add? c = some bc) (h4 : a.add? bc = some r)
    (h5 : b.add? a = some ba) (m : Motion) : l.app m = r.app m ∧ ba.app m = ab.app m := by
  rw [(C04_inertia_add _ _ _ h2 m).1, (C04_inertia_add _ _ _ h1 m).1,
    (C04_inertia_add _ _ _ h4 m).1, (C04_inertia_add _ _ _ h3 m).1,
    (C04_inertia_add _ _ _ h5 m).1]
  exact ⟨add_assoc _ _ _, add_comm _ _⟩

/-- C04: physical inertias stay physical when merged or transformed. -/
theorem C04_inertia_add_phys (a b c : Inertia) (h : a.add? b = some c) (ha : a.Phys) (hb : b.Phys) :
    c.Phys := by
  have hc := C04_inertia_add a b c h
  unfold Inertia.add? at h
  split at h
  · cases h
  next hne =>
  cases h
  refine ⟨add_nonneg ha.1 hb.1, Inertia.add_symm a b ha.2.1 hb.2.1, fun v => ?_⟩
  -- rotate about the common centre of mass
  have key := (hc ⟨-(v.cross (a.add b).com), v⟩).1
  have e1 := (a.add b).dot_app_self ⟨-(v.cross (a.add b).com), v⟩
  have ea := (C03_inertia_energy a ⟨-(v.cross (a.add b).com), v⟩).2 ha
  have eb := (C03_inertia_energy b ⟨-(v.cross (a.add b).com), v⟩).2 hb
  rw [key, Motion.dot_add] at e1
  have z : (-(v.cross (a.add b).com) + v.cross (a.add b).com) = 0 := by ext <;> simp
  simp only [z] at e1
  have z2 : (0 : Vec3).dot 0 = 0 := by simp [Vec3.dot]
  rw [z2, mul_zero, zero_add] at e1
  rw [← e1]
  exact add_nonneg ea eb

/-- C04: merging two massless inertias (the default constructed value) is a division by zero, and
this happens exactly when the total mass is zero. -/
theorem C04_zero_mass_undefined :
    (0 : Inertia).add? 0 = none ∧ ∀ a b : Inertia, a.add? b = none ↔ a.mass + b.mass = 0 := by
  refine ⟨?_, fun a b => ?_⟩
  · have h : (0 : Inertia).mass = 0 := rfl
    simp [Inertia.add?, h]
  · unfold Inertia.add?
    split <;> simp_all

/-! ## C05 -/

/-- C05: rebuilding an inertia from its parts gives it back. -/
theorem C05_flat_round_trip (I : Inertia) (h : I.Icom.IsSymm) :
    Inertia.ofFlat I.mass I.com I.flat = I := by
  have h01 : I.Icom.m10 = I.Icom.m01 := congrArg Mat3.m01 h
  have h02 : I.Icom.m20 = I.Icom.m02 := congrArg Mat3.m02 h
  have h12 : I.Icom.m21 = I.Icom.m12 := congrArg Mat3.m12 h
  ext <;> simp [Inertia.ofFlat, Inertia.flat, h01, h02, h12]

/-- C05: reading the flat vector of a constructed inertia gives back the vector passed in, and
every constructed inertia is symmetric. -/
theorem C05_flat_of_ctor (m : ℝ) (c : Vec3) (v : ℝ × ℝ × ℝ × ℝ × ℝ × ℝ) :
    (Inertia.ofFlat m c v).flat = v ∧ (Inertia.ofFlat m c v).Icom.IsSymm :=
  ⟨rfl, rfl⟩

/-- C05: the flat order is xx, yy, zz, xy, xz, yz, for reading and for building. -/
theorem C05_flat_order (m : ℝ) (c : Vec3) (xx yy zz xy xz yz : ℝ) :
    (Inertia.ofFlat m c (xx, yy, zz, xy, xz, yz)).Icom =
        ⟨xx, xy, xz, xy, yy, yz, xz, yz, zz⟩ ∧
      (⟨m, c, ⟨xx, xy, xz, xy, yy, yz, xz, yz, zz⟩⟩ : Inertia).flat = (xx, yy, zz, xy, xz, yz) :=
  ⟨rfl, rfl⟩

example : ∃ I : Inertia, I.Icom.IsSymm ∧ I.Icom.m01 ≠ I.Icom.m02 :=
  ⟨unitInertia, unitInertia_phys.2.1, by simp [unitInertia]⟩

end SpatialDyn
