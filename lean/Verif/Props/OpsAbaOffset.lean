import Verif.Props.OpsCoriolis

/-!
# C53: the offset does not move the point

The free-flying body slides along x and turns about z.  At the point one metre along x,
`opspace::CentrifugalCoriolis` and `opspace::CentrifugalCoriolisAba` answer different torques.
-/

namespace SpatialDyn
open Finset Body Matrix

/-- The free-flying body, sliding along x with 1 m/s and turning about z with 1 rad/s. -/
noncomputable def spin : Body := { flyer0 with dq := [1, 0, 0, 0, 0, 1], c := flyer0.c.clearDq }

theorem spin_setDq : flyer0.setDq [1, 0, 0, 0, 0, 1] = .ok spin := by
  simp [setDq, flyer0, flyer, dof, spin]

theorem spin_reach (E : Ext) : ∃ d, Reach E spin d := by
  obtain ⟨d, h⟩ := flyer_reach E
  exact ⟨_, Reach.step (b' := spin) (.setDq [1, 0, 0, 0, 0, 1]) h trivial
    (by simp only [Op.exec, Op.step]; rw [show (flyer _ _).setDq _ = _ from spin_setDq])⟩

theorem spin_definite : spin.Definite :=
  have h := flyer_definite
  ⟨h.mass, h.symm, h.pd, h.load, h.axes⟩

theorem spin_tw (k : ℕ) (hk : k < 6) : spin.freshTw k = 1 := flyer_tw k hk

theorem spin_Jw (k j : ℕ) (hk : k < 6) (hj : j < 6) :
    spin.fresh.Jw k j = if j ≤ k then (flyerType j).subspace else 0 := by
  obtain ⟨d, h⟩ := spin_reach ext0
  unfold Sys.Jw
  have e : Anc spin.fresh.par j k ↔ j ≤ k :=
    ⟨fun a => a.le h.inv.tree.parLt hk, flyer_anc k hk j⟩
  simp only [e]
  unfold Sys.axis
  rw [fresh_Tw (b := spin) hj, spin_tw j hj, Iso.one_actM,
    show spin.fresh.S j = (flyer0.rb j).joint.subspace from rfl, flyer_joint j hj]
  rfl

theorem spin_dq : spin.fresh.dq = fun i => [1, 0, 0, 0, 0, 1].getD i 0 := rfl

theorem spin_Iw (k : ℕ) (hk : k < 6) (m : Motion) : spin.fresh.Iw k m = ball.app m := by
  unfold Sys.Iw
  have : spin.fresh.Itot k = ball := by interval_cases k <;> rfl
  rw [fresh_Tw (b := spin) hk, spin_tw k hk, Iso.one_actF, this,
    show (Iso.inv 1) = 1 by rw [← mul_one (Iso.inv 1), Iso.valid_one.inv_mul], Iso.one_actM]

theorem spin_V (k : ℕ) (hk : k < 6) : spin.fresh.V spin.fresh.dq k =
    if k < 5 then ⟨⟨1, 0, 0⟩, 0⟩ else ⟨⟨1, 0, 0⟩, ⟨0, 0, 1⟩⟩ := by
  unfold Sys.V
  rw [show spin.fresh.n = 6 from rfl]
  simp only [sum_range_succ, sum_range_zero]
  rw [spin_Jw k 0 hk (by omega), spin_Jw k 1 hk (by omega), spin_Jw k 2 hk (by omega),
    spin_Jw k 3 hk (by omega), spin_Jw k 4 hk (by omega), spin_Jw k 5 hk (by omega), spin_dq]
  interval_cases k <;> ext <;> simp [flyerType, JType.subspace]

theorem spin_bias (k : ℕ) (hk : k < 6) : spin.fresh.bias k =
    if k < 5 then 0 else ⟨⟨0, -1, 0⟩, 0⟩ := by
  unfold Sys.bias
  rw [show spin.fresh.n = 6 from rfl]
  simp only [sum_range_succ, sum_range_zero]
  rw [spin_Jw k 0 hk (by omega), spin_Jw k 1 hk (by omega), spin_Jw k 2 hk (by omega),
    spin_Jw k 3 hk (by omega), spin_Jw k 4 hk (by omega), spin_Jw k 5 hk (by omega),
    spin_V 0 (by omega), spin_V 5 (by omega), spin_dq]
  interval_cases k <;> ext <;> simp [flyerType, JType.subspace, Motion.crossM, Vec3.cross]

theorem spin_coriolis (i : ℕ) (hi : i < 6) : spin.fresh.coriolisSpec i = 0 := by
  unfold Sys.coriolisSpec Sys.genForce
  refine sum_eq_zero fun k hk => ?_
  have hk : k < 6 := mem_range.1 hk
  beta_reduce
  rw [spin_Iw k hk, spin_Iw k hk, spin_bias k hk, spin_V k hk]
  rw [show ball.app (if k < 5 then 0 else ⟨⟨0, -1, 0⟩, 0⟩) + Motion.crossF
      (if k < 5 then ⟨⟨1, 0, 0⟩, 0⟩ else ⟨⟨1, 0, 0⟩, ⟨0, 0, 1⟩⟩)
      (ball.app (if k < 5 then ⟨⟨1, 0, 0⟩, 0⟩ else ⟨⟨1, 0, 0⟩, ⟨0, 0, 1⟩⟩)) = 0 from ?_]
  · simp [Motion.dot]
  · split <;> ext <;> simp [ball, Inertia.app, Motion.crossF, Vec3.cross, Mat3.mulVec]

theorem spin_mass (i : ℕ) (hi : i < 6) : spin.inertia.1 i 1 = if i = 1 then 5 else 0 := by
  obtain ⟨d, h⟩ := spin_reach ext0
  rw [inertia_entry h (spin_definite.massive h.inv.tree) i 1 hi (by show 1 < 6; omega)]
  unfold Sys.massSpec
  rw [show spin.fresh.n = 6 from rfl]
  simp only [sum_range_succ, sum_range_zero]
  simp only [spin_Iw _ (show 0 < 6 by omega), spin_Iw _ (show 1 < 6 by omega),
    spin_Iw _ (show 2 < 6 by omega), spin_Iw _ (show 3 < 6 by omega),
    spin_Iw _ (show 4 < 6 by omega), spin_Iw _ (show 5 < 6 by omega)]
  rw [spin_Jw 0 1 (by omega) (by omega), spin_Jw 1 1 (by omega) (by omega),
    spin_Jw 2 1 (by omega) (by omega), spin_Jw 3 1 (by omega) (by omega),
    spin_Jw 4 1 (by omega) (by omega), spin_Jw 5 1 (by omega) (by omega),
    spin_Jw 0 i (by omega) hi, spin_Jw 1 i (by omega) hi, spin_Jw 2 i (by omega) hi,
    spin_Jw 3 i (by omega) hi, spin_Jw 4 i (by omega) hi, spin_Jw 5 i (by omega) hi]
  interval_cases i <;> norm_num [flyerType, JType.subspace, ball, Inertia.app, Motion.dot, Vec3.dot,
    Vec3.cross, Mat3.mulVec]

/-- The Jacobian of the last link at the point `a` along x. -/
theorem spin_jac {a : ℝ} {J : (ℕ → Motion) × Body} (hJ : spin.jacobian 5 ⟨a, 0, 0⟩ = .ok J)
    (i : Fin 6) (j : Fin spin.dof) : jacM spin.dof J.1 i j =
      if i.1 = j.1 then 1 else if i.1 = 1 ∧ j.1 = 5 then a else if i.1 = 2 ∧ j.1 = 4 then -a else 0 := by
  obtain ⟨d, h⟩ := spin_reach ext0
  have hl : spin.LinkIdx 5 5 := ⟨by show 5 < 6; omega, .inl rfl⟩
  have hj : j.1 < 6 := j.2
  show (J.1 j).entry i = _
  rw [jacobian_val h.inv hl hJ j, spin_tw 5 (by omega), spin_Jw 5 j (by omega) hj,
    if_pos (by omega)]
  obtain ⟨j, hj'⟩ := j
  simp only at hj ⊢
  interval_cases j <;> fin_cases i <;>
    simp [flyerType, JType.subspace, Motion.entry, Motion.atPoint, Vec3.cross, Iso.app, Mat3.mulVec]

theorem opsCoriolisAba_defined {E : Ext} (b : Body) {l : ℤ} {k : ℕ} (hl : b.LinkIdx l k) (x : Vec3)
    (eps : ℝ) : ∃ r, b.opsCoriolisAba E l x eps = .ok r := by
  unfold opsCoriolisAba
  rw [hl.index]
  simp only [Out.bind]
  set c : Body := { b.touchTw.touchTp with c := _ } with hc
  have hlc : c.LinkIdx (k : ℤ) k := by
    refine ⟨?_, .inl rfl⟩
    show k < c.dof
    have : c.dof = b.dof := by
      show b.touchTw.touchTp.dof = b.dof
      unfold touchTw touchTp
      (repeat' split) <;> rfl
    rw [this]
    exact hl.1
  obtain ⟨-, -, s, hs⟩ := C38_defined (E := E) c hlc x eps
  rw [hs]
  exact ⟨_, rfl⟩

theorem spin_regular {a : ℝ} {J : (ℕ → Motion) × Body} (hJ : spin.jacobian 5 ⟨a, 0, 0⟩ = .ok J) :
    (spin.taskInv (jacM spin.dof J.1)).det ≠ 0 := by
  obtain ⟨d, h⟩ := spin_reach ext0
  refine C35_regular h spin_definite fun v hv => ?_
  have e : ∀ j : Fin spin.dof, ∑ i, jacM spin.dof J.1 i j * v i = 0 := fun j => congrFun hv j
  simp only [spin_jac hJ, Fin.sum_univ_six] at e
  have e0 := e ⟨0, by show 0 < 6; omega⟩
  have e1 := e ⟨1, by show 1 < 6; omega⟩
  have e2 := e ⟨2, by show 2 < 6; omega⟩
  have e3 := e ⟨3, by show 3 < 6; omega⟩
  have e4 := e ⟨4, by show 4 < 6; omega⟩
  have e5 := e ⟨5, by show 5 < 6; omega⟩
  norm_num at e0 e1 e2 e3 e4 e5
  ext i
  fin_cases i <;> simp_all

/-- What the dense operation answers at the point `a` along x. -/
theorem spin_dense {a : ℝ} {J : (ℕ → Motion) × Body} (hJ : spin.jacobian 5 ⟨a, 0, 0⟩ = .ok J)
    {K : DMat} (hK : K.Is (jacM spin.dof J.1)) {s : (ℕ → ℝ) × Body}
    (hs : spin.opsCoriolis ext0 K 5 0 = .ok s) : s.1 5 = -(5 * a) := by
  obtain ⟨d, h⟩ := spin_reach ext0
  have hn := spin_definite.form h
  have hX := spin_regular hJ
  obtain ⟨k, hk, e⟩ := opsCoriolis_is h.inv (Step.refl h.inv) h.careful.tol hn.mat hK
    (fun e _ => ext0_exact _ e) (Set.mem_univ _) (Set.mem_univ _) hs
  have hk5 : k = 5 := by
    have hl : spin.LinkIdx 5 5 := ⟨by show 5 < 6; omega, .inl rfl⟩
    rw [hl.index] at hk
    cases hk; rfl
  subst hk5
  have hc : vec spin.dof spin.fresh.coriolisSpec = 0 := by
    ext i
    exact spin_coriolis i i.2
  set z : Fin 6 → ℝ := ![0, -5, 0, 0, 0, 5 * a] with hz
  set y : Fin spin.dof → ℝ := fun j => if j.1 = 1 then -1 else 0 with hy
  have h1 : (jacM spin.dof J.1)ᵀ *ᵥ z = spin.massM *ᵥ y := by
    ext j
    show ∑ i, jacM spin.dof J.1 i j * z i = ∑ i : Fin 6, spin.inertia.1 j i * _
    simp only [spin_jac hJ]
    simp only [Fin.sum_univ_six, hy]
    obtain ⟨j, hj⟩ := j
    have hj : j < 6 := hj
    have := spin_mass j hj
    have hf : ∀ i : Fin 6, ((i : Fin spin.dof) : ℕ) = (i : ℕ) := fun _ => rfl
    interval_cases j <;> simp_all [Matrix.cons_val]
    ring
  have h2 : jacM spin.dof J.1 *ᵥ y = ((spin.fresh.bias 5).atPoint (spin.freshTw 5).t).six := by
    rw [spin_bias 5 (by omega), spin_tw 5 (by omega)]
    ext i
    have q := spin_jac hJ i ⟨1, by show 1 < 6; omega⟩
    show ∑ j : Fin spin.dof, jacM spin.dof J.1 i j * y j = _
    rw [Finset.sum_eq_single (⟨1, by show 1 < 6; omega⟩ : Fin spin.dof)
      (by intro j _ hj; rw [hy]; simp [Fin.ext_iff] at hj; simp [hj]) (by simp), q]
    fin_cases i <;> simp [hy, Motion.six, Motion.entry, Motion.atPoint, Vec3.cross]
  have h3 : spin.taskInv (jacM spin.dof J.1) *ᵥ z =
      ((spin.fresh.bias 5).atPoint (spin.freshTw 5).t).six := by
    unfold taskInv
    have hd : PosMat spin.massM := hn.mat
    rw [← h2, ← Matrix.mulVec_mulVec, h1, Matrix.mulVec_mulVec, Matrix.mul_assoc,
      Matrix.nonsing_inv_mul _ (Ne.isUnit hd.det_ne), Matrix.mul_one]
  rw [hc, Matrix.mulVec_zero, ← h3, Matrix.mulVec_mulVec, Matrix.nonsing_inv_mul _ (Ne.isUnit hX),
    Matrix.one_mulVec] at e
  have := congrFun e 5
  simpa [vec, hz] using this

/-- C53 does not hold at an offset: at a point one metre from the last link's origin the dense
operation, given the Jacobian of that point, and the recursive one answer different forces, although
the body carries no load. -/
theorem C53_violated : ∃ (d : Bool) (J : (ℕ → Motion) × Body) (K : DMat) (r : (Fin 6 → ℝ) × Body)
    (s : (ℕ → ℝ) × Body), Careful ext0 Set.univ spin d ∧ spin.Definite ∧ (∀ k, spin.load k = none) ∧
    spin.jacobian 5 ⟨1, 0, 0⟩ = .ok J ∧ K.Is (jacM spin.dof J.1) ∧
    (spin.taskInv (jacM spin.dof J.1)).det ≠ 0 ∧
    spin.opsCoriolisAba ext0 5 ⟨1, 0, 0⟩ 0 = .ok r ∧ spin.opsCoriolis ext0 K 5 0 = .ok s ∧
    r.1 5 = 0 ∧ s.1 5 = -5 := by
  obtain ⟨d, h⟩ := spin_reach ext0
  have hl : spin.LinkIdx 5 5 := ⟨by show 5 < 6; omega, .inl rfl⟩
  have hD := spin_definite
  have hload : ∀ k, spin.load k = none := fun _ => rfl
  obtain ⟨J, hJ⟩ := jacobian_total spin hl ⟨1, 0, 0⟩
  obtain ⟨J0, hJ0⟩ := jacobian_total spin hl ⟨0, 0, 0⟩
  obtain ⟨r, hr⟩ := opsCoriolisAba_defined (E := ext0) spin hl ⟨1, 0, 0⟩ 0
  have hK := DMat.ofM_is (jacM spin.dof J.1)
  have hK0 := DMat.ofM_is (jacM spin.dof J0.1)
  obtain ⟨s, hs⟩ := opsCoriolis_total h.inv hK.rows hK.cols hl 0
  obtain ⟨s0, hs0⟩ := opsCoriolis_total h.inv hK0.rows hK0.cols hl 0
  refine ⟨d, J, _, r, s, h.careful, hD, hload, hJ, hK, spin_regular hJ, hr, hs, ?_, ?_⟩
  · have := C53_coriolis_partial h.careful (hD.massive h.inv.tree) (hD.form h) hload
      hJ0 hK0 (fun e _ => ext0_exact _ e) (Set.mem_univ 0) (Set.mem_univ _) rfl hr hs0 5
    rw [this]
    exact (spin_dense hJ0 hK0 hs0).trans (by norm_num)
  · exact (spin_dense hJ hK hs).trans (by norm_num)

end SpatialDyn
