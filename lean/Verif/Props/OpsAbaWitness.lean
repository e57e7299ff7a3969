import Verif.Props.OpsAba

/-!
# Where the articulated-body versions of the operational-space functions go wrong

Concrete bodies for which C38 and C39 fail: an offset, a load, and a second call.
-/

namespace SpatialDyn
open Finset Body Matrix

/-- A unit mass with unit rotational inertia, centred at the origin. -/
def ball : Inertia := ⟨1, 0, 1⟩

theorem ball_phys : ball.Phys := by
  refine ⟨by norm_num [ball], by ext <;> rfl, fun v => ?_⟩
  simp [ball, Mat3.mulVec, Vec3.dot]
  nlinarith [mul_self_nonneg v.x, mul_self_nonneg v.y, mul_self_nonneg v.z]

/-- A link of the witnesses. -/
def ballRB (t : JType) : RB := { T := 1, inertia := ball, joint := mkJoint t }

/-- One joint. -/
noncomputable def solo (t : JType) : Body where
  rbs := [{ ballRB t with id := 0, idParent := -1 }]
  q := [0]
  dq := [0]
  g := ⟨0, 0, -9.81⟩
  load := fun _ => none
  T0 := 1
  inertiaBase := ⟨1, 0, 0⟩
  anc := [[0]]
  sub := [[0]]
  c := (Body.init cache0).c.expand 0

/-- A vertical slider carrying a horizontal one. -/
noncomputable def cross : Body where
  rbs := [{ ballRB .pz with id := 0, idParent := -1 }, { ballRB .px with id := 1, idParent := 0 }]
  q := [0, 0]
  dq := [0, 0]
  g := ⟨0, 0, -9.81⟩
  load := fun _ => none
  T0 := 1
  inertiaBase := ⟨1, 0, 0⟩
  anc := [[0], [0, 1]]
  sub := [[0, 1], [1]]
  c := ((Body.init cache0).c.expand 0).expand 1

theorem solo_exec (E : Ext) (t : JType) :
    execAll E (Body.init cache0) [.addRigidBody (ballRB t) (-1)] = some (solo t) := by
  simp [execAll, Op.exec, Op.step, addRigidBody, Out.map, Out.bind, Body.init, pushSub, solo]

theorem solo_reach (E : Ext) (t : JType) : ∃ d, Reach E (solo t) d := by
  refine reach_execAll _ (Reach.init cache0) ?_ (solo_exec E t)
  intro op hop
  simp only [List.mem_cons, List.not_mem_nil, or_false] at hop
  subst hop
  exact Iso.valid_one

theorem cross_exec (E : Ext) : execAll E (Body.init cache0)
    [.addRigidBody (ballRB .pz) (-1), .addRigidBody (ballRB .px) 0] = some cross := by
  simp [execAll, Op.exec, Op.step, addRigidBody, Out.map, Out.bind, Body.init, pushSub, cross]

theorem cross_reach (E : Ext) : ∃ d, Reach E cross d := by
  refine reach_execAll _ (Reach.init cache0) ?_ (cross_exec E)
  intro op hop
  simp only [List.mem_cons, List.not_mem_nil, or_false] at hop
  rcases hop with rfl | rfl <;> exact Iso.valid_one

theorem ball_pd (v : Vec3) (hv : v ≠ 0) : 0 < v.dot (ball.Icom.mulVec v) := by
  have e : v.dot (ball.Icom.mulVec v) = v.x * v.x + v.y * v.y + v.z * v.z := by
    simp [ball, Mat3.mulVec, Vec3.dot]
  rw [e]
  by_contra hc
  apply hv
  have h1 := mul_self_nonneg v.x
  have h2 := mul_self_nonneg v.y
  have h3 := mul_self_nonneg v.z
  ext
  · exact mul_self_eq_zero.1 (by linarith)
  · exact mul_self_eq_zero.1 (by linarith)
  · exact mul_self_eq_zero.1 (by linarith)

theorem solo_definite {t : JType} (ht : t.subspace ≠ 0) : (solo t).Definite := by
  have h0 : ∀ k < (solo t).dof, k = 0 := fun k hk => Nat.lt_one_iff.1 hk
  refine ⟨fun k hk => ?_, fun k hk => ?_, fun k hk v hv => ?_, fun k hk L hL => ?_, fun k hk => ?_⟩
  all_goals first | cases hL | (rw [h0 k hk])
  · show (0 : ℝ) < 1; norm_num
  · exact ball_phys.2.1
  · exact ball_pd v hv
  · exact ht

theorem cross_definite : cross.Definite := by
  have h0 : ∀ k < cross.dof, k = 0 ∨ k = 1 := fun k hk => by
    have : k < 2 := hk
    omega
  refine ⟨fun k hk => ?_, fun k hk => ?_, fun k hk v hv => ?_, fun k hk L hL => ?_, fun k hk => ?_⟩
  · rcases h0 k hk with rfl | rfl <;> (show (0 : ℝ) < 1; norm_num)
  · rcases h0 k hk with rfl | rfl <;> exact ball_phys.2.1
  · rcases h0 k hk with rfl | rfl <;> exact ball_pd v hv
  · cases hL
  · rcases h0 k hk with rfl | rfl
    · intro h
      have := congrArg (fun m : Motion => m.lin.z) h
      simp [cross, Body.rb, ballRB, mkJoint, JType.subspace] at this
    · intro h
      have := congrArg (fun m : Motion => m.lin.x) h
      simp [cross, Body.rb, ballRB, mkJoint, JType.subspace] at this

theorem Tjoint_zero (t : JType) : t.Tjoint 0 = 1 := by
  cases t <;> ext <;> simp [JType.Tjoint]

theorem solo_tw (t : JType) : (solo t).freshTw 0 = 1 := by
  show (1 : Iso) * ((1 : Iso) * t.Tjoint 0) = 1
  rw [Tjoint_zero]
  ext <;> simp

/-- One revolute joint: columns of the Jacobian. -/
theorem solo_jac (E : Ext) (t : JType) (x : Vec3) :
    ∃ J, (solo t).jacobian 0 x = .ok J ∧ J.1 0 = t.subspace.atPoint x := by
  obtain ⟨d, h⟩ := solo_reach E t
  have hl : (solo t).LinkIdx 0 0 := ⟨Nat.one_pos, .inl rfl⟩
  obtain ⟨J, hJ⟩ := jacobian_total (solo t) hl x
  refine ⟨J, hJ, ?_⟩
  rw [jacobian_val h.inv hl hJ 0, solo_tw]
  have : (solo t).fresh.Jw 0 0 = t.subspace := by
    unfold Sys.Jw
    rw [if_pos Anc.refl]
    unfold Sys.axis
    rw [fresh_Tw Nat.one_pos, solo_tw, Iso.one_actM]
    rfl
  rw [this]
  congr 1
  ext <;> simp [Iso.app, Mat3.mulVec]

/-- A 1×1 inverse. -/
theorem solo_inv {n : ℕ} (hn : n = 1) (A : Matrix (Fin n) (Fin n) ℝ) (hA : A.det ≠ 0)
    (J K : Matrix (Fin 6) (Fin n) ℝ) (i j : Fin 6) :
    (J * A⁻¹ * Kᵀ) i j = J i ⟨0, by omega⟩ * (A ⟨0, by omega⟩ ⟨0, by omega⟩)⁻¹ * K j ⟨0, by omega⟩ := by
  subst hn
  have : A⁻¹ = fun _ _ => (A 0 0)⁻¹ := by
    rw [Matrix.inv_def, Matrix.adjugate_fin_one, Matrix.det_fin_one, Ring.inverse_eq_inv']
    ext a c
    have ha : a = 0 := Subsingleton.elim _ _
    have hc : c = 0 := Subsingleton.elim _ _
    subst ha; subst hc
    simp
  rw [Matrix.mul_apply, Fin.sum_univ_one, Matrix.mul_apply, Fin.sum_univ_one, this]
  rfl

/-- Negation of C38 for a point off the origin of the link: the `offset` argument does not change the
answer. -/
theorem C38_offset_violated (E : Ext) : ∃ (b : Body) (d : Bool) (x : Vec3)
    (J : (ℕ → Motion) × Body) (r : Matrix (Fin 6) (Fin 6) ℝ × Body), Reach E b d ∧ b.Definite ∧
      (∀ k, b.load k = none) ∧ b.jacobian 0 x = .ok J ∧ b.opsInertiaInverseAba 0 x = .ok r ∧
      r.1 ≠ jacM b.dof J.1 * (toMat b.dof b.inertia.1)⁻¹ * (jacM b.dof J.1)ᵀ := by
  have hS : JType.rz.subspace ≠ 0 := by
    intro h
    have := congrArg (fun m : Motion => m.ang.z) h
    simp [JType.subspace] at this
  obtain ⟨d, h⟩ := solo_reach E .rz
  have hd := solo_definite hS
  have hm := hd.massive h.inv.tree
  have hl : (solo .rz).LinkIdx 0 0 := ⟨Nat.one_pos, .inl rfl⟩
  obtain ⟨J0, hJ0, e0⟩ := solo_jac E .rz 0
  obtain ⟨J, hJ, e⟩ := solo_jac E .rz ⟨1, 0, 0⟩
  obtain ⟨-, ⟨r, hr⟩, -⟩ := C38_defined (E := E) (solo .rz) hl ⟨1, 0, 0⟩ 0
  refine ⟨solo .rz, d, ⟨1, 0, 0⟩, J, r, h, hd, fun _ => rfl, hJ, hr, ?_⟩
  rw [C38_inertia_inverse_partial h hm (hd.form h) (fun _ => rfl) hJ0 hr]
  intro hc
  have hdet : (toMat (solo .rz).dof (solo .rz).inertia.1).det ≠ 0 := (hd.form h).det_ne
  have h1 := congrFun (congrFun hc 1) 1
  rw [solo_inv (show (solo .rz).dof = 1 from rfl) _ hdet,
    solo_inv (show (solo .rz).dof = 1 from rfl) _ hdet] at h1
  have a0 : jacM (solo .rz).dof J0.1 1 ⟨0, Nat.one_pos⟩ = 0 := by
    show (J0.1 0).entry 1 = 0
    rw [e0]
    simp [Motion.entry, Motion.atPoint, JType.subspace]
  have a1 : jacM (solo .rz).dof J.1 1 ⟨0, Nat.one_pos⟩ = 1 := by
    show (J.1 0).entry 1 = 1
    rw [e]
    simp [Motion.entry, Motion.atPoint, JType.subspace, Vec3.cross]
  rw [a0, a1] at h1
  simp only [zero_mul, one_mul, mul_one] at h1
  have h2 := inv_eq_zero.1 h1.symm
  apply hdet
  rw [show (toMat (solo .rz).dof (solo .rz).inertia.1).det = toMat 1 (solo .rz).inertia.1 0 0 from
    Matrix.det_fin_one _]
  exact h2

/-! ## Loads -/

/-- The horizontal slider with a load. -/
noncomputable def soloLoaded : Body := (solo .px).addLoad ball 0

theorem soloLoaded_reach (E : Ext) : ∃ d, Reach E soloLoaded d := by
  obtain ⟨d, h⟩ := solo_reach E .px
  exact ⟨_, Reach.step (.addLoad ball 0) h trivial rfl⟩

theorem soloLoaded_definite : soloLoaded.Definite := by
  have h0 : ∀ k < soloLoaded.dof, k = 0 := fun k hk => Nat.lt_one_iff.1 hk
  refine ⟨fun k hk => ?_, fun k hk => ?_, fun k hk v hv => ?_, fun k hk L hL => ?_, fun k hk h => ?_⟩
  all_goals rw [h0 k hk] at *
  · show (0 : ℝ) < 1; norm_num
  · exact ball_phys.2.1
  · exact ball_pd v hv
  · have e : soloLoaded.load ((0 : ℕ) : ℤ) = some ball := rfl
    rw [e] at hL
    cases hL
    exact ball_phys
  · have := congrArg (fun m : Motion => m.lin.x) h
    simp [soloLoaded, solo, addLoad, Body.rb, ballRB, mkJoint, JType.subspace] at this

/-- Inertia of a body with one joint at the identity pose. -/
theorem solo_mass {b : Body} {E : Ext} {d : Bool} (h : Reach E b d) (hm : b.Massive)
    (hd : b.dof = 1) (hT : b.freshTw 0 = 1) : b.inertia.1 0 0 =
      (b.rb 0).joint.subspace.dot ((b.fresh.Itot 0).app (b.rb 0).joint.subspace) := by
  rw [inertia_entry h hm 0 0 (by omega) (by omega)]
  unfold Sys.massSpec
  rw [show b.fresh.n = 1 from hd, sum_range_one]
  have hJ : b.fresh.Jw 0 0 = (b.rb 0).joint.subspace := by
    unfold Sys.Jw
    rw [if_pos Anc.refl]
    unfold Sys.axis
    rw [fresh_Tw (by omega), hT, Iso.one_actM]
    rfl
  rw [hJ]
  unfold Sys.Iw
  rw [fresh_Tw (by omega), hT, Iso.one_actF,
    show (Iso.inv 1) = 1 by rw [← mul_one (Iso.inv 1), Iso.valid_one.inv_mul], Iso.one_actM]

/-- Negation of C38 with a load: `opspace::InertiaInverseAba` does not see it. -/
theorem C38_loads_violated (E : Ext) : ∃ (b : Body) (d : Bool)
    (J : (ℕ → Motion) × Body) (r : Matrix (Fin 6) (Fin 6) ℝ × Body), Reach E b d ∧ b.Definite ∧
      b.jacobian 0 0 = .ok J ∧ b.opsInertiaInverseAba 0 0 = .ok r ∧
      r.1 ≠ jacM b.dof J.1 * (toMat b.dof b.inertia.1)⁻¹ * (jacM b.dof J.1)ᵀ := by
  have hS : JType.px.subspace ≠ 0 := by
    intro h
    have := congrArg (fun m : Motion => m.lin.x) h
    simp [JType.subspace] at this
  obtain ⟨d, h⟩ := solo_reach E .px
  obtain ⟨d', h'⟩ := soloLoaded_reach E
  have hd := solo_definite hS
  have hd' := soloLoaded_definite
  have hm := hd.massive h.inv.tree
  have hm' := hd'.massive h'.inv.tree
  have hl : (solo .px).LinkIdx 0 0 := ⟨Nat.one_pos, .inl rfl⟩
  have hl' : soloLoaded.LinkIdx 0 0 := ⟨Nat.one_pos, .inl rfl⟩
  obtain ⟨J0, hJ0, e0⟩ := solo_jac E .px 0
  obtain ⟨J, hJ⟩ := jacobian_total soloLoaded hl' 0
  have eJ : J.1 = J0.1 := by
    funext j
    rw [jacobian_val h'.inv hl' hJ j, jacobian_val h.inv hl hJ0 j]
    rfl
  obtain ⟨-, ⟨r, hr⟩, -⟩ := C38_defined (E := E) (solo .px) hl 0 0
  obtain ⟨-, ⟨r', hr'⟩, -⟩ := C38_defined (E := E) soloLoaded hl' 0 0
  have er : r'.1 = r.1 := by
    have e1 : soloLoaded.opsInertiaInverseAba 0 0 = .ok (soloLoaded.opsInvAbaCompute 0 0) := by
      unfold opsInertiaInverseAba
      rw [hl'.index]
      simp only [Out.bind]
      rw [if_neg]
      rintro ⟨hc, -⟩
      exact absurd hc Bool.false_ne_true
    have e2 : (solo .px).opsInertiaInverseAba 0 0 = .ok ((solo .px).opsInvAbaCompute 0 0) := by
      unfold opsInertiaInverseAba
      rw [hl.index]
      simp only [Out.bind]
      rw [if_neg]
      rintro ⟨hc, -⟩
      exact absurd hc Bool.false_ne_true
    rw [e1] at hr'
    rw [e2] at hr
    cases hr
    cases hr'
    rfl
  refine ⟨soloLoaded, d', J, r', h', hd', hJ, hr', ?_⟩
  rw [er, C38_inertia_inverse_partial h hm (hd.form h) (fun _ => rfl) hJ0 hr, eJ]
  intro hc
  have hdet : (toMat (solo .px).dof (solo .px).inertia.1).det ≠ 0 := (hd.form h).det_ne
  have hdet' : (toMat soloLoaded.dof soloLoaded.inertia.1).det ≠ 0 := (hd'.form h').det_ne
  have h1 := congrFun (congrFun hc 0) 0
  rw [solo_inv (show (solo .px).dof = 1 from rfl) _ hdet,
    solo_inv (show soloLoaded.dof = 1 from rfl) _ hdet'] at h1
  have a0 : ∀ n (hn : 0 < n), jacM n J0.1 0 ⟨0, hn⟩ = 1 := by
    intro n hn
    show (J0.1 0).entry 0 = 1
    rw [e0]
    simp [Motion.entry, Motion.atPoint, JType.subspace]
  have m0 : (solo .px).inertia.1 0 0 = 1 := by
    rw [solo_mass h hm rfl (solo_tw _)]
    show JType.px.subspace.dot (ball.app JType.px.subspace) = 1
    simp [JType.subspace, ball, Inertia.app, Motion.dot]
  have m1 : soloLoaded.inertia.1 0 0 = 2 := by
    rw [solo_mass h' hm' rfl (solo_tw .px)]
    show JType.px.subspace.dot ((ball.add ball).app JType.px.subspace) = 2
    simp [JType.subspace, ball, Inertia.app, Inertia.add, Motion.dot]
    norm_num
  rw [a0, a0] at h1
  simp only [toMat, Matrix.of_apply, m0, m1] at h1
  norm_num at h1

/-! ## A second call -/

theorem opsInertiaAba_done {E : Ext} {b : Body} {l : ℤ} {x : Vec3} {eps : ℝ}
    {r : Matrix (Fin 6) (Fin 6) ℝ × Body} (hd : b.c.abaDone = true)
    (hr : b.opsInertiaAba E l x eps = .ok r) : r.2.c.abaDone = true := by
  have h1 : ∀ {l : ℤ} {s : Matrix (Fin 6) (Fin 6) ℝ × Body}, b.opsInertiaInverseAba l x = .ok s →
      s.2.c.abaDone = true := by
    intro l s hs
    obtain ⟨k, -, hs⟩ := Out.bind_ok hs
    split at hs
    · cases hs; exact hd
    · cases hs; rfl
  obtain ⟨k, -, hr⟩ := Out.bind_ok hr
  split at hr
  · cases hr; exact hd
  · obtain ⟨s, hs, hr⟩ := Out.bind_ok hr
    cases hr
    exact h1 (s := s) hs

theorem opsGravityAba_done {E : Ext} {b : Body} {l : ℤ} {x : Vec3} {fext : FExt} {eps : ℝ}
    {r : (Fin 6 → ℝ) × Body} (hr : b.opsGravityAba E l x fext eps = .ok r) :
    r.2.c.abaDone = true := by
  obtain ⟨k, -, hr⟩ := Out.bind_ok hr
  obtain ⟨s, hs, hr⟩ := Out.bind_ok hr
  cases hr
  exact opsInertiaAba_done rfl hs

/-- `GravityAba` answers for every link. -/
theorem opsGravityAba_defined {E : Ext} (b : Body) {l : ℤ} {k : ℕ} (hl : b.LinkIdx l k) (x : Vec3)
    (fext : FExt) (eps : ℝ) : ∃ r, b.opsGravityAba E l x fext eps = .ok r := by
  unfold opsGravityAba
  rw [hl.index]
  simp only [Out.bind]
  set c : Body := { b.touchTw.touchTp with c := _ } with hc
  have hlc : c.LinkIdx (k : ℤ) k := by
    refine ⟨?_, .inl rfl⟩
    show k < c.dof
    have : c.dof = b.dof := by
      show b.touchTw.touchTp.dof = b.dof
      unfold touchTw touchTp
      (repeat' split) <;> rfl
    rw [this]
    exact hl.1
  obtain ⟨-, -, s, hs⟩ := C38_defined (E := E) c hlc x eps
  rw [hs]
  exact ⟨_, rfl⟩

theorem cross_tw (k : ℕ) (hk : k < 2) : cross.freshTw k = 1 := by
  have h0 : cross.freshTw 0 = 1 := by
    show (1 : Iso) * ((1 : Iso) * JType.pz.Tjoint 0) = 1
    rw [Tjoint_zero]
    ext <;> simp
  interval_cases k
  · exact h0
  · show (1 : Iso) * ((1 : Iso) * JType.pz.Tjoint 0) * ((1 : Iso) * JType.px.Tjoint 0) = 1
    rw [Tjoint_zero, Tjoint_zero]
    ext <;> simp

theorem cross_par : cross.fresh.par 0 = none ∧ cross.fresh.par 1 = some 0 := ⟨rfl, rfl⟩

theorem cross_jw : cross.fresh.Jw 0 0 = JType.pz.subspace ∧ cross.fresh.Jw 1 0 = JType.pz.subspace ∧
    cross.fresh.Jw 0 1 = 0 ∧ cross.fresh.Jw 1 1 = JType.px.subspace := by
  have a0 : cross.fresh.axis 0 = JType.pz.subspace := by
    unfold Sys.axis
    rw [fresh_Tw (by show 0 < 2; omega), cross_tw 0 (by omega), Iso.one_actM]
    rfl
  have a1 : cross.fresh.axis 1 = JType.px.subspace := by
    unfold Sys.axis
    rw [fresh_Tw (by show 1 < 2; omega), cross_tw 1 (by omega), Iso.one_actM]
    rfl
  obtain ⟨p0, p1⟩ := cross_par
  unfold Sys.Jw
  rw [if_pos Anc.refl, if_pos (Anc.step p1 Anc.refl), if_pos Anc.refl, if_neg, a0, a1]
  · exact ⟨rfl, rfl, rfl, rfl⟩
  · rw [anc_root p0]; omega

theorem cross_gen (F : ℕ → Force) : cross.fresh.genForce F 0 = (F 0).lin.z + (F 1).lin.z ∧
    cross.fresh.genForce F 1 = (F 1).lin.x := by
  obtain ⟨j1, j2, j3, j4⟩ := cross_jw
  unfold Sys.genForce
  rw [show cross.fresh.n = 2 from rfl]
  simp only [sum_range_succ, sum_range_zero, j1, j2, j3, j4]
  simp [JType.subspace, Motion.dot]

theorem one_inv_iso : Iso.inv 1 = 1 := by rw [← mul_one (Iso.inv 1), Iso.valid_one.inv_mul]

theorem ball_app (m : Motion) : ball.app m = ⟨m.lin, m.ang⟩ := by
  ext <;> simp [ball, Inertia.app, Vec3.cross, Mat3.mulVec]

theorem ball_matrix (m : Motion) : ball.matrix.app m = ⟨m.lin, m.ang⟩ := by
  rw [Inertia.matrix_app _ ball_phys.2.1, ball_app]

theorem cross_mass : cross.fresh.massSpec 0 0 = 2 ∧ cross.fresh.massSpec 0 1 = 0 ∧
    cross.fresh.massSpec 1 0 = 0 := by
  obtain ⟨j1, j2, j3, j4⟩ := cross_jw
  have hI : ∀ k < 2, ∀ m, cross.fresh.Iw k m = ⟨m.lin, m.ang⟩ := by
    intro k hk m
    unfold Sys.Iw
    rw [fresh_Tw hk, cross_tw k hk, one_inv_iso, Iso.one_actM, Iso.one_actF,
      show cross.fresh.Itot k = ball by interval_cases k <;> rfl, ball_app]
  unfold Sys.massSpec
  rw [show cross.fresh.n = 2 from rfl]
  simp only [sum_range_succ, sum_range_zero, j1, j2, j3, j4, hI 0 (by omega), hI 1 (by omega)]
  refine ⟨?_, ?_, ?_⟩ <;> simp [JType.subspace, Motion.dot]
  norm_num

/-- Gravity on the two links, as `GravityAba` evaluates it. -/
theorem cross_first (b : Body) (hb : b.c.abaDone = false) (hf : b.fresh = cross.fresh) (k : ℕ)
    (hk : k < 2) (m : Motion) : (gravIa b k).app m = ⟨m.lin, m.ang⟩ := by
  unfold gravIa
  rw [hb, if_neg Bool.false_ne_true, hf, show cross.fresh.Itot k = ball by interval_cases k <;> rfl,
    ball_matrix]

theorem cross_art1 : cross.fresh.artI 1 = ball.matrix := by
  rw [Sys.artI_eq (σ := cross.fresh) (cross_reach ext0).choose_spec.inv.tree.parLt, show cross.fresh.n = 2 from rfl]
  simp only [sum_range_succ, sum_range_zero, cross_par]
  rw [show cross.fresh.Itot 1 = ball from rfl]
  simp

theorem cross_second (b : Body) (hb : b.c.abaDone = true) (hf : b.fresh = cross.fresh) :
    ((gravIa b 0).app cross.fresh.g).lin.z = -19.62 ∧
      ((gravIa b 1).app cross.fresh.g).lin.z = -9.81 ∧
      ((gravIa b 1).app cross.fresh.g).lin.x = 0 := by
  have h1 : ∀ m, (cross.fresh.artRed 1 (cross.fresh.artI 1)).app m = ⟨⟨0, m.lin.y, m.lin.z⟩, m.ang⟩ := by
    intro m
    rw [Sys.artRed_some cross_par.2, cross_art1, show cross.fresh.S 1 = JType.px.subspace from rfl,
      Mat6.sub_app, Mat6.outerDiv_app, ball_matrix, ball_matrix]
    ext <;> simp [JType.subspace, Motion.dot]
  have h0 : ∀ m, (cross.fresh.artRed 0 (cross.fresh.artI 0)).app m =
      ⟨⟨m.lin.x, m.lin.y + m.lin.y, m.lin.z + m.lin.z⟩, m.ang + m.ang⟩ := by
    intro m
    rw [show cross.fresh.artRed 0 (cross.fresh.artI 0) = cross.fresh.artI 0 from rfl,
      Sys.artI_eq (σ := cross.fresh) (cross_reach ext0).choose_spec.inv.tree.parLt,
      show cross.fresh.n = 2 from rfl]
    simp only [sum_range_succ, sum_range_zero, cross_par]
    rw [show cross.fresh.Itot 0 = ball from rfl, show cross.fresh.Tp 1 = 1 by
      show (1 : Iso) * JType.px.Tjoint 0 = 1
      rw [Tjoint_zero]; ext <;> simp]
    simp only [if_true, Mat6.add_app, ball_matrix, Mat6.actMat_app _ Iso.valid_one, one_inv_iso,
      Iso.one_actF, Iso.one_actM, h1]
    ext <;> simp
  have hg : cross.fresh.g = ⟨⟨0, 0, -9.81⟩, 0⟩ := rfl
  unfold gravIa
  simp only [hb, if_true, hf, h0, h1, hg]
  norm_num

/-- Matrices with a single entry. -/
theorem single_prod {n : ℕ} (z : Fin n) {K : Matrix (Fin 6) (Fin n) ℝ}
    (hK : ∀ i j, K i j = if i = 2 ∧ j = z then 1 else 0) (B : Matrix (Fin n) (Fin n) ℝ) (i k : Fin 6) :
    (K * B * Kᵀ) i k = if i = 2 ∧ k = 2 then B z z else 0 := by
  rw [Matrix.mul_apply]
  have h1 : ∀ j, (K * B) i j = if i = 2 then B z j else 0 := by
    intro j
    rw [Matrix.mul_apply, sum_eq_single z]
    · rw [hK]; by_cases hi : i = 2 <;> simp [hi]
    · intro m _ hm; rw [hK, if_neg (fun c => hm c.2), zero_mul]
    · intro c; exact absurd (mem_univ z) c
  rw [sum_eq_single z]
  · rw [h1, Matrix.transpose_apply, hK]
    by_cases hi : i = 2 <;> by_cases hk : k = 2 <;> simp [hi, hk]
  · intro m _ hm; rw [Matrix.transpose_apply, hK, if_neg (fun c => hm c.2), mul_zero]
  · intro c; exact absurd (mem_univ z) c

theorem single_vec {n : ℕ} (z : Fin n) {K : Matrix (Fin 6) (Fin n) ℝ}
    (hK : ∀ i j, K i j = if i = 2 ∧ j = z then 1 else 0) (P : Matrix (Fin 6) (Fin 6) ℝ)
    (u : Fin n → ℝ) : (P *ᵥ (K *ᵥ u)) 2 = P 2 2 * u z := by
  have h1 : ∀ i, (K *ᵥ u) i = if i = 2 then u z else 0 := by
    intro i
    show ∑ j, K i j * u j = _
    rw [sum_eq_single z]
    · rw [hK]; by_cases hi : i = 2 <;> simp [hi]
    · intro m _ hm; rw [hK, if_neg (fun c => hm c.2), zero_mul]
    · intro c; exact absurd (mem_univ z) c
  show ∑ j, P 2 j * (K *ᵥ u) j = _
  rw [sum_eq_single 2]
  · rw [h1, if_pos rfl]
  · intro m _ hm; rw [h1, if_neg hm, mul_zero]
  · intro c; exact absurd (mem_univ (2 : Fin 6)) c

/-- The joint of the first slider. -/
def z0 : Fin cross.dof := ⟨0, by show 0 < 2; omega⟩

theorem cross_jac {E : Ext} {J : (ℕ → Motion) × Body} (hJ : cross.jacobian 0 0 = .ok J)
    (i : Fin 6) (j : Fin cross.dof) : jacM cross.dof J.1 i j = if i = 2 ∧ j = z0 then 1 else 0 := by
  obtain ⟨d, h⟩ := cross_reach E
  have hl : cross.LinkIdx 0 0 := ⟨by show 0 < 2; omega, .inl rfl⟩
  show (J.1 j).entry i = _
  rw [jacobian_val h.inv hl hJ j]
  obtain ⟨j1, -, j3, -⟩ := cross_jw
  have hj : j.1 < 2 := j.2
  rcases (by omega : j.1 = 0 ∨ j.1 = 1) with hj | hj
  · have : j = z0 := Fin.ext hj
    rw [hj, j1]
    simp only [this, and_true]
    fin_cases i <;> simp [JType.subspace, Motion.entry, Motion.atPoint, Vec3.cross]
  · have : j ≠ z0 := fun c => by rw [c] at hj; exact absurd hj (by decide)
    rw [hj, j3, if_neg (fun c => this c.2)]
    fin_cases i <;> simp [Motion.entry, Motion.atPoint, Vec3.cross]

theorem cross_solve {E : Ext} (v : Fin cross.dof → ℝ) : (cross.massM⁻¹ *ᵥ v) z0 = v z0 / 2 := by
  obtain ⟨d, h⟩ := cross_reach E
  have hd := cross_definite
  have hm := hd.massive h.inv.tree
  have hdet : IsUnit cross.massM.det := Ne.isUnit (hd.form h).det_ne
  have h1 : cross.massM *ᵥ (cross.massM⁻¹ *ᵥ v) = v := by
    rw [Matrix.mulVec_mulVec, Matrix.mul_nonsing_inv _ hdet, Matrix.one_mulVec]
  have h2 := congrFun h1 z0
  set w := cross.massM⁻¹ *ᵥ v
  have h3 : (cross.massM *ᵥ w) z0 = 2 * w z0 := by
    show ∑ j : Fin cross.dof, cross.inertia.1 0 j * w j = _
    rw [sum_eq_single z0]
    · rw [inertia_entry h hm 0 _ (by show 0 < 2; omega) z0.2]
      exact congrArg (· * w z0) cross_mass.1
    · intro j _ hj
      have hj2 : j.1 < 2 := j.2
      have hj1 : j.1 = 1 := by
        rcases (by omega : j.1 = 0 ∨ j.1 = 1) with e | e
        · exact absurd (Fin.ext e) hj
        · exact e
      rw [inertia_entry h hm 0 _ (by show 0 < 2; omega) j.2, hj1, cross_mass.2.1, zero_mul]
    · intro c; exact absurd (mem_univ z0) c
  linarith

/-- Negation of C39: two calls of `GravityAba` in a row, same state, same arguments, answer 19.62 N
and 29.43 N (the weight is 19.62 N), for every pseudo-inverse. -/
theorem C39_violated (E : Ext) (eps : ℝ) {J : (ℕ → Motion) × Body} (hJ : cross.jacobian 0 0 = .ok J)
    (hE : cross.taskInv (jacM cross.dof J.1) * E.pinv6 (cross.taskInv (jacM cross.dof J.1)) eps *
      cross.taskInv (jacM cross.dof J.1) = cross.taskInv (jacM cross.dof J.1)) :
    ∃ (d : Bool) (r s : (Fin 6 → ℝ) × Body), Reach E cross d ∧ cross.Definite ∧
      (∀ k, cross.load k = none) ∧ cross.opsGravityAba E 0 0 (fun _ => none) eps = .ok r ∧
      r.2.opsGravityAba E 0 0 (fun _ => none) eps = .ok s ∧ r.1 2 = 19.62 ∧ s.1 2 = 29.43 := by
  obtain ⟨d, h⟩ := cross_reach E
  have hd := cross_definite
  have hm := hd.massive h.inv.tree
  have hl : cross.LinkIdx 0 0 := ⟨by show 0 < 2; omega, .inl rfl⟩
  obtain ⟨r, hr⟩ := opsGravityAba_defined (E := E) cross hl 0 (fun _ => none) eps
  have hst : Step E cross r.2 := opsGravityAba_step h.inv (fun _ => rfl) hr
  have hl' : r.2.LinkIdx 0 0 := by
    refine ⟨?_, .inl rfl⟩
    rw [hst.dof_eq]
    exact hl.1
  obtain ⟨s, hs⟩ := opsGravityAba_defined (E := E) r.2 hl' 0 (fun _ => none) eps
  refine ⟨d, r, s, h, hd, fun _ => rfl, hr, hs, ?_, ?_⟩
  all_goals
    set X := cross.taskInv (jacM cross.dof J.1) with hX
    have hK := cross_jac (E := E) hJ
    have hX0 : ∀ i k, X i k = if i = 2 ∧ k = 2 then 1 / 2 else 0 := by
      intro i k
      rw [hX]
      show (jacM cross.dof J.1 * cross.massM⁻¹ * (jacM cross.dof J.1)ᵀ) i k = _
      rw [single_prod z0 hK]
      have := cross_solve (E := E) (Pi.single z0 1)
      rw [Matrix.mulVec_single_one] at this
      have h2 : cross.massM⁻¹ z0 z0 = 1 / 2 := by simpa using this
      rw [h2]
    have hc : X 2 2 = 1 / 2 := by rw [hX0, if_pos ⟨rfl, rfl⟩]
    have hP : E.pinv6 X eps 2 2 = 2 := by
      have := congrFun (congrFun hE 2) 2
      rw [Matrix.mul_apply, sum_eq_single 2 (fun m _ hm => by rw [hX0 m 2, if_neg (fun c => hm c.1), mul_zero])
        (fun c => absurd (mem_univ _) c), Matrix.mul_apply,
        sum_eq_single 2 (fun m _ hm => by rw [hX0 2 m, if_neg (fun c => hm c.2), zero_mul])
        (fun c => absurd (mem_univ _) c), hc] at this
      linarith
  · rw [opsGravityAba_any h (Step.refl h.inv) hm (hd.form h) (fun _ => rfl) hJ hr,
      single_vec z0 hK, hP, cross_solve (E := E)]
    show 2 * (-cross.fresh.genForce _ 0 / 2) = _
    rw [(cross_gen _).1, cross_tw 0 (by omega), cross_tw 1 (by omega)]
    simp only [Sys.subExt, cross_first cross rfl rfl 0 (by omega), cross_first cross rfl rfl 1 (by omega),
      fresh_Tw (show 0 < cross.dof from hl.1), fresh_Tw (show 1 < cross.dof by show 1 < 2; omega),
      cross_tw 0 (by omega), cross_tw 1 (by omega), one_inv_iso, Iso.one_actF, Iso.one_actM]
    rw [show cross.fresh.g = ⟨⟨0, 0, -9.81⟩, 0⟩ from rfl]
    norm_num
  · rw [opsGravityAba_any h hst hm (hd.form h) (fun _ => rfl) hJ hs,
      single_vec z0 hK, hP, cross_solve (E := E)]
    show 2 * (-cross.fresh.genForce _ 0 / 2) = _
    obtain ⟨g0, g1, -⟩ := cross_second r.2 (opsGravityAba_done hr) hst.fresh_eq
    rw [(cross_gen _).1, cross_tw 0 (by omega), cross_tw 1 (by omega)]
    simp only [Sys.subExt,
      fresh_Tw (show 0 < cross.dof from hl.1), fresh_Tw (show 1 < cross.dof by show 1 < 2; omega),
      cross_tw 0 (by omega), cross_tw 1 (by omega), one_inv_iso, Iso.one_actF, Iso.one_actM, g0, g1]
    norm_num

/-- The hypotheses of `C39_violated` can be met. -/
theorem C39_violated_inhabited : ∃ (E : Ext) (eps : ℝ) (J : (ℕ → Motion) × Body),
    cross.jacobian 0 0 = .ok J ∧ cross.taskInv (jacM cross.dof J.1) *
      E.pinv6 (cross.taskInv (jacM cross.dof J.1)) eps *
      cross.taskInv (jacM cross.dof J.1) = cross.taskInv (jacM cross.dof J.1) := by
  have hl : cross.LinkIdx 0 0 := ⟨by show 0 < 2; omega, .inl rfl⟩
  obtain ⟨J, hJ⟩ := jacobian_total cross hl 0
  have hK := cross_jac (E := ext0) hJ
  refine ⟨{ ext0 with pinv6 := fun _ _ => Matrix.of fun i k => if i = 2 ∧ k = 2 then 2 else 0 }, 0,
    J, hJ, ?_⟩
  have hX0 : ∀ i k, cross.taskInv (jacM cross.dof J.1) i k = if i = 2 ∧ k = 2 then 1 / 2 else 0 := by
    intro i k
    show (jacM cross.dof J.1 * cross.massM⁻¹ * (jacM cross.dof J.1)ᵀ) i k = _
    rw [single_prod z0 hK]
    have := cross_solve (E := ext0) (Pi.single z0 1)
    rw [Matrix.mulVec_single_one] at this
    have h2 : cross.massM⁻¹ z0 z0 = 1 / 2 := by simpa using this
    rw [h2]
  ext i k
  simp only [Matrix.mul_apply, hX0, Matrix.of_apply]
  rw [sum_eq_single 2 (fun m _ hm => by simp [hm]) (fun c => absurd (mem_univ _) c),
    sum_eq_single 2 (fun m _ hm => by simp [hm]) (fun c => absurd (mem_univ _) c)]
  by_cases hi : i = 2 <;> by_cases hk : k = 2 <;> simp [hi, hk]

/-! ## What the ignored load does to other functions -/

/-- The articulated body algorithm on a single root link without gravity, friction and
velocity-product forces. -/
theorem aba_one_plain {σ : Sys} (hn : σ.n = 1) (hr : σ.par 0 = none) (tau : ℕ → ℝ) (vd done : Bool)
    (arr0 : ℕ → VAF) (c : AbaCache) :
    (σ.aba tau (fun _ => none) ⟨false, false, false, 0⟩ vd done arr0 c).ddq 0 =
      tau 0 / (if done then c.d 0 else (σ.S 0).dot ((σ.Itot 0).matrix.app (σ.S 0))) := by
  have hf : σ.abaForward (fun _ => none) ⟨false, false, false, 0⟩ vd arr0 0 = ⟨0, 0, 0⟩ := by
    unfold Sys.abaForward
    rw [hn]
    simp [fwdLoop, List.range_succ, Sys.abaStep, Sys.velStep, Sys.subExt, hr]
  have hi : done = false → σ.abaInit done c 0 = (σ.Itot 0).matrix := by
    rintro rfl
    exact Sys.abaInit_false c 0 (by omega)
  have hb : ∀ B0 C0, (B0 0).2 = (0 : Force) → (done = false → (B0 0).1 = (σ.Itot 0).matrix) →
      ((σ.abaBackward tau ⟨false, false, false, 0⟩ done c (fun i =>
        (σ.abaForward (fun _ => none) ⟨false, false, false, 0⟩ vd arr0 i).a) B0 C0).2 0).ddq =
      tau 0 / (if done then c.d 0 else (σ.S 0).dot ((σ.Itot 0).matrix.app (σ.S 0))) := by
    intro B0 C0 hB hB'
    unfold Sys.abaBackward
    rw [hn]
    cases done
    · simp [bwdLoop, List.range_succ, hr, hB, hB' rfl, Sys.abaD, Sys.abaDdq]
    · simp [bwdLoop, List.range_succ, hr, hB, Sys.abaD, Sys.abaDdq]
  unfold Sys.aba
  simp only
  rw [hn]
  simp only [fwdLoop, List.range_one, List.foldl_cons, List.foldl_nil, Function.update_self]
  unfold Sys.abaLastStep
  simp only [hr, Bool.false_eq_true, if_false, if_true]
  have hz : ∀ F : Force, F.dot 0 = 0 := by intro F; simp [Force.dot]
  rw [hb _ _ (by rw [hf]) (fun hd => hi hd), hz, zero_div, sub_zero]

/-- Negation of C54 with loads: a query changes the answer of a later one.  A loaded slider (2 kg in
all) is accelerated by 1 N at 1/2 m/s²; after `opspace::InertiaInverseAba`, `ForwardDynamicsAba`
answers 1 m/s². -/
theorem C54_violated (E : Ext) : ∃ (b : Body) (d : Bool) (b' : Body), Reach E b d ∧ b.Definite ∧
    execAll E b [.query (.opsInertiaInverseAba 0 0)] = some b' ∧ b.ObsEq b' ∧
    (b.forwardDynamicsAba (fun _ => 1) (fun _ => none) ⟨false, false, false, 0⟩).1 0 = 1 / 2 ∧
    (b'.forwardDynamicsAba (fun _ => 1) (fun _ => none) ⟨false, false, false, 0⟩).1 0 = 1 := by
  obtain ⟨d, h⟩ := soloLoaded_reach E
  have hl : soloLoaded.LinkIdx 0 0 := ⟨Nat.one_pos, .inl rfl⟩
  have e1 : soloLoaded.opsInertiaInverseAba 0 0 = .ok (soloLoaded.opsInvAbaCompute 0 0) := by
    unfold opsInertiaInverseAba
    rw [hl.index]
    simp only [Out.bind]
    rw [if_neg]
    rintro ⟨hc, -⟩
    exact absurd hc Bool.false_ne_true
  have hS : ∀ I : Inertia, I.Icom.IsSymm → JType.px.subspace.dot (I.matrix.app JType.px.subspace) =
      I.mass := by
    intro I hI
    rw [Inertia.matrix_app _ hI]
    simp [JType.subspace, Inertia.app, Motion.dot, Vec3.cross, Mat3.mulVec]
  refine ⟨soloLoaded, d, (soloLoaded.opsInvAbaCompute 0 0).2, h, soloLoaded_definite, ?_, ?_, ?_, ?_⟩
  · simp [execAll, Op.exec, Op.step, Query.run, e1, Out.map, Out.bind]
  · have : Body.Same soloLoaded (soloLoaded.opsInvAbaCompute 0 0).2 :=
      opsInertiaInverseAba_same e1
    obtain ⟨c', e⟩ : ∃ c', (soloLoaded.opsInvAbaCompute 0 0).2 = { soloLoaded with c := c' } := ⟨_, this⟩
    rw [e]
    exact ⟨rfl, rfl, rfl, rfl, rfl, rfl, rfl, rfl⟩
  · unfold Body.forwardDynamicsAba
    simp only [h.inv.view]
    rw [aba_one_plain rfl rfl, show soloLoaded.c.abaDone = false from rfl, if_neg Bool.false_ne_true]
    show 1 / JType.px.subspace.dot ((ball.add ball).matrix.app JType.px.subspace) = _
    rw [hS _ (Inertia.add_symm _ _ ball_phys.2.1 ball_phys.2.1)]
    norm_num [Inertia.add, ball]
  · unfold Body.forwardDynamicsAba
    simp only
    rw [aba_one_plain (σ := (soloLoaded.opsInvAbaCompute 0 0).2.view) rfl rfl]
    have hd : (soloLoaded.opsInvAbaCompute 0 0).2.c.aba.d 0 = 1 := by
      show ((soloLoaded.view.unload.opsBackward false soloLoaded.c.aba (fun _ => 0)
        (soloLoaded.unitForce 0 0)).2 0).d = 1
      rw [h.inv.view]
      unfold Sys.opsBackward Sys.abaBackward
      rw [show soloLoaded.fresh.unload.n = 1 from rfl]
      simp only [bwdLoop, List.range_one, List.reverse_singleton, List.foldl_cons, List.foldl_nil]
      rw [show soloLoaded.fresh.unload.par 0 = none from rfl]
      simp only [Function.update_self, Sys.abaD, Bool.false_eq_true, if_false]
      rw [Sys.abaInit_false _ _ (by show 0 < 1; omega)]
      exact (hS ball ball_phys.2.1)
    show 1 / (if true = true then (soloLoaded.opsInvAbaCompute 0 0).2.c.aba.d 0 else _) = 1
    rw [if_pos rfl, hd, div_one]

end SpatialDyn
