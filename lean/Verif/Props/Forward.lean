import Verif.Props.Dynamics

/-!
# Forward dynamics (C29, C30)
-/

namespace SpatialDyn
open Finset Body

variable {E : Ext} {b : Body} {d : Bool}

/-- A square matrix whose null space is trivial. -/
def Nonsingular (n : ℕ) (A : ℕ → ℕ → ℝ) : Prop :=
  ∀ u : ℕ → ℝ, (∀ i < n, ∑ j ∈ range n, A i j * u j = 0) → ∀ j < n, u j = 0

theorem Nonsingular.det_ne {n : ℕ} {A : ℕ → ℕ → ℝ} (h : Nonsingular n A) :
    (toMat n A).det ≠ 0 := by
  intro h0
  obtain ⟨v, hv, hMv⟩ := Matrix.exists_mulVec_eq_zero_iff.2 h0
  set u : ℕ → ℝ := fun i => if h : i < n then v ⟨i, h⟩ else 0 with hu
  have huv : (fun j : Fin n => u j) = v := by funext j; simp [hu]
  apply hv
  funext j
  rw [← huv]
  refine h u (fun i hi => ?_) j j.2
  rw [← Sys.toMat_mulVec n A u ⟨i, hi⟩, huv, hMv]
  rfl

/-- A square matrix whose quadratic form is positive. -/
def DefiniteForm (n : ℕ) (A : ℕ → ℕ → ℝ) : Prop :=
  ∀ u : ℕ → ℝ, (∃ i < n, u i ≠ 0) → 0 < ∑ i ∈ range n, u i * ∑ j ∈ range n, A i j * u j

theorem DefiniteForm.mat {n : ℕ} {A : ℕ → ℕ → ℝ} (h : DefiniteForm n A) : PosMat (toMat n A) :=
  Sys.posMat_of h

theorem DefiniteForm.det_ne {n : ℕ} {A : ℕ → ℕ → ℝ} (h : DefiniteForm n A) :
    (toMat n A).det ≠ 0 := h.mat.det_ne

theorem DefiniteForm.congr {n : ℕ} {A B : ℕ → ℕ → ℝ} (h : DefiniteForm n A)
    (hAB : ∀ i < n, ∀ j < n, A i j = B i j) : DefiniteForm n B := by
  intro u hu
  refine (h u hu).trans_eq (sum_congr rfl fun i hi => ?_)
  refine congrArg _ (sum_congr rfl fun j hj => ?_)
  rw [hAB i (mem_range.1 hi) j (mem_range.1 hj)]

theorem inertia_entry (h : Reach E b d) (hm : b.Massive) (i j : ℕ) (hi : i < b.dof)
    (hj : j < b.dof) : b.inertia.1 i j = b.fresh.massSpec i j :=
  (inertia_run h.inv).2.1.mass h.inv.wf hm.symI (hm.posMass h.inv.tree) i j hi hj

theorem fresh_det (h : Reach E b d) (hm : b.Massive) (hn : DefiniteForm b.dof b.inertia.1) :
    (toMat b.dof b.fresh.massSpec).det ≠ 0 :=
  (hn.congr fun i hi j hj => inertia_entry h hm i j hi hj).det_ne

/-- What `ForwardDynamics` returns solves the equations of motion, uniquely. -/
theorem fd_solves (h : Reach E b d) (hm : b.Massive) (hn : DefiniteForm b.dof b.inertia.1)
    (tau : ℕ → ℝ) (fext : FExt) (o : FDOpts) (i : ℕ) (hi : i < b.dof) :
    ∑ j ∈ range b.dof, b.fresh.massSpec i j * (b.fd E tau fext o).1 j =
      b.fresh.fdRhs tau (b.fresh.idSpec (fun _ => 0) fext o.cc o.gravity) o i := by
  rw [fd_ans h.inv hm.symI (hm.posMass h.inv.tree)]
  have hpos := (hn.congr fun i hi j hj => inertia_entry h hm i j hi hj).mat
  unfold Ext.solve
  obtain ⟨x, hx⟩ : ∃ x, ldltSolve b.dof b.fresh.massSpec
      (b.fresh.fdRhs tau (b.fresh.idSpec (fun _ => 0) fext o.cc o.gravity) o) = some x := by
    unfold ldltSolve
    rw [if_pos hpos]
    exact ⟨_, rfl⟩
  rw [hx]
  exact Sys.ldltSolve_sound hx i hi

theorem idSpec_split (b : Body) (ddq : ℕ → ℝ) (fext : FExt) (cc g : Bool) (i : ℕ) :
    b.fresh.idSpec ddq fext cc g i = ∑ j ∈ range b.dof, b.fresh.massSpec i j * ddq j +
      b.fresh.idSpec (fun _ => 0) fext cc g i := by
  unfold Sys.idSpec
  have : b.fresh.n = b.dof := rfl
  simp only [this, mul_zero, sum_const_zero, zero_add]
  ring

/-- C29: `ForwardDynamics` undoes `InverseDynamics`. -/
theorem C29_forward_inverse (h : Reach E b d) (hm : b.Massive)
    (hn : DefiniteForm b.dof b.inertia.1) (ddq : ℕ → ℝ) (fext : FExt) (o : FDOpts) (eps : ℝ)
    (hf : o.friction = false) (i : ℕ) (hi : i < b.dof) :
    (b.fd E (b.inverseDynamics ddq fext ⟨o.gravity, o.cc, false, eps⟩).1 fext o).1 i = ddq i := by
  refine Sys.solve_unique (fresh_det h hm hn) (fun k hk => ?_) i hi
  rw [fd_solves h hm hn _ fext o k hk]
  unfold Sys.fdRhs
  simp only [hf, Bool.false_eq_true, if_false]
  rw [inverseDynamics_val h.inv hm.symI (hm.posMass h.inv.tree) _ _ _ k hk]
  unfold Sys.addFriction
  simp only [Bool.false_eq_true, if_false]
  rw [idSpec_split]
  ring

/-- C29: `InverseDynamics` undoes `ForwardDynamics`. -/
theorem C29_inverse_forward (h : Reach E b d) (hm : b.Massive)
    (hn : DefiniteForm b.dof b.inertia.1) (tau : ℕ → ℝ) (fext : FExt) (o : FDOpts) (eps : ℝ)
    (hf : o.friction = false) (i : ℕ) (hi : i < b.dof) :
    (b.inverseDynamics (b.fd E tau fext o).1 fext ⟨o.gravity, o.cc, false, eps⟩).1 i = tau i := by
  rw [inverseDynamics_val h.inv hm.symI (hm.posMass h.inv.tree) _ _ _ i hi]
  unfold Sys.addFriction
  simp only [Bool.false_eq_true, if_false]
  rw [idSpec_split, fd_solves h hm hn _ fext o i hi]
  unfold Sys.fdRhs
  simp only [hf, Bool.false_eq_true, if_false]
  ring

/-- The inertia of a body with massive links and moving joints is positive definite. -/
theorem Body.Definite.form (h : Reach E b d) (hd : b.Definite) :
    DefiniteForm b.dof b.inertia.1 :=
  DefiniteForm.congr (A := b.fresh.massSpec) (fun u hu => by
    have := hd.massPD h.inv u hu
    rwa [Sys.energy2_eq] at this) fun i hi j hj =>
    (inertia_entry h (hd.massive h.inv.tree) i j hi hj).symm

theorem Body.fresh_massPD (h : Reach E b d) (hm : b.Massive) (hn : DefiniteForm b.dof b.inertia.1) :
    b.fresh.MassPD := by
  intro u hu
  rw [Sys.energy2_eq]
  exact hn.congr (fun i hi j hj => inertia_entry h hm i j hi hj) u hu

/-- The gravity used at the roots by the articulated body algorithm, seen in the world frame. -/
theorem Body.root_gravity (h : Reach E b d) (i : ℕ) (hi : i < b.dof) (hr : b.fresh.par i = none) :
    (b.fresh.Tp i).inv.actM b.fresh.g =
      (b.fresh.Tw i).inv.actM ⟨b.T0.R.mulVec b.g, 0⟩ := by
  have e : b.fresh.Tw i = b.T0 * b.fresh.Tp i := by
    rw [fresh_Tw hi, fresh_Tp hi]
    have := worldLoop_spec h.inv.tree.parLt b.T0 b.freshTp (fun _ => 1) i hi
    rw [show b.par i = none from hr] at this
    exact this
  have hT0 := h.inv.rigid.base
  have hTp : (b.fresh.Tp i).Valid := h.inv.wf.Tp_valid i hi
  rw [e, Iso.inv_mul_rev hT0 hTp, Iso.actM_mul _ _ hTp.inv]
  congr 1
  have hg : (⟨b.T0.R.mulVec b.g, 0⟩ : Motion) = b.T0.actM b.fresh.g := by
    show _ = b.T0.actM ⟨b.g, 0⟩
    ext <;> simp [Iso.actM, Vec3.cross, Mat3.mulVec]
  rw [hg, hT0.inv_actM]

/-- C30: `ForwardDynamicsAba` without friction returns what `ForwardDynamics` would return if gravity
were turned by the rotation of the base. -/
theorem C30_aba_base (h : Reach E b d) (hm : b.Massive)
    (hn : DefiniteForm b.dof b.inertia.1)
    (tau : ℕ → ℝ) (fext : FExt) (o : FDOpts) (hf : o.friction = false) (i : ℕ) (hi : i < b.dof) :
    (b.forwardDynamicsAba tau fext o).1 i =
      ((b.setG (b.T0.R.mulVec b.g)).fd E tau fext o).1 i := by
  have hpd := Body.fresh_massPD h hm hn
  have hd : ∀ i < b.fresh.n, b.fresh.artD i ≠ 0 :=
    fun i hi => (h.inv.wf.artD_pos hm.symI hpd i hi).ne'
  set b' := b.setG (b.T0.R.mulVec b.g) with hb'
  have h' : Reach E b' _ := h.step (.setG (b.T0.R.mulVec b.g)) trivial rfl
  have hm' : b'.Massive := ⟨hm.symm, hm.nonneg, hm.merge, hm.tree⟩
  have hn' : DefiniteForm b'.dof b'.inertia.1 := hn.congr fun i hi j hj => by
    rw [inertia_entry h hm i j hi hj, inertia_entry h' hm' i j hi hj]
    rfl
  refine Sys.solve_unique (fresh_det h hm hn) (fun k hk => ?_) i hi
  have e := fd_solves h' hm' hn' tau fext o k hk
  change ∑ j ∈ range b.dof, b.fresh.massSpec k j * _ = _ at e
  rw [e]
  have hs := h.inv.wf.aba_sound_gravity hm.symI hd tau fext o b.c.velDone b.c.abaDone b.vaf b.c.aba
    h.inv.coh.vel h.inv.coh.aba hf ⟨b.T0.R.mulVec b.g, 0⟩
    (fun _ i hi hr => Body.root_gravity h i hi hr) k hk
  unfold Body.forwardDynamicsAba
  simp only [h.inv.view]
  unfold Sys.fdRhs
  simp only [hf, Bool.false_eq_true, if_false]
  rw [← hs]
  unfold Sys.idSpec
  simp only [mul_zero, sum_const_zero, zero_add]
  have e1 : b'.fresh.coriolisSpec = b.fresh.coriolisSpec := rfl
  have e2 : b'.fresh.extSpec fext = b.fresh.extSpec fext := rfl
  have e3 : b'.fresh.gravitySpec =
    b.fresh.genForce (fun k => b.fresh.Iw k (-⟨b.T0.R.mulVec b.g, 0⟩)) := rfl
  rw [e1, e2, e3]
  rw [show b.fresh.n = b.dof from rfl]
  ring

theorem setG_self_fresh (b : Body) : (b.setG b.g).fresh = b.fresh := rfl

/-- C30: without friction, and with a base that is not turned against gravity (if gravity is on),
`ForwardDynamicsAba` returns what `ForwardDynamics` returns.  Missing: turned bases, for which the
claim is false (`C30_violated`). -/
theorem C30_aba_partial (h : Reach E b d) (hm : b.Massive)
    (hn : DefiniteForm b.dof b.inertia.1)
    (tau : ℕ → ℝ) (fext : FExt) (o : FDOpts) (hf : o.friction = false)
    (hg : o.gravity = true → b.T0.R.mulVec b.g = b.g) (i : ℕ) (hi : i < b.dof) :
    (b.forwardDynamicsAba tau fext o).1 i = (b.fd E tau fext o).1 i := by
  have hr := C30_aba_base h hm hn tau fext o hf i hi
  rw [hr]
  set b' := b.setG (b.T0.R.mulVec b.g) with hb'
  have h' : Reach E b' _ := h.step (.setG (b.T0.R.mulVec b.g)) trivial rfl
  have hm' : b'.Massive := ⟨hm.symm, hm.nonneg, hm.merge, hm.tree⟩
  rw [fd_ans h.inv hm.symI (hm.posMass h.inv.tree), fd_ans h'.inv hm'.symI (hm'.posMass h'.inv.tree)]
  have e : b'.fresh.fdRhs tau (b'.fresh.idSpec (fun _ => 0) fext o.cc o.gravity) o =
      b.fresh.fdRhs tau (b.fresh.idSpec (fun _ => 0) fext o.cc o.gravity) o := by
    cases hgr : o.gravity with
    | true =>
      have : b'.fresh = b.fresh := by rw [hb', hg hgr]; rfl
      rw [this]
    | false => rfl
  rw [e]
  rfl

/-! ## Violation of C30 for a turned base -/

/-- A quarter turn about x. -/
def tiltX : Iso := ⟨⟨1, 0, 0, 0, 0, -1, 0, 1, 0⟩, 0⟩

theorem tiltX_valid : tiltX.Valid := by
  refine ⟨?_, ?_⟩ <;> simp [tiltX, Mat3.T, Mat3.det] <;> ext <;> simp

namespace Body

/-- One link sliding along z on a base turned by a quarter turn about x. -/
noncomputable def tilted : Body where
  rbs := [{ ({ T := 1, inertia := unitInertia, joint := mkJoint .pz } : RB) with
    id := 0, idParent := -1 }]
  q := [0]
  dq := [0]
  g := ⟨0, 0, -9.81⟩
  load := fun _ => none
  T0 := tiltX
  inertiaBase := ⟨1, 0, 0⟩
  anc := [[0]]
  sub := [[0]]
  c := (((init cache0).setBase tiltX).c.expand 0)

theorem tilted_reach (E : Ext) : ∃ d, Reach E tilted d := by
  have h1 : Reach E ((init cache0).setBase tiltX) _ :=
    (Reach.init cache0).step (.setBase tiltX) ⟨tiltX_valid, rfl⟩ rfl
  refine reach_execAll [.addRigidBody { T := 1, inertia := unitInertia, joint := mkJoint .pz } (-1)]
    h1 ?_ ?_
  · intro op hop
    simp only [List.mem_cons, List.not_mem_nil, or_false] at hop
    subst hop
    exact Iso.valid_one
  · simp [execAll, Op.exec, Op.step, addRigidBody, Out.map, Out.bind, init, dof, pushSub, tilted,
      setBase]

theorem tilted_definite : tilted.Definite := by
  have hl : ∀ k < tilted.dof, k = 0 := by intro k hk; have : k < 1 := hk; omega
  refine ⟨fun k hk => ?_, fun k hk => ?_, fun k hk v hv => ?_, fun k hk L hL => ?_, fun k hk h0 => ?_⟩
  · rw [hl k hk]; show 0 < unitInertia.mass; norm_num [unitInertia]
  · rw [hl k hk]; exact unitInertia_phys.2.1
  · rw [hl k hk]; exact unitInertia_pd v hv
  · cases hL
  · rw [hl k hk] at h0
    have := congrArg (fun m : Motion => m.lin.z) h0
    simp [tilted, rb, mkJoint, JType.subspace] at this

end Body

/-- Parts of a definite body are positive semidefinite. -/
theorem Body.Definite.psd (hd : b.Definite) : ∀ k < b.dof, ∀ I ∈ b.parts k, I.Icom.PSD := by
  intro k hk I hI
  rcases List.mem_cons.1 hI with h | h
  · intro v
    rw [h]
    by_cases hv : v = 0
    · subst hv; simp [Vec3.dot]
    · exact (hd.pd k hk v hv).le
  · exact (hd.load k hk I (Option.mem_toList.1 h)).2.2

/-- Negation of C30 for turned bases: a body at rest, at which the two forward dynamics disagree. -/
theorem C30_violated (E : Ext) : ∃ (b : Body) (d : Bool), Reach E b d ∧ b.Definite ∧
    (b.forwardDynamicsAba (fun _ => 0) (fun _ => none) ⟨true, true, false, 0.01⟩).1 0 ≠
      (b.fd E (fun _ => 0) (fun _ => none) ⟨true, true, false, 0.01⟩).1 0 := by
  obtain ⟨d, h⟩ := tilted_reach E
  have hd := tilted_definite
  refine ⟨tilted, d, h, hd, fun heq => ?_⟩
  have hm := hd.massive h.inv.tree
  have hn := hd.form h
  set b' := tilted.setG (tilted.T0.R.mulVec tilted.g) with hb'
  have h' : Reach E b' _ := h.step (.setG (tilted.T0.R.mulVec tilted.g)) trivial rfl
  have hd' : b'.Definite := ⟨hd.mass, hd.symm, hd.pd, hd.load, hd.axes⟩
  rw [C30_aba_base h hm hn _ _ _ rfl 0 Nat.one_pos] at heq
  have e1 := fd_solves h hm hn (fun _ => 0) (fun _ => none) ⟨true, true, false, 0.01⟩ 0 Nat.one_pos
  have e2 := fd_solves h' (hd'.massive h'.inv.tree) (hd'.form h') (fun _ => 0)
    (fun _ => none) ⟨true, true, false, 0.01⟩ 0 Nat.one_pos
  change ∑ j ∈ range 1, tilted.fresh.massSpec 0 j * _ = _ at e1
  change ∑ j ∈ range 1, tilted.fresh.massSpec 0 j * _ = _ at e2
  rw [sum_range_one] at e1 e2
  rw [heq, e1] at e2
  unfold Sys.fdRhs Sys.idSpec at e2
  have c1 : b'.fresh.coriolisSpec = tilted.fresh.coriolisSpec := rfl
  have c2 : b'.fresh.extSpec = tilted.fresh.extSpec := rfl
  simp only [Bool.false_eq_true, if_false, if_true, c1, c2, mul_zero, sum_const_zero, zero_add,
    zero_sub, neg_inj] at e2
  have e3 : tilted.fresh.gravitySpec 0 = b'.fresh.gravitySpec 0 := by linarith
  have hT : tilted.fresh.Tw 0 = tiltX := by
    rw [fresh_Tw (b := tilted) Nat.one_pos]
    have := worldLoop_spec h.inv.tree.parLt tilted.T0 tilted.freshTp (fun _ => 1) 0 Nat.one_pos
    rw [show tilted.par 0 = none from rfl] at this
    refine this.trans ?_
    have : tilted.freshTp 0 = 1 := by
      show (1 : Iso) * JType.pz.Tjoint 0 = 1
      rw [one_mul]
      ext <;> simp [JType.Tjoint]
    rw [this, mul_one]
    rfl
  have hJ : tilted.fresh.Jw 0 0 = ⟨⟨0, -1, 0⟩, 0⟩ := by
    unfold Sys.Jw
    rw [if_pos Anc.refl]
    show (tilted.fresh.Tw 0).actM (JType.pz.subspace) = _
    rw [hT]
    ext <;> simp [Iso.actM, tiltX, Mat3.mulVec, Vec3.cross, JType.subspace]
  have hG : ∀ g : Vec3, (tilted.fresh.Jw 0 0).dot (tilted.fresh.Iw 0 (-⟨g, 0⟩)) =
      unitInertia.mass * g.y := by
    intro g
    unfold Sys.Iw
    rw [hJ, hT, show tilted.fresh.Itot 0 = unitInertia from rfl]
    simp [Iso.actM, Iso.actF, Iso.inv, tiltX, Mat3.mulVec, Mat3.T, Vec3.cross, Inertia.app,
      Motion.dot, Vec3.dot, unitInertia]
  change ∑ k ∈ range 1, (tilted.fresh.Jw k 0).dot (tilted.fresh.Iw k (-⟨tilted.g, 0⟩)) =
    ∑ k ∈ range 1, (tilted.fresh.Jw k 0).dot (tilted.fresh.Iw k
      (-⟨tilted.T0.R.mulVec tilted.g, 0⟩)) at e3
  rw [sum_range_one, sum_range_one, hG, hG] at e3
  norm_num [tilted, tiltX, Mat3.mulVec, unitInertia] at e3

/-- The hypotheses of C29 and C30 hold for a moving branched body with a load. -/
example (E : Ext) : ∃ d, Reach E demoLoaded d ∧ demoLoaded.Massive ∧
    DefiniteForm demoLoaded.dof demoLoaded.inertia.1 ∧
    demoLoaded.T0.R.mulVec demoLoaded.g = demoLoaded.g := by
  obtain ⟨d, h⟩ := demoLoaded_reach E
  exact ⟨d, h, demoLoaded_definite.massive h.inv.tree,  demoLoaded_definite.form h, Mat3.one_mulVec _⟩

end SpatialDyn
