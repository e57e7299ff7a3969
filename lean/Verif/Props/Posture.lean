import Verif.Lemmas.Posture
import Verif.Props.ControlDefaults
import Mathlib.Analysis.InnerProductSpace.PiL2
import Mathlib.Analysis.InnerProductSpace.Projection.FiniteDimensional

/-!
# C72: the posture task of the controller
-/

namespace SpatialDyn
open Matrix Body

variable {E : Ext} {C : Ctl} {U : C.Quat → Prop} {b : Body} {d : Bool} {T : Set ℝ}

/-- C72: the joints accelerate such that the pose follows its law with the least effort, and, in the
directions the pose does not notice, as near as possible to the law of the joint task
`-kp * (q - q_des) - kv * dq`.  Hypotheses as in C63; with tolerance 0 `PseudoInverse` solves least
squares problems. -/
theorem C72_pose (h : Careful E T b d) (hD : b.Definite) (h0 : (0 : ℝ) ∈ T) (hE : E.LeastSquares 0)
    (hL : C.Law U) (hd : 0 < b.dof) {a : CtlArgs C} (ha1 : a.ddxMax ≤ 0) (ha2 : a.dwMax ≤ 0)
    {J : ℕ → Motion} {x : Vec3} {R : Mat3} (hR : b.Reads (-1) a.xTask J x R)
    (hs : ¬ b.Singular E (jac6 b.dof (rotJac C a.quatTask J)) 0.01)
    (hreg : b.Regular E T (jac6 b.dof (rotJac C a.quatTask J)))
    {r : ((ℕ → ℝ) × ℕ) × Body} (hr : b.opspaceControl E C a = .ok r) (q : FDOpts)
    (hg : q.gravity = a.gravityComp) (hq : q.friction = false)
    (hrest : q.cc = true → ∀ i < b.dof, b.dq.getD i 0 = 0) :
    let V := C.turn a.quatTask (jacVel b.dof J b.dqFun)
    b.Shares ((jac6 b.dof (rotJac C a.quatTask J)).mat 6 b.dof)
      (Motion.six ⟨-a.kpKvPos.1.had (x - a.xDes) - a.kpKvPos.2.had V.lin,
        -(a.kpKvOri.1 • C.oriErr (C.seen a.quatTask R) a.quatDes) - a.kpKvOri.2 • V.ang⟩)
      (fun i => -(a.kpKvJoint.1 * (b.q.getD i 0 - a.qDes.getD i 0)) - a.kpKvJoint.2 * b.dq.getD i 0)
      (vec b.dof (b.fd E r.1.1 noExt q).1) := by
  have hm := hD.massive h.inv.tree
  obtain ⟨m, t, hme, ht, s1, -, hr1, h6, -⟩ := opspaceControl_run h.inv hd hr
  obtain ⟨-, ops, J', x', R', hR', hm'⟩ := ctlMeasure_run h.inv hme
  obtain ⟨⟨b1, j1⟩, ⟨b2, p1⟩, ⟨b3, o1⟩⟩ := hR
  obtain ⟨⟨c1, j2⟩, ⟨c2, p2⟩, ⟨c3, o2⟩⟩ := hR'
  have eJ : J' = J := by
    have := j2.symm.trans j1; cases this; rfl
  have eX : x' = x := by
    have := p2.symm.trans p1; cases this; rfl
  have eR : R' = R := by
    have := o2.symm.trans o1; cases this; rfl
  rw [eJ, eX, eR] at hm'
  have hJ : m.1.J = rotJac C a.quatTask J := by rw [hm']
  rw [hJ] at h6
  have hf : t.2.1.1 = false := by
    cases e : t.2.1.1 with
    | false => rfl
    | true => exact absurd (h6.1 e) hs
  have key := ctlTorque_shares h hD h0 hE s1 (by rw [ops]; exact h.tol) ht
    (K := jac6 b.dof (rotJac C a.quatTask J)) (by rw [hf, hJ]; rfl) hreg
  have fd := fd_matrix h.reach hm (hD.form h.reach) r.1.1 noExt q hq
  rw [idSpec_gravity hrest, hg, hr1] at fd
  dsimp only at fd
  rw [← fd, show a.kpKvJoint = (a.kpKvJoint.1, a.kpKvJoint.2) from rfl,
    hL.pdN_acc _ _ _ _ _ _ _ le_rfl] at key
  intro V
  rw [hr1]
  have hv : vec 6 (ddxDw m.1.pos.1 m.1.ori.1) =
      Motion.six ⟨-a.kpKvPos.1.had (x - a.xDes) - a.kpKvPos.2.had V.lin,
        -(a.kpKvOri.1 • C.oriErr (C.seen a.quatTask R) a.quatDes) - a.kpKvOri.2 • V.ang⟩ := by
    funext i
    rw [hm']
    show Motion.entry ⟨_, _⟩ i = Motion.entry _ i
    dsimp only
    congr 2
    · exact hL.pd3_acc _ _ _ _ _ _ ha1
    · rw [hL.pdQ_acc _ _ _ _ _ _ ha2, hL.pdQ_err _ _ _ _ _ 0 (0, 0) 0]
      rfl
  rw [← hv]
  exact key

/-- C72, singular case: the position follows its law with the least effort and the joint task takes
the directions in which the point does not move. -/
theorem C72_position (h : Careful E T b d) (hD : b.Definite) (h0 : (0 : ℝ) ∈ T)
    (hE : E.LeastSquares 0) (hL : C.Law U) (hd : 0 < b.dof) {a : CtlArgs C} (ha1 : a.ddxMax ≤ 0)
    {J : ℕ → Motion} {x : Vec3} {R : Mat3} (hR : b.Reads (-1) a.xTask J x R)
    (hs : b.Singular E (jac6 b.dof (rotJac C a.quatTask J)) 0.01)
    (hreg : b.Regular E T (jac3 b.dof (rotJac C a.quatTask J)))
    {r : ((ℕ → ℝ) × ℕ) × Body} (hr : b.opspaceControl E C a = .ok r) (q : FDOpts)
    (hg : q.gravity = a.gravityComp) (hq : q.friction = false)
    (hrest : q.cc = true → ∀ i < b.dof, b.dq.getD i 0 = 0) :
    let acc := -a.kpKvPos.1.had (x - a.xDes) -
      a.kpKvPos.2.had (C.turn a.quatTask (jacVel b.dof J b.dqFun)).lin
    b.Shares ((jac3 b.dof (rotJac C a.quatTask J)).mat 3 b.dof) ![acc.x, acc.y, acc.z]
      (fun i => -(a.kpKvJoint.1 * (b.q.getD i 0 - a.qDes.getD i 0)) - a.kpKvJoint.2 * b.dq.getD i 0)
      (vec b.dof (b.fd E r.1.1 noExt q).1) := by
  have hm := hD.massive h.inv.tree
  obtain ⟨m, t, hme, ht, s1, -, hr1, h6, -⟩ := opspaceControl_run h.inv hd hr
  obtain ⟨-, ops, J', x', R', hR', hm'⟩ := ctlMeasure_run h.inv hme
  obtain ⟨⟨b1, j1⟩, ⟨b2, p1⟩, ⟨b3, o1⟩⟩ := hR
  obtain ⟨⟨c1, j2⟩, ⟨c2, p2⟩, ⟨c3, o2⟩⟩ := hR'
  have eJ : J' = J := by
    have := j2.symm.trans j1; cases this; rfl
  have eX : x' = x := by
    have := p2.symm.trans p1; cases this; rfl
  have eR : R' = R := by
    have := o2.symm.trans o1; cases this; rfl
  rw [eJ, eX, eR] at hm'
  have hJ : m.1.J = rotJac C a.quatTask J := by rw [hm']
  rw [hJ] at h6
  have hf : t.2.1.1 = true := h6.2 hs
  have key := ctlTorque_shares h hD h0 hE s1 (by rw [ops]; exact h.tol) ht
    (K := jac3 b.dof (rotJac C a.quatTask J)) (by rw [hf, hJ]; rfl) hreg
  have fd := fd_matrix h.reach hm (hD.form h.reach) r.1.1 noExt q hq
  rw [idSpec_gravity hrest, hg, hr1] at fd
  dsimp only at fd
  rw [← fd, show a.kpKvJoint = (a.kpKvJoint.1, a.kpKvJoint.2) from rfl,
    hL.pdN_acc _ _ _ _ _ _ _ le_rfl] at key
  intro acc
  rw [hr1]
  have hp : m.1.pos.1 = acc := by
    rw [hm']
    exact hL.pd3_acc _ _ _ _ _ _ ha1
  have hv : vec 3 (ddxDw m.1.pos.1 m.1.ori.1) = ![acc.x, acc.y, acc.z] := by
    rw [hp]
    funext i
    fin_cases i <;> rfl
  rw [← hv]
  exact key

/-! ## A redundant body meets the hypotheses -/

/-- Every square matrix has a matrix solving its least squares problems. -/
theorem exists_leastSquares {n : ℕ} (X : Matrix (Fin n) (Fin n) ℝ) :
    ∃ Y : Matrix (Fin n) (Fin n) ℝ, X * Y * X = X ∧ (X * Y)ᵀ = X * Y := by
  classical
  let f : EuclideanSpace ℝ (Fin n) →ₗ[ℝ] EuclideanSpace ℝ (Fin n) := Matrix.toEuclideanLin X
  let S := LinearMap.range f
  let P := S.starProjection
  have hP : ∀ v, ∃ y : Fin n → ℝ, X *ᵥ y = (P v).ofLp := by
    intro v
    obtain ⟨y, hy⟩ : P v ∈ LinearMap.range f := S.starProjection_apply_mem v
    exact ⟨y.ofLp, by rw [← hy]; rfl⟩
  choose y hy using hP
  let Y : Matrix (Fin n) (Fin n) ℝ := Matrix.of fun i j => y (EuclideanSpace.single j 1) i
  have hXY : ∀ i j, (X * Y) i j = P (EuclideanSpace.single j 1) i := by
    intro i j
    rw [← hy]
    rfl
  have hin : ∀ i j, (X * Y) i j = inner ℝ (EuclideanSpace.single i (1 : ℝ))
      (P (EuclideanSpace.single j 1)) := by
    intro i j
    rw [hXY, EuclideanSpace.inner_single_left]
    simp
  have hsym : (X * Y)ᵀ = X * Y := by
    ext i j
    rw [Matrix.transpose_apply, hin, hin, ← Submodule.inner_starProjection_left_eq_right,
      real_inner_comm]
  refine ⟨Y, ?_, hsym⟩
  ext i j
  have hc : ∀ i, X i j = f (EuclideanSpace.single j 1) i := by
    intro i
    show _ = (X *ᵥ _) i
    simp [Matrix.mulVec, dotProduct]
  have hrow : (X * Y * X) i j = inner ℝ (P (EuclideanSpace.single i (1 : ℝ)))
      (f (EuclideanSpace.single j 1)) := by
    rw [Matrix.mul_apply, PiLp.inner_apply]
    refine Finset.sum_congr rfl fun k _ => ?_
    rw [← hc, ← Matrix.transpose_apply (X * Y), hsym, hXY]
    simp [mul_comm]
  rw [hrow, Submodule.inner_starProjection_left_eq_right,
    Submodule.starProjection_eq_self_iff.2 (LinearMap.mem_range_self f _),
    EuclideanSpace.inner_single_left, ← hc]
  simp

/-- Least squares solutions of a regular matrix are its inverse. -/
theorem Ext.LeastSquares.exact {e : ℝ} (hE : E.LeastSquares e) {n : ℕ}
    {X : Matrix (Fin n) (Fin n) ℝ} (hX : X.det ≠ 0) : Exact E X e := by
  obtain ⟨Y, h1, h2, -⟩ := hE n X
  have : Y = X⁻¹ := by
    have hu := Ne.isUnit hX
    have h3 : X * Y = 1 := by
      have := congrArg (· * X⁻¹) h2
      simpa [Matrix.mul_assoc, Matrix.mul_nonsing_inv _ hu] using this
    exact (Matrix.inv_eq_right_inv h3).symm
  unfold Exact
  rw [← this]
  exact h1

open Classical in
/-- The external functions of the witness: least squares solutions. -/
noncomputable def extLs : Ext :=
  { ext0 with pinv := fun A _ =>
      (DMat.ofM (exists_leastSquares (toMat A.rows A.e)).choose, decide ((toMat A.rows A.e).det = 0)) }

theorem toMat_ofM {n : ℕ} (X : Matrix (Fin n) (Fin n) ℝ) : toMat n (DMat.ofM X).e = X := by
  ext i j
  simp [toMat, DMat.ofM]

theorem extLs_leastSquares (e : ℝ) : extLs.LeastSquares e := by
  intro n X
  have key : ∀ X', X' = X → (h : ∃ Y, X' * Y * X' = X' ∧ (X' * Y)ᵀ = X' * Y) →
      X * h.choose * X = X ∧ (X * h.choose)ᵀ = X * h.choose := by
    rintro X' rfl h
    exact h.choose_spec
  exact ⟨(exists_leastSquares (toMat n (DMat.ofM X).e)).choose, DMat.ofM_is _,
    key _ (toMat_ofM X) (exists_leastSquares _)⟩

/-- The hypotheses of `C72_pose` hold for the free-flying body. -/
example : ∃ d J R r, Careful extLs Set.univ flyer0 d ∧ flyer0.Definite ∧ extLs.LeastSquares 0 ∧
      flyer0.Reads (-1) 0 J 0 R ∧
      ¬ flyer0.Singular extLs (jac6 flyer0.dof (rotJac ctl0 none J)) 0.01 ∧
      flyer0.Regular extLs Set.univ (jac6 flyer0.dof (rotJac ctl0 none J)) ∧
      flyer0.opspaceControl extLs ctl0 (ctlGoal none) = .ok r ∧ ctl0.Law Mat3.IsRot := by
  obtain ⟨d, J, R, r, h1, -, -, h4, h5, h6, h7⟩ := flyer_control' (E := extLs) (t := none)
    (fun X e hX => (extLs_leastSquares e).exact hX) (fun X e h => by
      have he : (toMat 6 (DMat.ofM X).e).det = 0 := of_decide_eq_true h
      rwa [toMat_ofM] at he) (.inl rfl)
  exact ⟨d, J, R, r, h1, flyer_definite, extLs_leastSquares 0, h4, h5, h6, h7, ctl0_law⟩

/-- A gantry with two joints along x. -/
def gantryType : ℕ → JType
  | 1 => .py
  | 2 => .pz
  | _ => .px

/-- The gantry in the given configuration. -/
noncomputable def gantry (q : List ℝ) (c : Cache) : Body where
  rbs := [{ ballRB .px with id := 0, idParent := -1 }, { ballRB .py with id := 1, idParent := 0 },
    { ballRB .pz with id := 2, idParent := 1 }, { ballRB .px with id := 3, idParent := 2 }]
  q := q
  dq := [1, 2, 3, 4]
  g := ⟨0, 0, -9.81⟩
  load := fun _ => none
  T0 := 1
  inertiaBase := ⟨1, 0, 0⟩
  anc := [[0], [0, 1], [0, 1, 2], [0, 1, 2, 3]]
  sub := [[0, 1, 2, 3], [1, 2, 3], [2, 3], [3]]
  c := c

/-- The calls that build it. -/
noncomputable def gantryOps : List Op :=
  [.addRigidBody (ballRB .px) (-1), .addRigidBody (ballRB .py) 0, .addRigidBody (ballRB .pz) 1,
   .addRigidBody (ballRB .px) 2, .setDq [1, 2, 3, 4]]

/-- Its cache. -/
noncomputable def gantryCache : Cache :=
  (((((Body.init cache0).c.expand 0).expand 1).expand 2).expand 3).clearDq

/-- The body of the witness. -/
noncomputable def gantry0 : Body := gantry [0, 0, 0, 0] gantryCache

theorem gantry_reach (E : Ext) : ∃ d, Reach E gantry0 d := by
  refine reach_execAll gantryOps (Reach.init cache0) ?_ (b' := _) ?_
  · intro op hop
    simp only [gantryOps, List.mem_cons, List.not_mem_nil, or_false] at hop
    rcases hop with rfl | rfl | rfl | rfl | rfl <;> first | trivial | exact Iso.valid_one
  · simp [gantryOps, execAll, Op.exec, Op.step, addRigidBody, setDq, Out.map, Out.bind, Body.init,
      dof, pushSub, gantry0, gantry, gantryCache]

theorem gantry_joint (k : ℕ) (hk : k < 4) : (gantry0.rb k).joint = mkJoint (gantryType k) := by
  interval_cases k <;> rfl

theorem gantry_definite : gantry0.Definite := by
  refine ⟨fun k hk => ?_, fun k hk => ?_, fun k hk v hv => ?_, fun k hk L hL => ?_, fun k hk => ?_⟩
  all_goals (have hk : k < 4 := hk)
  · have : (gantry0.rb k).inertia = ball := by interval_cases k <;> rfl
    rw [this]; norm_num [ball]
  · have : (gantry0.rb k).inertia = ball := by interval_cases k <;> rfl
    rw [this]; exact ball_phys.2.1
  · have : (gantry0.rb k).inertia = ball := by interval_cases k <;> rfl
    rw [this]; exact ball_pd v hv
  · cases hL
  · rw [gantry_joint k hk]
    intro h
    have e : ∀ i, (gantryType k).subspace.entry i = 0 := by
      intro i
      rw [show (gantryType k).subspace = 0 from h]
      unfold Motion.entry
      split <;> rfl
    have := e (if k = 3 then 0 else k)
    interval_cases k <;> simp [gantryType, JType.subspace, Motion.entry] at this

theorem gantry_par (k : ℕ) (hk : k < 4) : gantry0.fresh.par k = if k = 0 then none else some (k - 1) := by
  interval_cases k <;> rfl

theorem gantry_anc (k : ℕ) (hk : k < 4) (j : ℕ) (hj : j ≤ k) : Anc gantry0.fresh.par j k := by
  induction k with
  | zero => rw [Nat.le_zero.1 hj]; exact .refl
  | succ n ih =>
    rcases Nat.lt_or_ge j (n + 1) with h | h
    · exact .step (by rw [gantry_par _ hk]; simp) (ih (by omega) (by omega))
    · rw [show j = n + 1 by omega]; exact .refl

theorem gantry_tw (k : ℕ) (hk : k < 4) : gantry0.freshTw k = 1 := by
  obtain ⟨d, h⟩ := gantry_reach ext0
  have hTp : ∀ i < 4, gantry0.freshTp i = 1 := by
    intro i hi
    show (gantry0.rb i).T * (gantry0.rb i).joint.type.Tjoint (gantry0.pos i) = 1
    have e1 : (gantry0.rb i).T = 1 := by interval_cases i <;> rfl
    have e2 : gantry0.pos i = 0 := by interval_cases i <;> rfl
    rw [e1, e2, gantry_joint i hi]
    show 1 * (gantryType i).Tjoint 0 = 1
    rw [Tjoint_zero, one_mul]
  induction k with
  | zero =>
    have := worldLoop_spec (par := gantry0.par) (n := gantry0.dof) h.inv.tree.parLt gantry0.T0
      gantry0.freshTp (fun _ => 1) 0 hk
    rw [show gantry0.par 0 = none from rfl] at this
    refine this.trans ?_
    simp only [hTp 0 hk]
    exact one_mul _
  | succ n ih =>
    have := worldLoop_spec (par := gantry0.par) (n := gantry0.dof) h.inv.tree.parLt gantry0.T0
      gantry0.freshTp (fun _ => 1) (n + 1) hk
    rw [show gantry0.par (n + 1) = some n by exact (gantry_par (n + 1) hk).trans (by simp)] at this
    refine this.trans ?_
    simp only [hTp (n + 1) hk]
    rw [show worldLoop gantry0.dof gantry0.par gantry0.T0 gantry0.freshTp (fun _ => 1) n = 1 from
      ih (by omega)]
    exact one_mul _

/-- Its Jacobian. -/
theorem gantry_jac {l : ℤ} (hl : gantry0.LinkIdx l 3) {J : (ℕ → Motion) × Body}
    (hJ : gantry0.jacobian l 0 = .ok J) (j : ℕ) (hj : j < 4) : J.1 j = (gantryType j).subspace := by
  obtain ⟨d, h⟩ := gantry_reach ext0
  rw [jacobian_val h.inv hl hJ (⟨j, hj⟩ : Fin gantry0.dof), gantry_tw 3 (by omega)]
  unfold Sys.Jw
  rw [if_pos (gantry_anc 3 (by omega) j (by omega))]
  unfold Sys.axis
  rw [fresh_Tw hj, gantry_tw j hj, Iso.one_actM,
    show gantry0.fresh.S j = (gantry0.rb j).joint.subspace from rfl, gantry_joint j hj]
  show Motion.atPoint (gantryType j).subspace _ = _
  interval_cases j <;> ext <;>
    simp [gantryType, JType.subspace, Motion.atPoint, Vec3.cross, Iso.app, Mat3.mulVec]

/-- The goal of the witness: one unit along x, and the two joints along x apart. -/
noncomputable def gantryGoal : CtlArgs ctl0 :=
  { ctlGoal none with qDes := [5, 0, 0, -5] }

/-- The hypotheses of the singular cases of C63 and C72 hold for the gantry, and there are
directions the task does not notice. -/
example : ∃ d J R r, Careful extLs Set.univ gantry0 d ∧ gantry0.Definite ∧ extLs.LeastSquares 0 ∧
      gantry0.Reads (-1) 0 J 0 R ∧
      gantry0.Singular extLs (jac6 gantry0.dof (rotJac ctl0 none J)) 0.01 ∧
      gantry0.Regular extLs Set.univ (jac3 gantry0.dof (rotJac ctl0 none J)) ∧
      gantry0.opspaceControl extLs ctl0 gantryGoal = .ok r ∧ ctl0.Law Mat3.IsRot ∧
      ∃ z : Fin gantry0.dof → ℝ, z ≠ 0 ∧ (jac3 gantry0.dof J).mat 3 gantry0.dof *ᵥ z = 0 := by
  obtain ⟨d, h⟩ := gantry_reach extLs
  have hD := gantry_definite
  have hm := hD.massive h.inv.tree
  have hn := hD.form h
  have hl : gantry0.LinkIdx (-1) 3 :=
    ⟨by show 3 < 4; omega, .inr ⟨by show (3 : ℤ) = -1 + 4; omega, by omega⟩⟩
  obtain ⟨J, hJ⟩ := jacobian_total gantry0 hl 0
  obtain ⟨b1, h1⟩ := position_of_index h.inv hl.index 0
  obtain ⟨b2, h2⟩ := orientation_of_index h.inv hl.index
  have hx : (gantry0.freshTw 3).app 0 = 0 := by
    rw [gantry_tw 3 (by omega)]
    ext <;> simp [Iso.app, Mat3.mulVec]
  rw [hx] at h1
  obtain ⟨r, hr⟩ := C51_answers (C := ctl0) h hm (by show 0 < 4; omega) gantryGoal rfl
  have hj := gantry_jac hl hJ
  have hX : (gantry0.taskInv ((jac3 gantry0.dof (rotJac ctl0 none J.1)).mat 3 gantry0.dof)).det ≠ 0 := by
    refine C35_regular h hD fun v hv => ?_
    have e : ∀ j : Fin gantry0.dof, ∑ k : Fin 3, ((gantryType j).subspace).entry k * v k = 0 := by
      intro j
      rw [← hj j j.2]
      exact congrFun hv j
    have e0 := e (⟨0, by show 0 < 4; omega⟩ : Fin gantry0.dof)
    have e1 := e (⟨1, by show 1 < 4; omega⟩ : Fin gantry0.dof)
    have e2 := e (⟨2, by show 2 < 4; omega⟩ : Fin gantry0.dof)
    simp [gantryType, JType.subspace, Fin.sum_univ_three, Motion.entry] at e0 e1 e2
    funext i
    fin_cases i
    · exact e0
    · exact e1
    · exact e2
  refine ⟨d, J.1, _, r, h.careful, hD, extLs_leastSquares 0, ⟨⟨_, hJ⟩, ⟨_, h1⟩, ⟨_, h2⟩⟩, ?_, ?_, hr,
    ctl0_law, ?_⟩
  · obtain ⟨l, hl'⟩ := opsInertia_total (e := 0.01) (J := jac6 gantry0.dof (rotJac ctl0 none J.1)) h.inv
      rfl (by show 0 < 4; omega)
    have he := (opsInertia_eq h.inv hn.mat
      (JM := (jac6 gantry0.dof (rotJac ctl0 none J.1)).mat 6 gantry0.dof)
      ⟨rfl, rfl, fun _ _ => rfl⟩ hl').2
    refine ⟨l.2, ?_⟩
    unfold opsIsSingular
    rw [hl']
    show Out.ok (l.2.c.ops.singular, l.2) = _
    rw [he]
    congr 2
    show decide _ = true
    rw [decide_eq_true_iff]
    show (toMat 6 _).det = 0
    rw [toMat_ofM]
    refine Matrix.exists_mulVec_eq_zero_iff.1 ⟨fun i => if i = 3 then 1 else 0, ?_, ?_⟩
    · intro c
      have := congrFun c 3
      simp at this
    · show (_ * _ * (Matrix.transpose _)) *ᵥ _ = 0
      rw [← Matrix.mulVec_mulVec]
      rw [show ((jac6 gantry0.dof (rotJac ctl0 none J.1)).mat 6 gantry0.dof)ᵀ *ᵥ
        (fun i => if i = 3 then 1 else 0) = 0 from ?_, Matrix.mulVec_zero]
      funext j
      have hj4 : j.1 < 4 := j.2
      show ∑ k : Fin 6, (J.1 j).entry k * (if k = 3 then 1 else 0) = 0
      rw [hj j j.2]
      obtain ⟨j, hj'⟩ := j
      simp only at hj4 ⊢
      interval_cases j <;> simp [gantryType, JType.subspace, Motion.entry]
  · exact ⟨rfl, hX, fun e _ => (extLs_leastSquares e).exact hX⟩
  · refine ⟨fun i => if i.1 = 0 then 1 else if i.1 = 3 then -1 else 0, ?_, ?_⟩
    · intro c
      have := congrFun c (⟨0, by show 0 < 4; omega⟩ : Fin gantry0.dof)
      simp at this
    · funext i
      show ∑ j : Fin 4, (J.1 j).entry i * (if j.1 = 0 then 1 else if j.1 = 3 then -1 else 0) = 0
      rw [Fin.sum_univ_four]
      have a0 := hj 0 (by omega)
      have a3 := hj 3 (by omega)
      simp only [Fin.val_zero, Fin.val_one, Fin.val_two, show ((3 : Fin 4) : ℕ) = 3 from rfl]
      rw [a0, a3]
      simp [gantryType]

end SpatialDyn
