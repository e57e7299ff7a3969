import Verif.Props.Control

/-!
# C64, C65, C66: task frames, the joint-space controller, and holding still

The concrete external functions `ctl0` (rotation matrices for quaternions) keep the promises of
`Ctl.Law`.
-/

namespace SpatialDyn
open Matrix Body

variable {E : Ext} {C : Ctl} {U : C.Quat → Prop} {b : Body} {d : Bool} {T : Set ℝ}

/-! ## Concrete external functions -/

/-- Rotation error of the witness: the axial part of `q qdᵀ`. -/
noncomputable def turnErr (q qd : Mat3) : Vec3 :=
  let A := q * qd.T
  ⟨(A.m21 - A.m12) / 2, (A.m02 - A.m20) / 2, (A.m10 - A.m01) / 2⟩

/-- Rotation matrices in place of quaternions, and plain proportional-derivative control. -/
noncomputable def ctl0 : Ctl where
  Quat := Mat3
  ofRot R := R
  ofXyzw x y z w :=
    ⟨1 - 2 * (y * y + z * z), 2 * (x * y - z * w), 2 * (x * z + y * w),
     2 * (x * y + z * w), 1 - 2 * (x * x + z * z), 2 * (y * z - x * w),
     2 * (x * z - y * w), 2 * (y * z + x * w), 1 - 2 * (x * x + y * y)⟩
  toRot q := q
  mul p q := p * q
  inv q := q.T
  near q _ := q
  pd3 x xd dx g _ := (-g.1.had (x - xd) - g.2.had dx, x - xd)
  pdQ q qd w g _ := (-(g.1 • turnErr q qd) - g.2 • w, turnErr q qd)
  pdN _ x xd dx g _ := (-(g.1 • (x - xd)) - g.2 • dx, x - xd)

theorem ctl0_law : ctl0.Law Mat3.IsRot where
  pd3_err _ _ _ _ _ := rfl
  pd3_acc _ _ _ _ _ _ _ := rfl
  pdN_err _ _ _ _ _ _ := rfl
  pdN_acc _ _ _ _ _ _ _ _ := rfl
  pdQ_err _ _ _ _ _ _ _ _ := rfl
  pdQ_acc _ _ _ _ _ _ _ := rfl
  ori_zero q qd _ _ _ hq _ e := by
    have e : q = qd := e
    subst e
    show turnErr q q = 0
    unfold turnErr
    dsimp only
    rw [hq.mul_T]
    ext <;> simp
  rot_unit R h := ⟨h, rfl⟩
  mul_unit _ _ hp hq := ⟨hp.mul hq, rfl⟩
  inv_unit _ h := ⟨h.T, rfl⟩
  valid _ h := h

/-! ## C64: the task frame -/

/-- C64 without a task orientation: from rest (or without damping) and with equal gains, the tracked
point accelerates towards its goal. -/
theorem C64_towards_goal_partial (h : Careful E T b d) (hm : b.Massive)
    (hn : DefiniteForm b.dof b.inertia.1) (h0 : (0 : ℝ) ∈ T) (hL : C.Law U) (hd : 0 < b.dof)
    {a : CtlArgs C} (ha1 : a.ddxMax ≤ 0) (ha2 : a.dwMax ≤ 0) (ht : a.quatTask = none) {k : ℝ}
    (hk : 0 < k) (hg : a.kpKvPos = (⟨k, k, k⟩, 0)) {J : ℕ → Motion} {x : Vec3} {R : Mat3}
    (hR : b.Reads (-1) a.xTask J x R) (hne : x ≠ a.xDes) (hs : ¬ b.Singular E (jac6 b.dof J) 0.01)
    (hreg : b.Regular E T (jac6 b.dof J)) {r : ((ℕ → ℝ) × ℕ) × Body}
    (hr : b.opspaceControl E C a = .ok r) (q : FDOpts) (hgr : q.gravity = a.gravityComp)
    (hq : q.friction = false) (hrest : q.cc = true → ∀ i < b.dof, b.dq.getD i 0 = 0) :
    0 < (a.xDes - x).dot (jacVel b.dof J (b.fd E r.1.1 noExt q).1).lin := by
  have key := C63_pose h hm hn h0 hL hd ha1 ha2 hR (by rw [ht]; exact hs) (by rw [ht]; exact hreg) hr q
    hgr hq hrest
  simp only [ht, hg] at key
  have key := congrArg Motion.lin key
  change (jacVel b.dof J (b.fd E r.1.1 noExt q).1).lin = _ at key
  rw [key]
  have hne' : x.x - a.xDes.x ≠ 0 ∨ x.y - a.xDes.y ≠ 0 ∨ x.z - a.xDes.z ≠ 0 := by
    by_contra hc
    push Not at hc
    exact hne (Vec3.ext (sub_eq_zero.1 hc.1) (sub_eq_zero.1 hc.2.1) (sub_eq_zero.1 hc.2.2))
  have e : (a.xDes - x).dot (-(⟨k, k, k⟩ : Vec3).had (x - a.xDes) - (0 : Vec3).had
      (C.turn none (jacVel b.dof J b.dqFun)).lin) =
      k * ((x.x - a.xDes.x) ^ 2 + (x.y - a.xDes.y) ^ 2 + (x.z - a.xDes.z) ^ 2) := by
    simp [Vec3.dot, Vec3.had]
    ring
  show 0 < (a.xDes - x).dot _
  rw [e]
  apply mul_pos hk
  rcases hne' with h | h | h <;> positivity

/-- Half a turn about z. -/
def halfTurn : Mat3 := ⟨-1, 0, 0, 0, -1, 0, 0, 0, 1⟩

theorem halfTurn_rot : halfTurn.IsRot := by
  constructor
  · ext <;> simp [halfTurn, Mat3.T]
  · simp [halfTurn, Mat3.det]

/-- The rotation an orientation argument of the Python controller stands for. -/
def OriArg.Means (U : C.Quat → Prop) (R : Mat3) : OriArg C → Prop
  | .quat q => U q ∧ C.toRot q = R
  | .xyzw x y z w => U (C.ofXyzw x y z w) ∧ C.toRot (C.ofXyzw x y z w) = R
  | .mat A => A.IsRot ∧ A = R

/-- C64: given as a quaternion, as four numbers or as a matrix, an orientation argument of the Python
controller means the same: as a goal it is the given rotation, and as the orientation of the task frame
it takes the quantities of the world to that frame (the inverse rotation). -/
theorem C64_task_frame (hL : C.Law U) {R : Mat3} {a : OriArg C} (ha : a.Means U R) :
    (U a.goal ∧ C.toRot a.goal = R) ∧ U a.task ∧ C.toRot a.task = R.T := by
  cases a with
  | quat q => exact ⟨ha, (hL.inv_unit q ha.1).1, by rw [← ha.2]; exact (hL.inv_unit q ha.1).2⟩
  | xyzw x y z w =>
    exact ⟨ha, (hL.inv_unit _ ha.1).1, by rw [← ha.2]; exact (hL.inv_unit _ ha.1).2⟩
  | mat A =>
    obtain ⟨h1, rfl⟩ := ha
    exact ⟨hL.rot_unit A h1, hL.rot_unit _ h1.T⟩

/-- Half a turn about z in the three forms. -/
example : (OriArg.mat halfTurn : OriArg ctl0).Means Mat3.IsRot halfTurn ∧
    (OriArg.xyzw 0 0 1 0 : OriArg ctl0).Means Mat3.IsRot halfTurn ∧
    (OriArg.quat halfTurn : OriArg ctl0).Means Mat3.IsRot halfTurn := by
  have e : ctl0.ofXyzw 0 0 1 0 = halfTurn := by
    show (⟨_, _, _, _, _, _, _, _, _⟩ : Mat3) = halfTurn
    ext <;> simp [halfTurn] <;> norm_num
  refine ⟨⟨halfTurn_rot, rfl⟩, ⟨?_, ?_⟩, halfTurn_rot, rfl⟩
  · rw [e]; exact halfTurn_rot
  · rw [e]; rfl

/-- The goal of the witness: one unit along x, in a task frame turned by the given rotation. -/
noncomputable def ctlGoal (t : Option Mat3) : CtlArgs ctl0 where
  xDes := ⟨1, 0, 0⟩
  quatDes := (1 : Mat3)
  qDes := [0, 0, 0, 0, 0, 0]
  kpKvPos := (⟨80, 80, 80⟩, 0)
  kpKvOri := (80, 0)
  kpKvJoint := (4, 1)
  xTask := 0
  quatTask := t
  ddxMax := 0
  dwMax := 0
  xThr := 1 / 100
  dxThr := 1 / 100
  oriThr := 1 / 100
  wThr := 1 / 100
  gravityComp := true
  dt := 0

/-- Everything C63 asks for holds for the free-flying body, with and without a task frame. -/
theorem flyer_control' {E : Ext}
    (hEx : ∀ (X : Matrix (Fin 6) (Fin 6) ℝ) e, X.det ≠ 0 → Body.Exact E X e)
    (hf : ∀ (X : Matrix (Fin 6) (Fin 6) ℝ) e, (E.pinv (DMat.ofM X) e).2 = true → X.det = 0)
    {t : Option Mat3} (ht : t = none ∨ t = some halfTurn) :
    ∃ d J R r, Careful E Set.univ flyer0 d ∧ flyer0.Massive ∧
      DefiniteForm flyer0.dof flyer0.inertia.1 ∧ flyer0.Reads (-1) 0 J 0 R ∧
      ¬ flyer0.Singular E (jac6 flyer0.dof (rotJac ctl0 t J)) 0.01 ∧
      flyer0.Regular E Set.univ (jac6 flyer0.dof (rotJac ctl0 t J)) ∧
      flyer0.opspaceControl E ctl0 (ctlGoal t) = .ok r := by
  obtain ⟨d, h⟩ := flyer_reach E
  change Reach E flyer0 d at h
  have hD := flyer_definite
  have hm := hD.massive h.inv.tree
  have hn := hD.form h
  have hl : flyer0.LinkIdx (-1) 5 := ⟨by show 5 < 6; omega, .inr ⟨by show (5 : ℤ) = -1 + 6; omega, by omega⟩⟩
  obtain ⟨J, hJ⟩ := jacobian_total flyer0 hl 0
  obtain ⟨b1, h1⟩ := position_of_index h.inv hl.index 0
  obtain ⟨b2, h2⟩ := orientation_of_index h.inv hl.index
  have hx : (flyer0.freshTw 5).app 0 = 0 := by
    rw [flyer_tw 5 (by omega)]
    ext <;> simp [Iso.app, Mat3.mulVec]
  rw [hx] at h1
  obtain ⟨r, hr⟩ := C51_answers (C := ctl0) h hm (by show 0 < 6; omega) (ctlGoal t) rfl
  have hent : ∀ (i : Fin 6) (j : Fin flyer0.dof), ((rotJac ctl0 t J.1) j).entry i =
      if i.1 = j.1 then (if t = none ∨ i.1 = 2 ∨ i.1 = 5 then 1 else -1) else 0 := by
    intro i j
    have e : ∀ i : Fin 6, (J.1 j).entry i = if i.1 = j.1 then 1 else 0 := fun i => flyer_jac hl hJ i j
    have hj : j.1 < 6 := j.2
    rcases ht with rfl | rfl
    · show (J.1 j).entry i = _
      rw [e i]
      simp
    · have e0 : (J.1 j).lin.x = _ := e 0
      have e1 : (J.1 j).lin.y = _ := e 1
      have e2 : (J.1 j).lin.z = _ := e 2
      have e3 : (J.1 j).ang.x = _ := e 3
      have e4 : (J.1 j).ang.y = _ := e 4
      have e5 : (J.1 j).ang.z = _ := e 5
      fin_cases i <;>
        simp [rotJac, ctl0, halfTurn, Mat3.mulVec, Motion.entry, e0, e1, e2, e3, e4, e5]
  have hX : (flyer0.taskInv ((jac6 flyer0.dof (rotJac ctl0 t J.1)).mat 6 flyer0.dof)).det ≠ 0 := by
    refine C35_regular h hD fun v hv => ?_
    funext i
    have hi := congrFun hv (⟨i.1, i.2⟩ : Fin flyer0.dof)
    have hs : (((jac6 flyer0.dof (rotJac ctl0 t J.1)).mat 6 flyer0.dof)ᵀ *ᵥ v)
        (⟨i.1, i.2⟩ : Fin flyer0.dof) = (if t = none ∨ i.1 = 2 ∨ i.1 = 5 then 1 else -1) * v i := by
      show ∑ k : Fin 6, ((rotJac ctl0 t J.1) i).entry k * v k = _
      rw [Finset.sum_eq_single i]
      · rw [hent i ⟨i.1, i.2⟩, if_pos rfl]
      · intro m _ hm
        rw [hent m ⟨i.1, i.2⟩, if_neg (fun c => hm (Fin.ext c)), zero_mul]
      · intro c; exact absurd (Finset.mem_univ i) c
    rw [hs] at hi
    show v i = 0
    change _ = (0 : ℝ) at hi
    split at hi <;> linarith
  refine ⟨d, J.1, _, r, h.careful, hm, hn, ⟨⟨_, hJ⟩, ⟨_, h1⟩, ⟨_, h2⟩⟩, ?_, ?_, hr⟩
  · rintro ⟨b', hb'⟩
    obtain ⟨l, hl', hb'⟩ := Out.bind_ok hb'
    have he := (opsInertia_eq h.inv hn.mat (JM := (jac6 flyer0.dof (rotJac ctl0 t J.1)).mat 6 flyer0.dof)
      ⟨rfl, rfl, fun _ _ => rfl⟩ hl').2
    simp only [Out.ok.injEq, Prod.mk.injEq] at hb'
    rw [hb'.1] at he
    exact hX (hf _ _ he.symm)
  · exact ⟨rfl, hX, fun e _ => hEx _ e hX⟩

theorem flyer_control {t : Option Mat3} (ht : t = none ∨ t = some halfTurn) :
    ∃ d J R r, Careful ext0 Set.univ flyer0 d ∧ flyer0.Massive ∧
      DefiniteForm flyer0.dof flyer0.inertia.1 ∧ flyer0.Reads (-1) 0 J 0 R ∧
      ¬ flyer0.Singular ext0 (jac6 flyer0.dof (rotJac ctl0 t J)) 0.01 ∧
      flyer0.Regular ext0 Set.univ (jac6 flyer0.dof (rotJac ctl0 t J)) ∧
      flyer0.opspaceControl ext0 ctl0 (ctlGoal t) = .ok r := by
  refine flyer_control' (fun X e _ => ext0_exact X e) (fun X e h => ?_) ht
  have he := of_decide_eq_true h
  rw [← he]
  congr 1
  ext i j
  simp [toMat, DMat.ofM]
  rfl

/-- C64 fails with a task orientation: the Jacobian is turned into the task frame but the position
error is not, so with a task frame turned by half a turn the point accelerates away from its goal. -/
theorem C64_violated : ∃ (d : Bool) (J : ℕ → Motion) (R : Mat3) (r : ((ℕ → ℝ) × ℕ) × Body),
    Reach ext0 flyer0 d ∧ flyer0.Reads (-1) 0 J 0 R ∧ halfTurn.IsRot ∧
    flyer0.opspaceControl ext0 ctl0 (ctlGoal (some halfTurn)) = .ok r ∧
    ((ctlGoal (some halfTurn)).xDes - 0).dot
      (jacVel flyer0.dof J (flyer0.fd ext0 r.1.1 noExt ⟨true, false, false, 0⟩).1).lin < 0 := by
  obtain ⟨d, J, R, r, h, hm, hn, hR, hs, hreg, hr⟩ := flyer_control (t := some halfTurn) (.inr rfl)
  refine ⟨d, J, R, r, h.reach, hR, halfTurn_rot, hr, ?_⟩
  have key := C63_pose h hm hn (Set.mem_univ _) ctl0_law (by show 0 < 6; omega)
    (a := ctlGoal (some halfTurn)) le_rfl le_rfl hR hs hreg hr ⟨true, false, false, 0⟩ rfl rfl
    (fun hc => by cases hc)
  have key := congrArg (fun m : Motion => m.lin.x) key
  dsimp only at key
  set W := jacVel flyer0.dof J (flyer0.fd ext0 r.1.1 noExt ⟨true, false, false, 0⟩).1
  simp [Ctl.turn, ctlGoal, ctl0, halfTurn, Mat3.mulVec, Vec3.had] at key
  have e : ((ctlGoal (some halfTurn)).xDes - 0).dot W.lin = W.lin.x := by
    simp [ctlGoal, Vec3.dot]
  rw [e]
  linarith

/-- The hypotheses of C63 and of the partial C64 hold for the free-flying body. -/
example : ∃ d J R r, Careful ext0 Set.univ flyer0 d ∧ flyer0.Massive ∧
      DefiniteForm flyer0.dof flyer0.inertia.1 ∧ flyer0.Reads (-1) 0 J 0 R ∧
      ¬ flyer0.Singular ext0 (jac6 flyer0.dof J) 0.01 ∧
      flyer0.Regular ext0 Set.univ (jac6 flyer0.dof J) ∧
      flyer0.opspaceControl ext0 ctl0 (ctlGoal none) = .ok r ∧ (0 : Vec3) ≠ (ctlGoal none).xDes ∧
      ctl0.Law Mat3.IsRot := by
  obtain ⟨d, J, R, r, h, hm, hn, hR, hs, hreg, hr⟩ := flyer_control (t := none) (.inl rfl)
  refine ⟨d, J, R, r, h, hm, hn, hR, hs, hreg, hr, fun e => ?_, ctl0_law⟩
  have := congrArg Vec3.x e
  simp [ctlGoal] at this

/-! ## C65: the joint-space controller -/

theorem jointSpaceControl_run (h : Inv E b) {joint : Option (List ℝ)} {gains : ℝ × ℝ}
    {maxAcc : Option ℝ} {thr : Option (ℝ × ℝ)} {gc : Bool} {step : Option ℝ}
    {r : ((ℕ → ℝ) × Bool) × Body}
    (hr : b.jointSpaceControl E C joint gains maxAcc thr gc step = .ok r) :
    (joint.getD b.q).length = b.dof ∧
    (let pd := C.pdN b.dof (vecOf b.dof b.q) (vecOf b.dof (joint.getD b.q)) (vecOf b.dof b.dq) gains
      (maxAcc.getD 0)
     r.1.1 = (b.inverseDynamics (padFin pd.1) noExt ⟨gc, false, false, 0.01⟩).1 ∧
     r.1.2 = jointConverged thr pd.2 (vecOf b.dof b.dq)) ∧
    ∃ b', Step E b b' ∧ (step = none → r.2 = b') ∧
      ∀ dt, step = some dt → b'.integrate E r.1.1 dt noExt IntOpts.make = .ok r.2 := by
  unfold jointSpaceControl at hr
  dsimp only at hr
  split at hr
  · cases hr
  next hl =>
  refine ⟨not_not.1 hl, ?_⟩
  cases step with
  | none =>
    cases hr
    exact ⟨⟨rfl, rfl⟩, _, inverseDynamics_step h _ _ _, fun _ => rfl, fun _ e => by cases e⟩
  | some dt =>
    obtain ⟨b', hb', hr⟩ := Out.bind_ok hr
    cases hr
    refine ⟨⟨rfl, rfl⟩, _, inverseDynamics_step h (padFin (C.pdN b.dof (vecOf b.dof b.q)
      (vecOf b.dof (joint.getD b.q)) (vecOf b.dof b.dq) gains (maxAcc.getD 0)).1) noExt
      ⟨gc, false, false, 0.01⟩, fun e => (by cases e), fun _ e => ?_⟩
    cases e
    exact hb'

/-- C65: with the returned torques the joints accelerate exactly as the proportional-derivative law
asks, joint by joint.  Gravity acts if and only if it is compensated, and the velocity-dependent
torques, which the controller leaves out, vanish. -/
theorem C65_law (h : Reach E b d) (hm : b.Massive) (hn : DefiniteForm b.dof b.inertia.1)
    (hL : C.Law U) {joint : Option (List ℝ)} {kp kv : ℝ} {maxAcc : Option ℝ} {thr : Option (ℝ × ℝ)}
    {gc : Bool} {step : Option ℝ} (ha : maxAcc.getD 0 ≤ 0) {r : ((ℕ → ℝ) × Bool) × Body}
    (hr : b.jointSpaceControl E C joint (kp, kv) maxAcc thr gc step = .ok r) (q : FDOpts)
    (hg : q.gravity = gc) (hq : q.friction = false)
    (hrest : q.cc = true → ∀ i < b.dof, b.dq.getD i 0 = 0) (i : ℕ) (hi : i < b.dof) :
    (b.fd E r.1.1 noExt q).1 i =
      -kp * (b.q.getD i 0 - (joint.getD b.q).getD i 0) - kv * b.dq.getD i 0 := by
  obtain ⟨-, ⟨h1, -⟩, -⟩ := jointSpaceControl_run h.inv hr
  set ddq := (C.pdN b.dof (vecOf b.dof b.q) (vecOf b.dof (joint.getD b.q)) (vecOf b.dof b.dq) (kp, kv)
      (maxAcc.getD 0)).1 with hddq
  have e := C29_forward_inverse (E := E) h hm hn (padFin ddq) noExt ⟨gc, false, false, 0.01⟩ 0.01 rfl i hi
  have f1 := fd_matrix (E := E) h hm hn r.1.1 noExt q hq
  have f2 := fd_matrix (E := E) h hm hn r.1.1 noExt ⟨gc, false, false, 0.01⟩ rfl
  rw [idSpec_gravity hrest, hg] at f1
  dsimp only at f2
  rw [idSpec_gravity (fun hc => by cases hc)] at f2
  have f3 := congrFun (f1.trans f2.symm) ⟨i, hi⟩
  change (b.fd E r.1.1 noExt q).1 i = (b.fd E r.1.1 noExt ⟨gc, false, false, 0.01⟩).1 i at f3
  rw [f3, h1]
  refine Eq.trans e ?_
  unfold padFin
  rw [dif_pos hi, hddq, hL.pdN_acc _ _ _ _ _ _ _ ha]
  simp [vecOf]

/-- C65: the flag says whether both errors are below their thresholds; without thresholds it is
set. -/
theorem C65_converged (h : Reach E b d) (hL : C.Law U) {joint : Option (List ℝ)} {gains : ℝ × ℝ}
    {maxAcc : Option ℝ} {thr : Option (ℝ × ℝ)} {gc : Bool} {step : Option ℝ}
    {r : ((ℕ → ℝ) × Bool) × Body}
    (hr : b.jointSpaceControl E C joint gains maxAcc thr gc step = .ok r) :
    r.1.2 = true ↔ ∀ t, thr = some t →
      Real.sqrt (∑ i ∈ Finset.range b.dof, (b.q.getD i 0 - (joint.getD b.q).getD i 0) ^ 2) < t.1 ∧
      Real.sqrt (∑ i ∈ Finset.range b.dof, b.dq.getD i 0 ^ 2) < t.2 := by
  obtain ⟨-, ⟨-, h2⟩, -⟩ := jointSpaceControl_run h.inv hr
  rw [h2, hL.pdN_err]
  unfold jointConverged
  cases thr with
  | none => simp
  | some t =>
    simp only [decide_eq_true_eq, Option.some.injEq, forall_eq']
    unfold norm2
    rw [Finset.sum_range, Finset.sum_range]
    rfl

/-- C65: without a time step the body keeps its state. -/
theorem C65_no_step (h : Reach E b d) {joint : Option (List ℝ)} {gains : ℝ × ℝ}
    {maxAcc : Option ℝ} {thr : Option (ℝ × ℝ)} {gc : Bool} {r : ((ℕ → ℝ) × Bool) × Body}
    (hr : b.jointSpaceControl E C joint gains maxAcc thr gc none = .ok r) : b.ObsEq r.2 := by
  obtain ⟨-, -, b', hs, h1, -⟩ := jointSpaceControl_run h.inv hr
  rw [h1 rfl]
  exact hs.obsEq

/-- C65: with a time step, of whatever sign, the body moves as `Integrate` moves it. -/
theorem C65_step (h : Reach E b d) (hm : b.Massive) {c : Cache} (hc : c.Clear)
    {joint : Option (List ℝ)} {gains : ℝ × ℝ} {maxAcc : Option ℝ} {thr : Option (ℝ × ℝ)} {gc : Bool}
    {dt : ℝ} {r : ((ℕ → ℝ) × Bool) × Body}
    (hr : b.jointSpaceControl E C joint gains maxAcc thr gc (some dt) = .ok r) :
    let y := scheme .rk4 (b.field E c r.1.1 noExt IntOpts.make) id dt b.state
    r.2.q = List.ofFn y.1 ∧ r.2.dq = List.ofFn y.2 := by
  obtain ⟨-, -, b', s2, -, hi⟩ := jointSpaceControl_run h.inv hr
  have hi := hi dt rfl
  have hs : b'.fresh.SymI := by rw [s2.fresh_eq]; exact hm.symI
  have hp : b'.fresh.PosMass := by rw [s2.fresh_eq]; exact hm.posMass h.inv.tree
  obtain ⟨b2, hb2, hq2⟩ := integrate_scheme (h.inv.step s2) hs hp hc r.1.1 dt noExt IntOpts.make
  rw [hb2] at hi
  cases hi
  have hf : b'.codeFilter (IntOpts.make).jointLimits = id := by
    funext y
    unfold codeFilter
    simp [IntOpts.make]
  rw [hf] at hq2
  have e1 := hq2.q
  have e2 := hq2.dq
  clear hq2 hf hb2 hs hp
  obtain ⟨c', hc', -⟩ := s2
  revert e1 e2
  rw [hc']
  intro e1 e2
  exact ⟨e1, e2⟩

/-! ## C66: controllers without goals hold a resting body -/

theorem opsTask_zero (h : Inv E b) {J : DMat} {N : DMat} {ddx : ℕ → ℝ} (h0 : ∀ i, ddx i = 0)
    {t : (ℕ → ℝ) × DMat × Body} (hr : b.opsTask E J ddx N = .ok t) : ∀ i, t.1 i = 0 := by
  obtain ⟨s, hs, rfl⟩ := opsTask_eq hr
  obtain ⟨l, s1, s2, s3, s4, hl, hs1, hs2, hs3, hs4, -, hr1, -⟩ := opsInverseDynamics_parts h hs
  simp only [opsAdd, OpsOpts.make, Bool.false_eq_true, if_false] at hs1 hs2 hs3 hs4
  cases hs1; cases hs2; cases hs3; cases hs4
  intro i
  dsimp only
  rw [hr1]
  unfold clipForce
  rw [if_neg (fun hc => lt_irrefl _ hc.1)]
  unfold DMat.mulVec
  simp [h0]

theorem ctlTorque_zero (h : Inv E b) (hd : 0 < b.dof) {a : CtlArgs C} {m : Measured}
    (h1 : m.pos.1 = 0) (h2 : m.ori.1 = 0)
    (h3 : ∀ n x dx, (C.pdN n x x dx a.kpKvJoint 0).1 = -(a.kpKvJoint.2 • dx))
    (hq : a.qDes = b.q) (hrest : ∀ i < b.dof, b.dq.getD i 0 = 0)
    {t : (ℕ → ℝ) × (Bool × Bool) × Body} (hr : b.ctlTorque E C a m = .ok t) :
    ∀ i < b.dof, t.1 i = if a.gravityComp then b.fresh.gravitySpec i else 0 := by
  have hz : ∀ i, ddxDw m.pos.1 m.ori.1 i = 0 := by
    intro i
    rw [h1, h2]
    unfold ddxDw Motion.entry
    split <;> rfl
  obtain ⟨s, hs, hr⟩ := Out.bind_ok hr
  obtain ⟨ddq, hddq, hr⟩ := Out.bind_ok hr
  obtain ⟨j, hj, hr⟩ := Out.bind_ok hr
  have st := (ctlTask_run h hd hs).1
  have st2 := st.trans (opsTask_step (h.step st) hj)
  have hs0 : ∀ i, s.1 i = 0 := by
    obtain ⟨s6, h6, hs⟩ := Out.bind_ok hs
    have k1 := (opsIsSingular_run h h6).1
    split at hs
    · obtain ⟨t', ht', hs⟩ := Out.bind_ok hs
      obtain ⟨s3, hs3, hs⟩ := Out.bind_ok hs
      cases hs
      exact opsTask_zero (h.step k1) hz ht'
    · obtain ⟨t', ht', hs⟩ := Out.bind_ok hs
      cases hs
      exact opsTask_zero (h.step k1) hz ht'
  obtain ⟨-, -, hddq⟩ := Out.bind_ok hddq
  have hd0 : ∀ i, ddq i = 0 := by
    intro i
    have e : Out.ok ddq = _ := hddq.symm
    simp only [Out.ok.injEq] at e
    rw [e]
    unfold padFin
    split
    · next hi =>
      have hqq : s.2.2.2.q = b.q := by obtain ⟨c, hc, -⟩ := st; rw [hc]
      have hdd : s.2.2.2.dq = b.dq := by obtain ⟨c, hc, -⟩ := st; rw [hc]
      rw [hqq, hdd, hq, h3]
      have := hrest i (by rw [← st.dof_eq]; exact hi)
      simp [vecOf]
      right
      simpa using this
    · rfl
  have hj0 := opsTask_zero (h.step st) hd0 hj
  intro i hi
  dsimp only at hr
  split at hr
  · next hg =>
    cases hr
    have g1 := (gravity_run (h.step st2)).2 i (by rw [st2.dof_eq]; exact hi)
    rw [st2.fresh_eq] at g1
    simp [hs0 i, hj0 i, g1, hg]
  · next hg =>
    cases hr
    simp [hs0 i, hj0 i, hg]

/-- C66: without goals, the operational-space controller of a resting body returns exactly the torques
that hold it against gravity (none, if gravity is not compensated), whatever the gains, the tracked
point and the task frame, singular or not. -/
theorem C66_opspace (h : Reach E b d) (hL : C.Law U) (hd : 0 < b.dof)
    (hrest : ∀ i < b.dof, b.dq.getD i 0 = 0) {k : PyCtl C} (hk1 : k.pos = none) (hk2 : k.ori = none)
    (hk3 : k.joint = none) (hm1 : k.maxPosAcc.getD 0 ≤ 0) (hm2 : k.maxOriAcc.getD 0 ≤ 0)
    (ht : ∀ o, k.taskOri = some o → U o.task) {p o : ℝ × ℝ} (hp : k.posThreshold = some p)
    (ho : k.oriThreshold = some o) {r : ((ℕ → ℝ) × ℕ) × Body}
    (hr : b.pyOpspaceControl E C k = .ok r) :
    ∀ i < b.dof, r.1.1 i = if k.gravityComp then b.gravity.1 i else 0 := by
  obtain ⟨b', x, Q, hs, -, -, hx, -, hQ, hr⟩ := pyOpspaceControl_run h.inv hp ho hr
  obtain ⟨b1, hx⟩ := hx hk1
  obtain ⟨R, b2, hR, hQ⟩ := hQ hk2
  have hi := h.inv.step hs
  have hd' : 0 < b'.dof := by rw [hs.dof_eq]; exact hd
  obtain ⟨m, t, hm, ht', s1, s2, hr1, -⟩ := opspaceControl_run hi hd' hr
  obtain ⟨-, -, J, x', R', hRd, hme⟩ := ctlMeasure_run hi hm
  have hq' : b'.q = b.q := by obtain ⟨c, hc, -⟩ := hs; rw [hc]
  have hdq' : b'.dq = b.dq := by obtain ⟨c, hc, -⟩ := hs; rw [hc]
  obtain ⟨-, ⟨c2, p2⟩, ⟨c3, o2⟩⟩ := hRd
  have eX : x' = x := by
    obtain ⟨-, -, i1, e1, -, e2⟩ := position_run hi p2
    obtain ⟨-, -, i2, e3, -, e4⟩ := position_run h.inv hx
    rw [hs.index] at e1
    rw [e1] at e3
    cases e3
    rw [hs.freshTw] at e2
    exact e2.trans e4.symm
  obtain ⟨-, -, i2, e3, hi2, e4⟩ := orientation_run h.inv hR
  have eR : R' = R := by
    obtain ⟨-, -, i1, e1, -, e2⟩ := orientation_run hi o2
    rw [hs.index] at e1
    rw [e1] at e3
    cases e3
    rw [hs.freshTw] at e2
    exact e2.trans e4.symm
  have hrot : R.IsRot := by
    have := h.inv.wf.Tw_valid i2 hi2
    rw [fresh_Tw hi2] at this
    have e4 : R = _ := e4
    rw [e4]; exact this
  have hU : U Q := by
    rw [hQ]
    cases hk : k.taskOri with
    | none => exact (hL.rot_unit R hrot).1
    | some o => exact (hL.mul_unit _ _ (ht o hk) (hL.rot_unit R hrot).1).1
  have hV : jacVel b'.dof J b'.dqFun = 0 := by
    unfold jacVel
    refine Finset.sum_eq_zero fun j hj => ?_
    have : b'.dqFun j = 0 := by
      show b'.dq.getD j 0 = 0
      rw [hdq']
      exact hrest j (by rw [← hs.dof_eq]; exact Finset.mem_range.1 hj)
    rw [this, zero_smul]
  have hT : C.turn (k.taskOri.map OriArg.task) (0 : Motion) = 0 := by
    cases k.taskOri with
    | none => rfl
    | some q => ext <;> simp [Ctl.turn, Mat3.mulVec]
  dsimp only at hme
  rw [hV, hT, eX, eR, ← hQ] at hme
  have z1 : m.1.pos.1 = 0 := by
    rw [hme]
    dsimp only
    rw [show k.posGains = (k.posGains.1, k.posGains.2) from rfl, hL.pd3_acc _ _ _ _ _ _ hm1]
    ext <;> simp [Vec3.had]
  have z2 : m.1.ori.1 = 0 := by
    rw [hme]
    dsimp only
    rw [show k.oriGains = (k.oriGains.1, k.oriGains.2) from rfl, hL.pdQ_acc _ _ _ _ _ _ hm2,
      hL.ori_zero _ _ _ _ _ hU hU rfl]
    ext <;> simp
  have key := ctlTorque_zero (hi.step s1) (by rw [s1.dof_eq]; exact hd') z1 z2
    (fun n x dx => by
      rw [show k.jointGains = (k.jointGains.1, k.jointGains.2) from rfl, hL.pdN_acc _ _ _ _ _ _ _ le_rfl]
      simp)
    (by
      show k.joint.getD b.q = m.2.q
      rw [hk3]
      obtain ⟨c, hc, -⟩ := s1
      rw [hc]
      exact hq'.symm)
    (by
      have : m.2.dq = b.dq := by
        obtain ⟨c, hc, -⟩ := s1
        rw [hc]
        exact hdq'
      rw [this, s1.dof_eq, hs.dof_eq]
      exact hrest) ht'
  intro i hi'
  have := key i (by rw [s1.dof_eq, hs.dof_eq]; exact hi')
  rw [hr1]
  refine this.trans ?_
  rw [s1.fresh_eq, hs.fresh_eq, (gravity_run h.inv).2 i hi']

/-- C66: the same for the joint-space controller. -/
theorem C66_joint (h : Reach E b d) (hm : b.Massive) (hL : C.Law U)
    (hrest : ∀ i < b.dof, b.dq.getD i 0 = 0) {gains : ℝ × ℝ} {maxAcc : Option ℝ}
    (ha : maxAcc.getD 0 ≤ 0) {thr : Option (ℝ × ℝ)} {gc : Bool} {step : Option ℝ}
    {r : ((ℕ → ℝ) × Bool) × Body}
    (hr : b.jointSpaceControl E C none gains maxAcc thr gc step = .ok r) :
    ∀ i < b.dof, r.1.1 i = if gc then b.gravity.1 i else 0 := by
  obtain ⟨-, ⟨h1, -⟩, -⟩ := jointSpaceControl_run h.inv hr
  have hz : padFin (C.pdN b.dof (vecOf b.dof b.q) (vecOf b.dof ((none : Option (List ℝ)).getD b.q))
      (vecOf b.dof b.dq) gains (maxAcc.getD 0)).1 = fun _ => 0 := by
    funext i
    rw [show gains = (gains.1, gains.2) from rfl, hL.pdN_acc _ _ _ _ _ _ _ ha]
    unfold padFin
    split
    · next hi =>
      have := hrest i hi
      simp [vecOf]
      right
      simpa using this
    · rfl
  intro i hi
  rw [h1, hz, inverseDynamics_val h.inv hm.symI (hm.posMass h.inv.tree) _ _ _ i hi]
  unfold Sys.addFriction
  simp only [Bool.false_eq_true, if_false]
  have := congrFun (idSpec_gravity (b := b) (cc := false) (g := gc) (fun hc => by cases hc)) ⟨i, hi⟩
  refine Eq.trans this ?_
  cases gc with
  | false => rfl
  | true => exact ((gravity_run h.inv).2 i hi).symm

/-- C66: under these torques a resting body does not accelerate. -/
theorem C66_rests (h : Reach E b d) (hm : b.Massive) (hn : DefiniteForm b.dof b.inertia.1)
    (hrest : ∀ i < b.dof, b.dq.getD i 0 = 0) {tau : ℕ → ℝ}
    (ht : ∀ i < b.dof, tau i = b.gravity.1 i) {q : FDOpts} (hg : q.gravity = true)
    (hf : q.friction = false) : ∀ i < b.dof, (b.fd E tau noExt q).1 i = 0 := by
  have f1 := fd_matrix (E := E) h hm hn tau noExt q hf
  rw [idSpec_gravity (fun _ => hrest), hg, if_pos rfl] at f1
  have e : vec b.dof tau - vec b.dof b.fresh.gravitySpec = 0 := by
    funext i
    show tau i - b.fresh.gravitySpec i = 0
    rw [ht i i.2, (gravity_run h.inv).2 i i.2, sub_self]
  rw [e, Matrix.mulVec_zero] at f1
  intro i hi
  exact congrFun f1 ⟨i, hi⟩

/-- C65, C66: the joint-space controller answers whenever the goal has the right size. -/
theorem C65_answers (h : Reach E b d) (hm : b.Massive) {joint : Option (List ℝ)} (gains : ℝ × ℝ)
    (maxAcc : Option ℝ) (thr : Option (ℝ × ℝ)) (gc : Bool) (step : Option ℝ)
    (hj : (joint.getD b.q).length = b.dof) :
    ∃ r, b.jointSpaceControl E C joint gains maxAcc thr gc step = .ok r := by
  unfold jointSpaceControl
  dsimp only
  rw [if_neg (not_not.2 hj)]
  cases step with
  | none => exact ⟨_, rfl⟩
  | some dt =>
    set r := b.pyInverseDynamics (padFin (C.pdN b.dof (vecOf b.dof b.q)
      (vecOf b.dof (joint.getD b.q)) (vecOf b.dof b.dq) gains (maxAcc.getD 0)).1) (fun _ => none) gc
    have s2 : Step E b r.2 := inverseDynamics_step h.inv _ _ _
    have hs : r.2.fresh.SymI := by rw [s2.fresh_eq]; exact hm.symI
    have hp : r.2.fresh.PosMass := by rw [s2.fresh_eq]; exact hm.posMass h.inv.tree
    obtain ⟨b', hb', -⟩ := integrate_scheme (h.inv.step s2) hs hp (c := cache0)
      (by constructor <;> rfl) r.1 dt noExt IntOpts.make
    exact ⟨((r.1, jointConverged thr (C.pdN b.dof (vecOf b.dof b.q)
      (vecOf b.dof (joint.getD b.q)) (vecOf b.dof b.dq) gains (maxAcc.getD 0)).2 (vecOf b.dof b.dq)),
      b'), by
        show (r.2.integrate E r.1 dt noExt IntOpts.make).bind _ = _
        rw [hb']
        rfl⟩

/-- C66: with both thresholds given, the Python operational-space controller answers. -/
theorem C66_answers (h : Reach E b d) (hm : b.Massive) (hd : 0 < b.dof) {k : PyCtl C} {p o : ℝ × ℝ}
    (hp : k.posThreshold = some p) (ho : k.oriThreshold = some o)
    (hj : (k.joint.getD b.q).length = b.dof) : ∃ r, b.pyOpspaceControl E C k = .ok r := by
  have hx : ∃ x, b.pyPos k.pos (k.taskPos.getD 0) = .ok x ∧ Step E b x.2 := by
    unfold pyPos
    cases k.pos with
    | some y => exact ⟨_, rfl, Step.refl h.inv⟩
    | none =>
      obtain ⟨b1, hb1⟩ := position_of_index h.inv (lastLink hd).index (k.taskPos.getD 0)
      exact ⟨_, hb1, (position_run h.inv hb1).1⟩
  obtain ⟨x, hx, s1⟩ := hx
  have hq : ∃ q, x.2.pyOri C k.ori (k.taskOri.map OriArg.task) = .ok q ∧ Step E b q.2 := by
    unfold pyOri
    cases k.ori with
    | some y => exact ⟨_, rfl, s1⟩
    | none =>
      obtain ⟨b1, hb1⟩ := orientation_of_index (h.inv.step s1) (l := -1) (k := b.dof - 1)
        (by rw [s1.index]; exact (lastLink hd).index)
      rw [hb1]
      exact ⟨_, rfl, s1.trans (orientation_run (h.inv.step s1) hb1).1⟩
  obtain ⟨q, hq, s2⟩ := hq
  have hans : ∀ a : CtlArgs C, a.qDes.length = b.dof → ∃ r, q.2.opspaceControl E C a = .ok r := by
    intro a ha
    have hi := h.inv.step s2
    have hd2 : 0 < q.2.dof := by rw [s2.dof_eq]; exact hd
    obtain ⟨m, hm'⟩ := ctlMeasure_total hi hd2 a
    have t1 := (ctlMeasure_run hi hm').1
    obtain ⟨t, ht⟩ := ctlTorque_total (hi.step t1) (by rw [t1.dof_eq]; exact hd2) a m.1
      (by rw [t1.dof_eq, s2.dof_eq]; exact ha)
    have t2 := t1.trans (ctlTorque_run (hi.step t1) (by rw [t1.dof_eq]; exact hd2) ht).1
    unfold opspaceControl
    simp only [hm', ht, Out.bind]
    split
    · have hs : t.2.2.fresh.SymI := by rw [t2.fresh_eq, s2.fresh_eq]; exact hm.symI
      have hp : t.2.2.fresh.PosMass := by
        rw [t2.fresh_eq, s2.fresh_eq]; exact hm.posMass h.inv.tree
      obtain ⟨b', hb', -⟩ := integrate_scheme (hi.step t2) hs hp (c := cache0)
        (by constructor <;> rfl) t.1 a.dt noExt IntOpts.make
      simp only [hb']
      exact ⟨_, rfl⟩
    · exact ⟨_, rfl⟩
  unfold pyOpspaceControl
  simp only [hx, hq, hp, ho, Out.bind]
  refine hans _ ?_
  exact hj

/-- The hypotheses of C65 and C66 hold for one sliding joint, at rest. -/
example : ∃ d r r', Reach ext0 (solo .px) d ∧ (solo .px).Massive ∧
    DefiniteForm (solo .px).dof (solo .px).inertia.1 ∧ (∀ i, (solo .px).dq.getD i 0 = 0) ∧
    (solo .px).jointSpaceControl ext0 ctl0 (some [3]) (25, 10) none none true (some 0.1) = .ok r ∧
    (solo .px).pyOpspaceControl ext0 ctl0 { posThreshold := some (1, 1), oriThreshold := some (1, 1) } =
      .ok r' := by
  obtain ⟨d, h⟩ := solo_reach ext0 .px
  have hS : JType.subspace .px ≠ 0 := fun e => by
    have := congrArg (fun m : Motion => m.lin.x) e
    simp [JType.subspace] at this
  have hd := solo_definite hS
  have hm := hd.massive h.inv.tree
  obtain ⟨r, hr⟩ := C65_answers (C := ctl0) (joint := some [3]) h hm (25, 10) none none true (some 0.1) rfl
  obtain ⟨r', hr'⟩ := C66_answers (C := ctl0)
    (k := { posThreshold := some (1, 1), oriThreshold := some (1, 1) }) h hm Nat.one_pos rfl rfl rfl
  refine ⟨d, r, r', h, hm, hd.form h, fun i => ?_, hr, hr'⟩
  cases i <;> rfl

/-- C51: a slider at rest, a unit away from its goal, is reported as converged by Python's truth
value, with every threshold 0.1. -/
theorem C51_violated_far : ∃ d r, Reach ext0 (solo .px) d ∧
    (solo .px).opspaceControl ext0 ctl0
      { xDes := ⟨1, 0, 0⟩, quatDes := (1 : Mat3), qDes := [0], kpKvPos := (⟨1, 1, 1⟩, 0)
        kpKvOri := (1, 0), kpKvJoint := (1, 0), xTask := 0, quatTask := none, ddxMax := 0, dwMax := 0
        xThr := 0.1, dxThr := 0.1, oriThr := 0.1, wThr := 0.1, gravityComp := true, dt := 0 } = .ok r ∧
    r.1.2 ≠ 0 ∧ r.1.2.testBit 0 = false := by
  obtain ⟨d, h⟩ := solo_reach ext0 .px
  have hS : JType.subspace .px ≠ 0 := fun e => by
    have := congrArg (fun m : Motion => m.lin.x) e
    simp [JType.subspace] at this
  have hm := (solo_definite hS).massive h.inv.tree
  obtain ⟨r, hr⟩ := C51_answers (C := ctl0) h hm Nat.one_pos
      { xDes := ⟨1, 0, 0⟩, quatDes := (1 : Mat3), qDes := [0], kpKvPos := (⟨1, 1, 1⟩, 0)
        kpKvOri := (1, 0), kpKvJoint := (1, 0), xTask := 0, quatTask := none, ddxMax := 0, dwMax := 0
        xThr := 0.1, dxThr := 0.1, oriThr := 0.1, wThr := 0.1, gravityComp := true, dt := 0 } rfl
  refine ⟨d, r, h, hr, C51_violated_truthy h Nat.one_pos ?_ ?_ hr, ?_⟩
  · intro i _
    cases i <;> rfl
  · norm_num
  · obtain ⟨J, x, R, ⟨-, ⟨c, hx⟩, -⟩, h0, -⟩ := C51_status h ctl0_law Nat.one_pos hr
    obtain ⟨-, -, k, -, hk, ex⟩ := position_run h.inv hx
    have hk0 : k = 0 := Nat.lt_one_iff.1 hk
    subst hk0
    have ex : x = ((solo .px).freshTw 0).app 0 := ex
    rw [solo_tw] at ex
    have ex : x = 0 := by rw [ex]; ext <;> simp [Iso.app, Mat3.mulVec]
    rw [← Bool.not_eq_true]
    intro hb
    have := h0.1 hb
    rw [ex] at this
    rcases this with hn | hn
    · norm_num at hn
    · norm_num [Vec3.dot] at hn

end SpatialDyn
