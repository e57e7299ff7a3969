import Verif.Lemmas.Sliding
import Verif.Lemmas.Flow
import Verif.Props.InverseKin
import Verif.Props.Posture

/-! # Properties C117, C118: robots whose joints all slide -/

namespace SpatialDyn
open Finset Matrix Body

variable {E : Ext} {b : Body} {d : Bool} {C : Ctl} {U : C.Quat → Prop} {T : Set ℝ}

/-! ## C117 -/

/-- C117: in every state, the inertia matrix and the torques against gravity are the same, and there
are no centrifugal and Coriolis torques. -/
theorem C117_constant (h : Reach E b d) (hm : b.Massive) (hs : b.Sliding) (ha : b.AxesOK)
    {q dq : List ℝ} {B : Body} (hB : ∃ b1, b.setQ q = .ok b1 ∧ b1.setDq dq = .ok B) :
    ∀ i < b.dof, (∀ j < b.dof, B.inertia.1 i j = b.inertia.1 i j) ∧
      B.gravity.1 i = b.gravity.1 i ∧ B.centrifugalCoriolis.1 i = 0 := by
  intro i hi
  have ht := h.inv.tree
  obtain ⟨hS, hn, hf, -, -, d', hr⟩ := h.after_set hB
  have hmB := hS.massive hm
  refine ⟨fun j hj => ?_, ?_, ?_⟩
  · rw [hr.inertia_val hmB (by rw [hn]; exact hi) (by rw [hn]; exact hj), h.inertia_val hm hi hj, hf,
      fresh_eq_sysAt, hs.mass ha ht h.inv.rigid _ _ b.pos b.vel]
  · rw [(gravity_run hr.inv).2 i (by rw [hn]; exact hi), (gravity_run h.inv).2 i hi, hf,
      fresh_eq_sysAt, hs.weight ha ht h.inv.rigid _ _ b.pos b.vel]
  · rw [(centrifugalCoriolis_run hr.inv).2 i (by rw [hn]; exact hi), hf, hs.coriolis ha ht]
    rfl

/-- The vector field of a sliding robot. -/
theorem slide_field (h : Reach E b d) (hD : b.Definite) (hs : b.Sliding) (ha : b.AxesOK)
    (tau : ℕ → ℝ) (fext : FExt) (o : IntOpts) (hf : o.friction = false) (y : State b.dof) :
    b.field E cache0 tau fext o y = (y.2, fun i : Fin b.dof => b.acceleration E tau fext o i) := by
  have e1 := field_val h hD cache0_clear tau fext o hf y
  have e2 := field_val h hD cache0_clear tau fext o hf b.state
  have hm := hD.massive h.inv.tree
  have e3 : (b.field E cache0 tau fext o b.state).2 = fun i : Fin b.dof => b.acceleration E tau fext o i := by
    funext i
    rw [← ((atState_self h.inv).accel h.inv hm.symI (hm.posMass h.inv.tree) cache0_clear tau fext o).1 i]
    unfold Body.accel acceleration
    split <;> rfl
  rw [← e3, e1, e2]
  exact Prod.ext rfl (hs.acc ha h.inv.tree h.inv.rigid _ _ _ _ _ _ _ _)

/-- C117: `n` calls of `Integrate` without friction and joint limits, under the same torques and
external forces, move the joints exactly as constant accelerations do over the whole time, with every
method and every step size.  In particular, many short steps lead to the same state as a long one. -/
theorem C117_exact (h : Reach E b d) (hD : b.Definite) (hs : b.Sliding) (ha : b.AxesOK)
    (tau : ℕ → ℝ) (dt : ℝ) (fext : FExt) (o : IntOpts) (hf : o.friction = false)
    (hl : o.jointLimits = false) (n : ℕ) :
    ∃ b', steps E tau dt fext o n b = .ok b' ∧ ∀ i < b.dof,
      (let a := b.acceleration E tau fext o i
       b'.q.getD i 0 = b.q.getD i 0 + n * dt * b.dq.getD i 0 + (n * dt) ^ 2 / 2 * a ∧
       b'.dq.getD i 0 = b.dq.getD i 0 + n * dt * a) := by
  obtain ⟨b', h1, h2⟩ := steps_scheme h (hD.massive h.inv.tree) cache0_clear tau dt fext o hl n
  refine ⟨b', h1, fun i hi => ?_⟩
  rw [scheme_const_iter o.method _ (slide_field h hD hs ha tau fext o hf)] at h2
  have g1 := congrArg (fun l => l.getD i 0) h2.q
  have g2 := congrArg (fun l => l.getD i 0) h2.dq
  have k1 := getD_ofFn (b.state.1 + (n * dt) • b.state.2 + ((n * dt) ^ 2 / 2) •
    (fun i : Fin b.dof => b.acceleration E tau fext o i)) ⟨i, hi⟩
  have k2 := getD_ofFn (b.state.2 + (n * dt) •
    (fun i : Fin b.dof => b.acceleration E tau fext o i)) ⟨i, hi⟩
  simp only at g1 g2 k1 k2
  rw [g1, g2, k1, k2]
  exact ⟨rfl, rfl⟩

/-! ## C118 -/

/-- Factor by which an iteration shrinks the distance to the goal. -/
noncomputable def ikRate : ℝ := 0.99104

theorem ik_shrink {p v r : ℝ} (h1 : |p| ≤ r) (h2 : |v + 10 * p| ≤ r) :
    |p + 1 / 1000 * v + (1 / 1000) ^ 2 / 2 * (-(100 * p) - 20 * v)| ≤ ikRate * r ∧
    |v + 1 / 1000 * (-(100 * p) - 20 * v) +
      10 * (p + 1 / 1000 * v + (1 / 1000) ^ 2 / 2 * (-(100 * p) - 20 * v))| ≤ ikRate * r := by
  unfold ikRate
  rw [abs_le] at h1 h2
  refine ⟨abs_le.2 ⟨?_, ?_⟩, abs_le.2 ⟨?_, ?_⟩⟩ <;> norm_num <;> linarith

theorem ik_shrink3 {p v : Vec3} {r : ℝ} (h1 : p.Within r) (h2 : (v + (10 : ℝ) • p).Within r) :
    let a := -((100 : ℝ) • p) - (20 : ℝ) • v
    (p + ((1 / 1000 : ℝ) • v + ((1 / 1000 : ℝ) ^ 2 / 2) • a)).Within (ikRate * r) ∧
    (v + (1 / 1000 : ℝ) • a + (10 : ℝ) • (p + ((1 / 1000 : ℝ) • v + ((1 / 1000 : ℝ) ^ 2 / 2) • a))).Within
      (ikRate * r) := by
  have hx := ik_shrink h1.1 h2.1
  have hy := ik_shrink h1.2.1 h2.2.1
  have hz := ik_shrink h1.2.2 h2.2.2
  simp only [← add_assoc]
  exact ⟨⟨hx.1, hy.1, hz.1⟩, ⟨hx.2, hy.2, hz.2⟩⟩

/-- Position error and velocity of the point in a state. -/
noncomputable def ikErr (b : Body) (a : IkGoal C) (k : ℕ) (y : State b.dof) : Vec3 :=
  b.pointQ k a.offset y.1 - a.xDes

noncomputable def ikVel (b : Body) (a : IkGoal C) (k : ℕ) (y : State b.dof) : Vec3 :=
  (jacVel b.dof (b.jacQ k a.offset y.1) (padFin y.2)).lin

/-- One iteration. -/
theorem ik_slide_step (h : Reach E b d) (hD : b.Definite) (hs : b.Sliding) (ha : b.AxesOK)
    (hF : E.Flags 0) {a : IkGoal C} {k : ℕ} (hk : b.LinkIdx a.link k)
    (hX : (projInv (b.massQ 0)⁻¹ (b.rowsQ 3 k a.offset 0)).det ≠ 0)
    (hE : ∀ e ∈ T, Exact E (projInv (b.massQ 0)⁻¹ (b.rowsQ 3 k a.offset 0)) e)
    {y : State b.dof} {B B1 : Body} {d' : Bool} (hA : AtState E b y B) (hB : Reach E B d')
    {tau : ℕ → ℝ} (hlaw : IkLaw E C T a B tau)
    (hi : B.integrate E tau (1 / 1000) noExt (IntOpts.make false) = .ok B1) :
    ∃ y', B1.q = List.ofFn y'.1 ∧ B1.dq = List.ofFn y'.2 ∧
      (let p := ikErr b a k y
       let v := ikVel b a k y
       let acc := -((100 : ℝ) • p) - (20 : ℝ) • v
       ikErr b a k y' = p + ((1 / 1000 : ℝ) • v + ((1 / 1000 : ℝ) ^ 2 / 2) • acc) ∧
       ikVel b a k y' = v + (1 / 1000 : ℝ) • acc) := by
  have ht := h.inv.tree
  have hr := h.inv.rigid
  have hd : 0 < b.dof := lt_of_le_of_lt (Nat.zero_le _) hk.1
  have hn : B.dof = b.dof := hA.dof
  have hDB := hA.only.definite hD
  have hm := hD.massive ht
  have hK : B.LinkIdx a.link k := by unfold LinkIdx; rw [hn]; exact hk
  -- what the body answers
  obtain ⟨J, hJ⟩ := jacobian_total B hK a.offset
  obtain ⟨b4, p2⟩ := position_of_index hA.inv hK.index a.offset
  obtain ⟨b5, o2⟩ := orientation_of_index hA.inv (lastLink (b := B) (by omega)).index
  have hR : B.Reads a.link a.offset J.1 _ _ := ⟨⟨_, hJ⟩, ⟨_, p2⟩, ⟨_, o2⟩⟩
  obtain ⟨eJ, eX, -⟩ := hA.readsAt hk hR
  set o : FDOpts := ⟨false, false, false, 0⟩ with ho
  have hl := (hlaw (hDB.form hB) _ _ _ hR o rfl rfl (fun e => absurd e (by simp [ho]))).2
  have hsing : B.Singular E (jac6 B.dof J.1) 0 := by
    rw [eJ, hn]
    refine (hA.singular hB hD hd 6 k a.offset 0).2 (hF _ _ ?_)
    exact hs.gram_six ha ht hk.1 _ _
  have hreg : B.Regular E T (jac3 B.dof J.1) := by
    have e : B.taskInv ((jac3 B.dof J.1).mat (jac3 B.dof J.1).rows B.dof) =
        projInv (b.massQ 0)⁻¹ (b.rowsQ 3 k a.offset 0) := by
      rw [eJ, ← hs.gram ha ht hr 3 hk.1 a.offset y.1 0]
      exact hA.taskInv_jac hB hD 3 k a.offset
    refine ⟨rfl, ?_, ?_⟩
    · rw [e]; exact hX
    · rw [e]; exact hE
  have hl := hl hsing hreg
  -- the accelerations
  set A : Fin b.dof → ℝ := b.accAt b.g tau noExt true false y with hAdef
  have hfd : ∀ i : Fin b.dof, (B.fd E tau noExt o).1 i = A i := fun i => by
    rw [hA.fd_val hB hD hA.fresh_eq tau noExt o rfl i]
    exact congrFun (hs.acc ha ht hr _ _ _ _ _ _ _ _) i
  have hjA : jacVel B.dof J.1 (B.fd E tau noExt o).1 = jacVel b.dof (b.jacQ k a.offset y.1) (padFin A) := by
    rw [eJ, hn]
    unfold jacVel
    refine sum_congr rfl fun j hj => ?_
    have hj := mem_range.1 hj
    rw [show padFin A j = A ⟨j, hj⟩ by unfold padFin; rw [dif_pos hj], ← hfd ⟨j, hj⟩]
  have hjV : jacVel B.dof J.1 B.dqFun = jacVel b.dof (b.jacQ k a.offset y.1) (padFin y.2) := by
    rw [hA.dqPad hn, eJ]
  rw [hjA, hjV, eX] at hl
  -- the step
  obtain ⟨B2, hB2, hat⟩ := hA.integrate h.inv hm.symI (hm.posMass ht) cache0_clear tau (1 / 1000)
    noExt (IntOpts.make false)
  rw [hi] at hB2
  cases hB2
  have hcf : b.codeFilter (IntOpts.make false).jointLimits = id := by
    funext y
    unfold codeFilter
    simp [IntOpts.make]
  have hfield : ∀ z, b.field E cache0 tau noExt (IntOpts.make false) z = (z.2, A) := by
    intro z
    rw [field_val h hD cache0_clear tau noExt _ rfl z]
    exact Prod.ext rfl (hs.acc ha ht hr _ _ _ _ _ _ _ _)
  rw [hcf, scheme_const _ A hfield] at hat
  refine ⟨_, hat.q, hat.dq, ?_, ?_⟩
  · unfold ikErr
    have e1 : (y.1 + (1 / 1000 : ℝ) • y.2 + ((1 / 1000 : ℝ) ^ 2 / 2) • A) - y.1 =
        (1 / 1000 : ℝ) • y.2 + ((1 / 1000 : ℝ) ^ 2 / 2) • A := by
      funext i; simp; ring
    rw [hs.point ha ht hr hk.1 a.offset y.1, e1, jacVel_lin_comb, Motion.add_lin, Motion.smul_lin,
      Motion.smul_lin, hl, add_sub_right_comm]
    rfl
  · unfold ikVel
    have e1 : (y.2 + (1 / 1000 : ℝ) • A) = (1 : ℝ) • y.2 + (1 / 1000 : ℝ) • A := by
      rw [one_smul]
    have e2 : b.jacQ k a.offset (y.1 + (1 / 1000 : ℝ) • y.2 + ((1 / 1000 : ℝ) ^ 2 / 2) • A) =
        b.jacQ k a.offset y.1 := funext fun j => (hs.jac ha ht hk.1 _ _ _ j).2
    simp only [e2]
    rw [e1, jacVel_lin_comb, Motion.add_lin, Motion.smul_lin, Motion.smul_lin, hl, one_smul]
    rfl

/-- A point near its goal, the orientation of the last link being as asked. -/
theorem ik_slide_met (h : Reach E b d) (hs : b.Sliding) (ha : b.AxesOK) (hL : C.Law U) {a : IkGoal C}
    {k : ℕ} (hk : b.LinkIdx a.link k) (hU : U a.quatDes)
    (hori : C.toRot a.quatDes = (b.twAt (fun _ => 0) (b.dof - 1)).R)
    {y : State b.dof} {B : Body} {d' : Bool} (hA : AtState E b y B) (hB : Reach E B d')
    (hp : ∃ r, (ikErr b a k y).Within r ∧ r < 1 / 2000) : IkMet C B a (-1) B.q := by
  have hd : 0 < b.dof := lt_of_le_of_lt (Nat.zero_le _) hk.1
  have hn : B.dof = b.dof := hA.dof
  have hK : B.LinkIdx a.link k := by unfold LinkIdx; rw [hn]; exact hk
  have htw : ∀ i, B.freshTw i = b.twAt (padFin y.1) i := by
    intro i
    have hp : B.pos = padFin y.1 := by unfold Body.pos; rw [hA.q, getD_ofFn_pad]
    show B.twAt B.pos _ = _
    rw [hp]
    unfold Body.twAt Body.par Body.TpAt
    rw [hn, hA.rb, hA.only.T0]
  refine (ikMet_iff hB hK (lastLink (b := B) (by omega))).2 ?_
  rw [htw, htw, hn]
  refine ⟨?_, ?_⟩
  · obtain ⟨r, ⟨h1, h2, h3⟩, hr⟩ := hp
    show (ikErr b a k y).dot (ikErr b a k y) < _
    have k : ∀ x : ℝ, |x| ≤ r → x * x ≤ (1 / 2000) ^ 2 := fun x hx => by
      rw [← abs_mul_abs_self x]
      nlinarith [abs_nonneg x]
    unfold Vec3.dot
    have := k _ h1
    have := k _ h2
    have := k _ h3
    norm_num at *
    linarith
  · have hrot : (b.twAt (padFin y.1) (b.dof - 1)).R.IsRot :=
      twAt_valid h.inv.tree h.inv.rigid _ _ (by omega)
    have e : C.oriErr (C.ofRot (b.twAt (padFin y.1) (b.dof - 1)).R) a.quatDes = 0 := by
      refine hL.ori_zero _ _ _ _ _ (hL.rot_unit _ hrot).1 hU ?_
      rw [(hL.rot_unit _ hrot).2, hori]
      exact hs.rot ha h.inv.tree _ _ _ (by omega)
    rw [e]
    norm_num [Vec3.dot]

/-- A run of the iterations: where it ends. -/
theorem ik_slide_end (h : Reach E b d) (hD : b.Definite) (hs : b.Sliding) (ha : b.AxesOK)
    (hF : E.Flags 0) {a : IkGoal C} {k : ℕ} (hk : b.LinkIdx a.link k)
    (hX : (projInv (b.massQ 0)⁻¹ (b.rowsQ 3 k a.offset 0)).det ≠ 0)
    (hE : ∀ e ∈ T, Exact E (projInv (b.massQ 0)⁻¹ (b.rowsQ 3 k a.offset 0)) e) {n : ℕ} {B B' : Body}
    (hrun : IkRun E C T a n B B') : ∀ {y : State b.dof} {r : ℝ}, AtState E b y B → Held E T B →
      (ikErr b a k y).Within r → (ikVel b a k y + (10 : ℝ) • ikErr b a k y).Within r →
      (∀ P : Body → Prop, (∀ B y r, AtState E b y B → Held E T B → (ikErr b a k y).Within r →
        r < 1 / 2000 → P B) → (∀ B, P B → IkMet C B a (-1) B.q) →
        ∀ m, ikRate ^ m * r < 1 / 2000 → n ≤ m) ∧
      ∃ y', AtState E b y' B' ∧ Held E T B' ∧ (ikErr b a k y').Within (ikRate ^ n * r) := by
  induction hrun with
  | stop B =>
    intro y r hA hH h1 h2
    exact ⟨fun _ _ _ m _ => Nat.zero_le m, y, hA, hH, by simpa using h1⟩
  | @step n B B1 B2 B' tau hnot hlaw hi hq hdq hso hc hrun ih =>
    intro y r hA hH h1 h2
    obtain ⟨d', hB⟩ := id hH
    obtain ⟨d2, hB2⟩ := id hc
    obtain ⟨y', e1, e2, e3, e4⟩ := ik_slide_step h hD hs ha hF hk hX hE hA hB.reach hlaw hi
    have hA2 : AtState E b y' B2 := ⟨hA.only.trans hso, hB2.inv, hq.trans e1, hdq.trans e2⟩
    obtain ⟨s1, s2⟩ := ik_shrink3 h1 h2
    rw [← e3] at s1
    rw [← e3, ← e4] at s2
    obtain ⟨g1, y'', g2, g3, g4⟩ := ih hA2 hc s1 s2
    refine ⟨fun P hP hM m hm => ?_, y'', g2, g3, ?_⟩
    · cases m with
      | zero =>
        rw [pow_zero, one_mul] at hm
        exact absurd (hM _ (hP _ _ _ hA hH h1 hm)) hnot
      | succ m =>
        have := g1 P hP hM m (by rw [pow_succ, mul_assoc] at hm; exact hm)
        omega
    · rw [pow_succ, mul_assoc]; exact g4

/-- The loop of `InverseKinematics` on a sliding robot. -/
theorem ik_slide_call (h : Careful E T b d) (hD : b.Definite) (hs : b.Sliding) (ha : b.AxesOK)
    (h0 : (0 : ℝ) ∈ T) (hL : C.Law U) (hF : E.Flags 0) {a : IkGoal C} {k : ℕ}
    (hk : b.LinkIdx a.link k) {s : Option ℕ} (hst : s = none ∨ s = some b.dof) {J : ℕ → Motion}
    {x : Vec3} {R : Mat3} (hR : b.Reads a.link a.offset J x R) (hreg : b.Regular E T (jac3 b.dof J))
    {r : ℝ} (hx : (x - a.xDes).Within r)
    (hv : ((jacVel b.dof J b.dqFun).lin + (10 : ℝ) • (x - a.xDes)).Within r) :
    ∃ q s' n b0 b', b.inverseKinematics E C a s = .ok (q, s') ∧ n ≤ 10000 ∧ b.ObsEq b0 ∧
      IkRun E C T a n b0 b' ∧ q = b'.q ∧ (n < 10000 → IkMet C b a (-1) q) ∧
      (U a.quatDes → C.toRot a.quatDes = R → ∀ m, ikRate ^ m * r < 1 / 2000 → n ≤ m) ∧
      (U a.quatDes → C.toRot a.quatDes = R → ikRate ^ n * r < 1 / 2000 → IkMet C b a (-1) q) ∧
      ∃ p, b.positionQ (fun j => q.getD j 0) a.link a.offset = .ok p ∧
        (p - a.xDes).Within (ikRate ^ n * r) ∧
        b.orientationQ (fun j => q.getD j 0) (-1) = .ok R := by
  obtain ⟨d', h'⟩ := copy_careful h
  have hma := hD.massive h.inv.tree
  obtain ⟨b1, s1, i, b2, k1, k2, -, k4, -, k6, k7⟩ := ikLoop_run h0 hL (a := a) (qDes := b.q)
    (k := k) ikMax h' ⟨hma.symm, hma.nonneg, hma.merge, hma.tree⟩ hk h.inv.tree.lq hst
  set c : Body := { b with inertiaBase := defaultInertiaBase } with hc
  have hDc : c.Definite := ⟨hD.mass, hD.symm, hD.pd, hD.load, hD.axes⟩
  have hA := atState_self h'.inv
  have hd : 0 < c.dof := lt_of_le_of_lt (Nat.zero_le _) hk.1
  obtain ⟨eJ, eX, eR⟩ := (atState_self h.inv).readsAt hk hR
  have hd' : 0 < b.dof := hd
  obtain ⟨-, hdet, hex⟩ := hreg
  have hT : b.taskInv ((jac3 b.dof J).mat (jac3 b.dof J).rows b.dof) =
      projInv (b.massQ 0)⁻¹ (b.rowsQ 3 k a.offset 0) := by
    rw [eJ, ← hs.gram ha h.inv.tree h.inv.rigid 3 hk.1 a.offset b.state.1 0]
    exact (atState_self h.inv).taskInv_jac h.reach hD 3 k a.offset
  have hori' : C.toRot a.quatDes = R → C.toRot a.quatDes = (c.twAt (fun _ => 0) (c.dof - 1)).R := by
    intro hori
    rw [hori, eR]
    exact hs.rot ha h.inv.tree _ _ _ (by omega)
  have key := ik_slide_end h'.reach hDc hs ha hF (a := a) (k := k) hk (by rw [hT] at hdet; exact hdet)
    (by rw [hT] at hex; exact hex) k6 hA ⟨_, h'⟩ (r := r) (by rw [eX] at hx; exact hx)
    (by rw [eX, eJ, (atState_self h.inv).dqPad rfl] at hv; exact hv)
  obtain ⟨y', f1, ⟨d2, f2⟩, f3⟩ := key.2
  refine ⟨b1.q, s1, i, c, b2, ?_, k2, ⟨rfl, rfl, rfl, rfl, rfl, rfl, rfl, rfl⟩, k6, k4, fun hi => ?_,
    fun hU hori => ?_, fun hU hori hr => ?_, ?_⟩
  · unfold inverseKinematics
    rw [k1]
    rfl
  · exact (IkMet.congr (b := b) (b' := c) rfl rfl).1 (k7 hi)
  · exact key.1 (fun B => IkMet C B a (-1) B.q)
      (fun B y r g1 g2 g3 g4 => by
        obtain ⟨d3, g2⟩ := g2
        exact ik_slide_met h'.reach hs ha hL hk hU (hori' hori) g1 g2.reach ⟨r, g3, g4⟩)
      fun _ hB => hB
  · have g := ik_slide_met h'.reach hs ha hL hk hU (hori' hori) f1 f2.reach ⟨_, f3, hr⟩
    rw [k4]
    exact (IkMet.congr (b := b) (b' := b2) f1.only.rbs f1.only.T0).1 g
  · have hn : b2.dof = c.dof := f1.dof
    have hK : b2.LinkIdx a.link k := by unfold LinkIdx; rw [hn]; exact hk
    have hlast : b2.LinkIdx (-1) (b2.dof - 1) := lastLink (b := b2) (by omega)
    obtain ⟨b3, p⟩ := position_of_index f2.inv hK.index a.offset
    obtain ⟨b5, o⟩ := orientation_of_index f2.inv hlast.index
    have e1 := (C17_variants_agree_partial f2.reach (setQ_self f2.inv.tree) hK a.offset).1
    have e2 := (C17_variants_agree_partial f2.reach (setQ_self f2.inv.tree) hlast 0).2.1
    rw [p] at e1
    rw [o] at e2
    have eq1 : b2.positionQ = b.positionQ := (posOriQ_congr (b := b) (b' := b2) f1.only.rbs f1.only.T0).1
    have eq2 : b2.orientationQ = b.orientationQ := (posOriQ_congr (b := b) (b' := b2) f1.only.rbs f1.only.T0).2
    have htw : ∀ i, b2.freshTw i = b.twAt (padFin y'.1) i := by
      intro i
      have hp : b2.pos = padFin y'.1 := by unfold Body.pos; rw [f1.q, getD_ofFn_pad]
      show b2.twAt b2.pos _ = _
      rw [hp]
      unfold Body.twAt Body.par Body.TpAt
      rw [hn, f1.rb, f1.only.T0]
      rfl
    refine ⟨_, by rw [k4, ← eq1]; exact e1, ?_, ?_⟩
    · rw [htw]
      exact f3
    · rw [k4, ← eq2]
      refine Eq.trans e2 ?_
      rw [htw, eR, hs.rot ha h.inv.tree (padFin y'.1) (padFin b.state.1) (b2.dof - 1) (by
        rw [hn]; exact Nat.sub_lt hd' one_pos), hn]
      rfl

/-- C118: on a robot whose joints all slide and whose Jacobian at the point has rank three,
`InverseKinematics` reaches every goal that asks for the orientation its last link has: if the
coordinates of the position error, and those of the velocity plus ten times the error, are at most
`r`, then it stops after at most `m` iterations, for every `m ≤ 10000` with
`0.99104^m r < 0.0005`, and the joint positions it returns meet the goal. -/
theorem C118_reaches (h : Careful E T b d) (hD : b.Definite) (hs : b.Sliding) (ha : b.AxesOK)
    (h0 : (0 : ℝ) ∈ T) (hL : C.Law U) (hF : E.Flags 0) {a : IkGoal C} {k : ℕ}
    (hk : b.LinkIdx a.link k) {s : Option ℕ} (hst : s = none ∨ s = some b.dof) {J : ℕ → Motion}
    {x : Vec3} {R : Mat3} (hR : b.Reads a.link a.offset J x R) (hreg : b.Regular E T (jac3 b.dof J))
    (hU : U a.quatDes) (hori : C.toRot a.quatDes = R) {r : ℝ} (hx : (x - a.xDes).Within r)
    (hv : ((jacVel b.dof J b.dqFun).lin + (10 : ℝ) • (x - a.xDes)).Within r) {m : ℕ}
    (hm : m ≤ 10000) (hr : 0.99104 ^ m * r < 1 / 2000) :
    ∃ q s' n b0 b', b.inverseKinematics E C a s = .ok (q, s') ∧ n ≤ m ∧ b.ObsEq b0 ∧
      IkRun E C T a n b0 b' ∧ q = b'.q ∧ IkMet C b a (-1) q := by
  obtain ⟨q, s', n, b0, b', k1, k2, k3, k4, k5, k6, k7, k8, -⟩ :=
    ik_slide_call h hD hs ha h0 hL hF hk hst hR hreg hx hv
  have hn := k7 hU hori m hr
  refine ⟨q, s', n, b0, b', k1, hn, k3, k4, k5, ?_⟩
  rcases Nat.lt_or_ge n 10000 with hi | hi
  · exact k6 hi
  · exact k8 hU hori (by rw [show n = m by omega]; exact hr)

theorem Vec3.Within.ten {v : Vec3} {r : ℝ} (h : v.Within r) :
    v.Within (10 * r) ∧ ((0 : Vec3) + (10 : ℝ) • v).Within (10 * r) := by
  obtain ⟨h1, h2, h3⟩ := h
  have hb : ∀ x : ℝ, |x| ≤ r → |x| ≤ 10 * r ∧ |0 + 10 * x| ≤ 10 * r := fun x hx => by
    have := abs_nonneg x
    rw [zero_add, abs_mul, abs_of_pos (by norm_num : (0 : ℝ) < 10)]
    constructor <;> linarith
  exact ⟨⟨(hb _ h1).1, (hb _ h2).1, (hb _ h3).1⟩, ⟨(hb _ h1).2, (hb _ h2).2, (hb _ h3).2⟩⟩

theorem ikRate_pow (j : ℕ) : (0.99104 : ℝ) ^ (260 * j) ≤ (1 / 10) ^ j := by
  rw [pow_mul]
  refine pow_le_pow_left₀ (by positivity) ?_ j
  rw [show 260 = 130 * 2 from rfl, pow_mul]
  norm_num

theorem ik_slide_rest (J : ℕ → Motion) (hrest : ∀ i < b.dof, b.dqFun i = 0) :
    (jacVel b.dof J b.dqFun).lin = 0 := by
  have : jacVel b.dof J b.dqFun = 0 := by
    unfold jacVel
    refine sum_eq_zero fun j hj => ?_
    rw [hrest j (mem_range.1 hj), zero_smul]
  rw [this]; rfl

/-- C118: a robot at rest that is `10^k` metres from the goal in each coordinate reaches it within
`260 (k + 5)` iterations: ten metres take at most 1560, and the bound of 10000 iterations covers
goals up to `10^33` metres away. -/
theorem C118_rest (h : Careful E T b d) (hD : b.Definite) (hs : b.Sliding) (ha : b.AxesOK)
    (h0 : (0 : ℝ) ∈ T) (hL : C.Law U) (hF : E.Flags 0) {a : IkGoal C} {k : ℕ}
    (hk : b.LinkIdx a.link k) {s : Option ℕ} (hst : s = none ∨ s = some b.dof) {J : ℕ → Motion}
    {x : Vec3} {R : Mat3} (hR : b.Reads a.link a.offset J x R) (hreg : b.Regular E T (jac3 b.dof J))
    (hU : U a.quatDes) (hori : C.toRot a.quatDes = R) (hrest : ∀ i < b.dof, b.dqFun i = 0) {p : ℕ}
    (hp : p ≤ 33) (hx : (x - a.xDes).Within (10 ^ p)) :
    ∃ q s' n b0 b', b.inverseKinematics E C a s = .ok (q, s') ∧ n ≤ 260 * (p + 5) ∧ b.ObsEq b0 ∧
      IkRun E C T a n b0 b' ∧ q = b'.q ∧ IkMet C b a (-1) q := by
  refine C118_reaches h hD hs ha h0 hL hF hk hst hR hreg hU hori hx.ten.1
    (by rw [ik_slide_rest J hrest]; exact hx.ten.2) (by omega) ?_
  refine lt_of_le_of_lt (mul_le_mul_of_nonneg_right (ikRate_pow (p + 5)) (by positivity)) ?_
  rw [pow_add, one_div, inv_pow]
  field_simp
  norm_num

/-- C118: on such a robot at rest a goal that asks for an orientation the last link does not have is
never met: whatever its position is, the function goes through all 10000 iterations, and it still
brings the point to the goal position within the tolerance. -/
theorem C118_wasted (h : Careful E T b d) (hD : b.Definite) (hs : b.Sliding) (ha : b.AxesOK)
    (h0 : (0 : ℝ) ∈ T) (hL : C.Law U) (hF : E.Flags 0) {a : IkGoal C} {k : ℕ}
    (hk : b.LinkIdx a.link k) {s : Option ℕ} (hst : s = none ∨ s = some b.dof) {J : ℕ → Motion}
    {x : Vec3} {R : Mat3} (hR : b.Reads a.link a.offset J x R) (hreg : b.Regular E T (jac3 b.dof J))
    (hori : (0.001 : ℝ) ^ 2 ≤
      (C.oriErr (C.ofRot R) a.quatDes).dot (C.oriErr (C.ofRot R) a.quatDes))
    (hrest : ∀ i < b.dof, b.dqFun i = 0) {p : ℕ} (hp : p ≤ 33) (hx : (x - a.xDes).Within (10 ^ p)) :
    ∃ q s' b0 b' y, b.inverseKinematics E C a s = .ok (q, s') ∧ b.ObsEq b0 ∧
      IkRun E C T a 10000 b0 b' ∧ q = b'.q ∧ ¬ IkMet C b a (-1) q ∧
      b.positionQ (fun j => q.getD j 0) a.link a.offset = .ok y ∧ (y - a.xDes).Within (1 / 2000) := by
  obtain ⟨q, s', n, b0, b', k1, k2, k3, k4, k5, k6, -, -, y, k7, k8, k9⟩ :=
    ik_slide_call h hD hs ha h0 hL hF hk hst hR hreg hx.ten.1
      (by rw [ik_slide_rest J hrest]; exact hx.ten.2)
  have hnot : ¬ IkMet C b a (-1) q := by
    rintro ⟨x', R', -, g2, -, g4⟩
    rw [k9] at g2
    cases g2
    exact absurd g4 (not_lt.2 hori)
  have hn : n = 10000 := by
    by_contra hne
    exact hnot (k6 (by omega))
  subst hn
  refine ⟨q, s', b0, b', y, k1, k3, k4, k5, hnot, k7, ?_⟩
  have hr : (0.99104 : ℝ) ^ 10000 * (10 * 10 ^ p) ≤ 1 / 2000 := by
    have h1 : (0.99104 : ℝ) ^ 10000 ≤ 0.99104 ^ (260 * 38) :=
      pow_le_pow_of_le_one (by norm_num) (by norm_num) (by norm_num)
    have h2 := h1.trans (ikRate_pow 38)
    have h3 : (10 : ℝ) * 10 ^ p ≤ 10 * 10 ^ 33 :=
      mul_le_mul_of_nonneg_left (pow_le_pow_right₀ (by norm_num) hp) (by norm_num)
    refine (mul_le_mul h2 h3 (by positivity) (by positivity)).trans ?_
    norm_num
  exact ⟨k8.1.trans hr, k8.2.1.trans hr, k8.2.2.trans hr⟩

/-! ## Witnesses -/

theorem gantry_sliding : gantry0.Sliding := by
  intro i hi
  have hi : i < 4 := hi
  rw [gantry_joint i hi]
  interval_cases i <;> rfl

theorem extLs_flags (e : ℝ) : extLs.Flags e := by
  intro n X hX
  show decide ((toMat n (DMat.ofM X).e).det = 0) = true
  rw [toMat_ofM]
  exact decide_eq_true hX

/-- The gantry in every state with the joints at zero. -/
theorem gantry_slide {w : Fin gantry0.dof → ℝ} {B : Body} {d : Bool}
    (hA : AtState extLs gantry0 ((fun _ => 0), w) B) (hr : Reach extLs B d) :
    B.Definite ∧ B.Sliding ∧ B.AxesOK ∧ ∃ J, B.Reads (-1) 0 J 0 1 ∧
      B.Regular extLs Set.univ (jac3 B.dof J) ∧ ∀ j < 4, J j = (gantryType j).subspace := by
  have hD := hA.only.definite gantry_definite
  have hn : B.dof = 4 := hA.dof
  have hl : gantry0.LinkIdx (-1) 3 :=
    ⟨by show 3 < 4; omega, .inr ⟨by show (3 : ℤ) = -1 + 4; omega, by omega⟩⟩
  have hk : B.LinkIdx (-1) 3 := by unfold LinkIdx; rw [hA.dof]; exact hl
  obtain ⟨d0, h⟩ := gantry_reach extLs
  obtain ⟨J, hJ⟩ := jacobian_total B hk 0
  obtain ⟨b1, h1⟩ := position_of_index hr.inv hk.index 0
  obtain ⟨b2, h2⟩ := orientation_of_index hr.inv hk.index
  obtain ⟨J', hJ'⟩ := jacobian_total gantry0 hl 0
  obtain ⟨b1', h1'⟩ := position_of_index h.inv hl.index 0
  obtain ⟨b2', h2'⟩ := orientation_of_index h.inv hl.index
  have hR : B.Reads (-1) 0 J.1 _ _ := ⟨⟨_, hJ⟩, ⟨_, h1⟩, ⟨_, h2⟩⟩
  have hR' : gantry0.Reads (-1) 0 J'.1 _ _ := ⟨⟨_, hJ'⟩, ⟨_, h1'⟩, ⟨_, h2'⟩⟩
  have h0 : gantry0.state.1 = fun _ => 0 := by
    funext i
    obtain ⟨i, hi⟩ := i
    have hi : i < 4 := hi
    interval_cases i <;> rfl
  obtain ⟨e1, e2, e3⟩ := hA.readsAt hl hR
  obtain ⟨g1, g2, g3⟩ := (atState_self h.inv).readsAt hl hR'
  rw [h0] at g1 g2 g3
  have hx : (gantry0.freshTw 3).app 0 = 0 := by
    rw [gantry_tw 3 (by omega)]
    ext <;> simp [Iso.app, Mat3.mulVec]
  have hR1 : (gantry0.freshTw 3).R = 1 := by rw [gantry_tw 3 (by omega)]; rfl
  rw [e2.trans (g2.symm.trans hx), e3.trans (g3.symm.trans hR1)] at hR
  have hj : ∀ j < 4, J.1 j = (gantryType j).subspace := by
    intro j hj
    rw [e1.trans g1.symm]
    exact gantry_jac hl hJ' j hj
  have hX : (B.taskInv ((jac3 B.dof J.1).mat 3 B.dof)).det ≠ 0 := by
    refine C35_regular hr hD fun v hv => ?_
    have e : ∀ j : Fin B.dof, ∑ k : Fin 3, ((gantryType j).subspace).entry k * v k = 0 := by
      intro j
      rw [← hj j (by rw [← hn]; exact j.2)]
      exact congrFun hv j
    have e0 := e (⟨0, by rw [hn]; omega⟩ : Fin B.dof)
    have e1 := e (⟨1, by rw [hn]; omega⟩ : Fin B.dof)
    have e2 := e (⟨2, by rw [hn]; omega⟩ : Fin B.dof)
    simp [gantryType, JType.subspace, Fin.sum_univ_three, Motion.entry] at e0 e1 e2
    funext i
    fin_cases i
    · exact e0
    · exact e1
    · exact e2
  refine ⟨hD, ?_, ?_, J.1, hR, ⟨rfl, hX, fun e _ => (extLs_leastSquares e).exact hX⟩, hj⟩
  · intro i hi
    rw [hA.rb]
    exact gantry_sliding i (by rw [hA.dof] at hi; exact hi)
  · intro i hi
    rw [hn] at hi
    rw [hA.rb, gantry_joint i hi]
    rfl

/-- The moving gantry, and a goal one metre away: the hypotheses of C117 and C118 hold. -/
example : ∃ d J, Careful extLs Set.univ gantry0 d ∧ gantry0.Definite ∧ gantry0.Sliding ∧
    gantry0.AxesOK ∧ extLs.Flags 0 ∧ ctl0.Law Mat3.IsRot ∧ gantry0.Reads (-1) 0 J 0 1 ∧
    gantry0.Regular extLs Set.univ (jac3 gantry0.dof J) ∧ ((0 : Vec3) - ⟨1, 0, 0⟩).Within 10 ∧
    ((jacVel gantry0.dof J gantry0.dqFun).lin + (10 : ℝ) • ((0 : Vec3) - ⟨1, 0, 0⟩)).Within 10 ∧
    (0.99104 : ℝ) ^ 1300 * 10 < 1 / 2000 := by
  obtain ⟨d, h⟩ := gantry_reach extLs
  have hA := atState_self h.inv
  have h0 : gantry0.state = ((fun _ => 0), gantry0.state.2) := by
    refine Prod.ext ?_ rfl
    funext i
    obtain ⟨i, hi⟩ := i
    have hi : i < 4 := hi
    interval_cases i <;> rfl
  rw [h0] at hA
  obtain ⟨hD, hs, ha, J, hR, hreg, hj⟩ := gantry_slide hA h
  refine ⟨d, J, h.careful, hD, hs, ha, extLs_flags 0, ctl0_law, hR, hreg, ?_, ?_, ?_⟩
  · constructor <;> norm_num
  · have e : jacVel gantry0.dof J gantry0.dqFun = ⟨⟨5, 2, 3⟩, 0⟩ := by
      show ∑ j ∈ range 4, gantry0.dqFun j • J j = _
      rw [Finset.sum_range_succ, Finset.sum_range_succ, Finset.sum_range_succ, Finset.sum_range_one,
        hj 0 (by omega), hj 1 (by omega), hj 2 (by omega), hj 3 (by omega)]
      show (1 : ℝ) • _ + (2 : ℝ) • _ + (3 : ℝ) • _ + (4 : ℝ) • _ = _
      ext <;> simp [gantryType, JType.subspace]; norm_num
    rw [e]
    constructor <;> norm_num
  · have := ikRate_pow 5
    refine lt_of_le_of_lt (mul_le_mul_of_nonneg_right this (by norm_num)) ?_
    norm_num

/-- The gantry at rest: the hypotheses of `C118_rest` hold. -/
example : ∃ B d J, gantry0.setDq [0, 0, 0, 0] = .ok B ∧ Careful extLs Set.univ B d ∧ B.Definite ∧
    B.Sliding ∧ B.AxesOK ∧ B.Reads (-1) 0 J 0 1 ∧ B.Regular extLs Set.univ (jac3 B.dof J) ∧
    (∀ i < B.dof, B.dqFun i = 0) ∧ ((0 : Vec3) - ⟨3, 0, -8⟩).Within (10 ^ 1) := by
  obtain ⟨d, h⟩ := gantry_reach extLs
  have h2 : gantry0.setDq [0, 0, 0, 0] = .ok { gantry0 with dq := [0, 0, 0, 0], c := gantry0.c.clearDq } := by
    simp [setDq, gantry0, gantry, dof]
  have hr : Reach extLs _ _ := h.step (.setDq [0, 0, 0, 0]) trivial
    (b' := { gantry0 with dq := [0, 0, 0, 0], c := gantry0.c.clearDq }) (by simp [Op.exec, Op.step, h2])
  have hA : AtState extLs gantry0 ((fun _ => 0), fun _ => 0)
      { gantry0 with dq := [0, 0, 0, 0], c := gantry0.c.clearDq } :=
    ⟨setDq_stateOnly h.inv.tree.ldq h2, hr.inv, rfl, rfl⟩
  obtain ⟨hD, hs, ha, J, hR, hreg, hj⟩ := gantry_slide hA hr
  refine ⟨_, _, J, h2, hr.careful, hD, hs, ha, hR, hreg, ?_, ?_⟩
  · intro i hi
    have hi : i < 4 := hi
    interval_cases i <;> rfl
  · constructor <;> norm_num

/-- A quarter turn about z is an orientation the last link does not have. -/
example : (0.001 : ℝ) ^ 2 ≤ (ctl0.oriErr (ctl0.ofRot 1) (⟨0, -1, 0, 1, 0, 0, 0, 0, 1⟩ : Mat3)).dot
    (ctl0.oriErr (ctl0.ofRot 1) (⟨0, -1, 0, 1, 0, 0, 0, 0, 1⟩ : Mat3)) := by
  have e : ctl0.oriErr (ctl0.ofRot 1) (⟨0, -1, 0, 1, 0, 0, 0, 0, 1⟩ : Mat3) = ⟨0, 0, -1⟩ := by
    show turnErr (1 : Mat3) ⟨0, -1, 0, 1, 0, 0, 0, 0, 1⟩ = _
    unfold turnErr
    ext <;> simp [Mat3.T]
    norm_num
  rw [e]
  norm_num [Vec3.dot]

end SpatialDyn
