import Verif.Spec.Turns
import Verif.Props.OpsCache
import Verif.Props.Similar

/-!
# C135: full turns change no answer.  C136: how far a robot reaches
-/

namespace SpatialDyn
open Finset Body

variable {E : Ext} {b B B' : Body} {d : Bool} {q q' : List ℝ}

theorem Tjoint_turns {t : JType} (ht : t = .rx ∨ t = .ry ∨ t = .rz) (x : ℝ) (m : ℤ) :
    t.Tjoint (x + 2 * Real.pi * m) = t.Tjoint x := by
  have h1 : Real.cos (x + 2 * Real.pi * m) = Real.cos x := by
    rw [mul_comm]; exact Real.cos_add_int_mul_two_pi x m
  have h2 : Real.sin (x + 2 * Real.pi * m) = Real.sin x := by
    rw [mul_comm]; exact Real.sin_add_int_mul_two_pi x m
  rcases ht with rfl | rfl | rfl <;> simp only [JType.Tjoint, h1, h2]

theorem turns_pose (hB : StateOnly b B) (hB' : StateOnly b B') (hd : B'.dq = B.dq)
    (hl : B.q.length = b.dof) (hl' : B'.q.length = b.dof)
    (ht : b.FullTurns B.q B'.q) : B.PoseEq B' := by
  have hr : B.rb = b.rb := by unfold Body.rb; rw [hB.rbs]
  have hr' : B'.rb = b.rb := by unfold Body.rb; rw [hB'.rbs]
  refine ⟨by rw [hB.rbs, hB'.rbs], funext fun i => ?_, hd.symm, by rw [hB.g, hB'.g],
    by rw [hB.load, hB'.load], by rw [hB.T0, hB'.T0], by rw [hB.anc, hB'.anc], by rw [hB.sub, hB'.sub]⟩
  unfold freshTp TpAt
  rw [hr, hr']
  by_cases hi : i < b.dof
  · rcases ht i hi with e | ⟨e1, m, e2⟩
    · rw [e]
    · rw [e2, Tjoint_turns e1]
  · have e : ∀ l : List ℝ, l.length = b.dof → l.getD i 0 = 0 := fun l hl => by
      simp [List.getD, List.getElem?_eq_none (show l.length ≤ i by omega)]
    rw [e _ hl, e _ hl']

/-- C135: every query of the core of the library answers the same, except the one for the positions
themselves. -/
theorem C135_answers (h : Reach E b d) (hm : b.Massive) (ht : b.FullTurns q q') (hB : b.setQ q = .ok B)
    (hB' : b.setQ q' = .ok B') (x : Query) (hx : x.Core) (hq : ∀ i, x ≠ .q i) :
    (x.run E B).map Prod.fst = (x.run E B').map Prod.fst := by
  obtain ⟨s, -, -, _, r⟩ := h.after_setQ hB
  obtain ⟨s', -, -, _, r'⟩ := h.after_setQ hB'
  have e := (setQ_pos hB).1
  have e' := (setQ_pos hB').1
  have hM : B.Massive := s.massive hm
  exact Query.core_ans_pose r.inv r'.inv (turns_pose s s' ((setQ_pos hB').2.trans (setQ_pos hB).2.symm)
    (by rw [e]; exact setQ_length hB) (by rw [e']; exact setQ_length hB') (by rw [e, e']; exact ht))
    hM.symI (hM.posMass r.inv.tree) x hx fun i e => absurd e (hq i)

theorem turns_set (h : Reach E b d) (ht : b.FullTurns q q') (hB : b.setQ q = .ok B)
    (hB' : b.setQ q' = .ok B') : B.PoseEq B' ∧ (∃ d, Reach E B d) ∧ ∃ d, Reach E B' d := by
  obtain ⟨s, -, -, r⟩ := h.after_setQ hB
  obtain ⟨s', -, -, r'⟩ := h.after_setQ hB'
  have e := (setQ_pos hB).1
  have e' := (setQ_pos hB').1
  exact ⟨turns_pose s s' ((setQ_pos hB').2.trans (setQ_pos hB).2.symm) (by rw [e]; exact setQ_length hB)
    (by rw [e']; exact setQ_length hB') (by rw [e, e']; exact ht), r, r'⟩

/-- C135: the operational-space inertia, its inverse and the singularity test. -/
theorem C135_opspace (h : Reach E b d) (ht : b.FullTurns q q') (hB : b.setQ q = .ok B)
    (hB' : b.setQ q' = .ok B') {J : DMat} (hJ : J.cols = b.dof) (hn : 0 < b.dof) (eps : ℝ) :
    (∃ a, ((Query.opsInertiaInverse J).run E B).map Prod.fst = .ok a ∧
      ((Query.opsInertiaInverse J).run E B').map Prod.fst = .ok a) ∧
    (∃ a, ((Query.opsInertia J eps).run E B).map Prod.fst = .ok a ∧
      ((Query.opsInertia J eps).run E B').map Prod.fst = .ok a) ∧
    (∃ a, ((Query.opsIsSingular J eps).run E B).map Prod.fst = .ok a ∧
      ((Query.opsIsSingular J eps).run E B').map Prod.fst = .ok a) := by
  obtain ⟨hp, ⟨_, r⟩, _, r'⟩ := turns_set h ht hB hB'
  have e : B.dof = b.dof := (h.after_setQ hB).2.1
  rw [← e] at hJ hn
  exact ⟨opsInertiaInverse_same r r' hp hJ hn, opsInertia_same r r' hp hJ hn eps,
    opsIsSingular_same r r' hp hJ hn eps⟩

section
variable {V : Type*} [AddCommGroup V] [Module ℝ V]

theorem rkSlopes_shift {F : V → V} {a : V} (hF : ∀ y, F (y + a) = F y) (dt : ℝ) (y : V) :
    ∀ (rows : List (List ℝ)) (ks : List V),
      rkSlopes F id dt (y + a) rows ks = rkSlopes F id dt y rows ks
  | [], _ => rfl
  | row :: rows, ks => by
    unfold rkSlopes
    rw [rkSlopes_shift hF dt y rows]
    congr 3
    rw [id, id, add_right_comm, hF]

theorem rkStep_shift {F : V → V} {a : V} (hF : ∀ y, F (y + a) = F y) (rows : List (List ℝ))
    (ws : List ℝ) (dt : ℝ) (y : V) : rkStep rows ws F id dt (y + a) = rkStep rows ws F id dt y + a := by
  unfold rkStep
  rw [hF, rkSlopes_shift hF, id, id, add_right_comm]
end

theorem scheme_shift {n : ℕ} {F : State n → State n} {a : Fin n → ℝ}
    (hF : ∀ y, F (y + (a, 0)) = F y) (m : Method) (dt : ℝ) (y : State n) :
    scheme m F id dt (y + (a, 0)) = scheme m F id dt y + (a, 0) := by
  cases m with
  | euler =>
    show taylor F id dt (y + (a, 0)) = taylor F id dt y + (a, 0)
    unfold taylor
    rw [hF]
    ext i <;> simp
    ring
  | heuns => exact rkStep_shift hF _ _ _ _
  | rk4 => exact rkStep_shift hF _ _ _ _

/-- The accelerations do not change with full turns. -/
theorem field_turns (h : Reach E b d) (hm : b.Massive) {c : Cache} (hc : c.Clear) (tau : ℕ → ℝ)
    (fext : FExt) (o : IntOpts) {a : Fin b.dof → ℝ}
    (ha : ∀ i : Fin b.dof, a i = 0 ∨
      ((b.rb i).joint.type = .rx ∨ (b.rb i).joint.type = .ry ∨ (b.rb i).joint.type = .rz) ∧
        ∃ m : ℤ, a i = 2 * Real.pi * m) (y : State b.dof) :
    b.field E c tau fext o (y + (a, 0)) = b.field E c tau fext o y := by
  obtain ⟨b1, e1, n1⟩ := setQ_total (b := b) (q := List.ofFn y.1) (by simp)
  obtain ⟨B, e2, n2⟩ := setDq_total (b := b1) (q := List.ofFn y.2) (by simp [n1])
  obtain ⟨b1', e1', n1'⟩ := setQ_total (b := b) (q := List.ofFn (y.1 + a)) (by simp)
  obtain ⟨B', e2', n2'⟩ := setDq_total (b := b1') (q := List.ofFn y.2) (by simp [n1'])
  obtain ⟨s, n, -, -, -, _, r⟩ := h.after_set ⟨b1, e1, e2⟩
  obtain ⟨s', n', -, -, -, _, r'⟩ := h.after_set ⟨b1', e1', e2'⟩
  have get : ∀ {n : ℕ} (x : Fin n → ℝ), (fun i : Fin n => (List.ofFn x).getD i 0) = x := by
    intro n x; funext i; simp
  have hq : B.q = List.ofFn y.1 := by rw [setDq_q e2, setQ_q e1]
  have hq' : B'.q = List.ofFn (y.1 + a) := by rw [setDq_q e2', setQ_q e1']
  have hp : B.PoseEq B' := by
    refine turns_pose s s' (by rw [setDq_dq e2, setDq_dq e2']) (by simp [hq]) (by simp [hq']) ?_
    intro i hi
    rw [hq, hq']
    rcases ha ⟨i, hi⟩ with e | ⟨e, m, hm⟩
    · left; simp [List.getD, hi, e]
    · right; exact ⟨e, m, by simp [List.getD, hi, hm]⟩
  have hM : B.Massive := s.massive hm
  have acc : ∀ i < b.dof, B'.acceleration E tau fext o i = B.acceleration E tau fext o i := by
    intro i hi
    unfold acceleration
    split
    · have k := Query.core_ans_pose r.inv r'.inv hp hM.symI (hM.posMass r.inv.tree)
        (.forwardDynamicsAba tau fext ⟨o.gravity, o.cc, o.friction, o.eps⟩) trivial fun i e => by cases e
      simp only [Query.run, Out.map, Out.bind, Out.ok.injEq, Ans.vec.injEq, n, n'] at k
      exact (take_inj k i hi).symm
    · have k := Query.core_ans_pose r.inv r'.inv hp hM.symI (hM.posMass r.inv.tree)
        (.forwardDynamics tau fext ⟨o.gravity, o.cc, o.friction, o.eps⟩) trivial fun i e => by cases e
      simp only [Query.run, Out.map, Out.bind, Out.ok.injEq, Ans.vec.injEq, n, n'] at k
      exact (take_inj k i hi).symm
  refine Prod.ext (by simp [field]) (funext fun i => ?_)
  have k := field_of_set h hm hc tau fext o e1 e2 i
  have k' := field_of_set h hm hc tau fext o e1' e2' i
  rw [get, get] at k k'
  rw [← acc i i.2] at k
  rw [k'] at k
  rw [show y + (a, 0) = (y.1 + a, y.2) from Prod.ext rfl (by simp)]
  exact k

theorem steps_from (h : Reach E b d) (hm : b.Massive) {c : Cache} (hc : c.Clear) (tau : ℕ → ℝ)
    (dt : ℝ) (fext : FExt) (o : IntOpts) (ho : o.jointLimits = false) {y : State b.dof} {b0 : Body}
    (g0 : AtState E b y b0) (n : ℕ) : ∃ b', steps E tau dt fext o n b0 = .ok b' ∧
      AtState E b ((scheme o.method (b.field E c tau fext o) id dt)^[n] y) b' := by
  have e : b.codeFilter o.jointLimits = id := by
    funext y
    unfold codeFilter
    simp [ho]
  induction n with
  | zero => exact ⟨b0, rfl, g0⟩
  | succ n ih =>
    obtain ⟨b1, h1, h2⟩ := ih
    obtain ⟨b2, h3, h4⟩ := h2.integrate h.inv hm.symI (hm.posMass h.inv.tree) hc tau dt fext o
    refine ⟨b2, by simp [steps, h1, h3], ?_⟩
    rw [Function.iterate_succ_apply']
    rw [e] at h4
    exact h4

/-- C135: a simulation started after full turns of some joints goes through the same motions: positions
differ by the same full turns after every number of steps, velocities are equal. -/
theorem C135_simulation (h : Reach E b d) (hm : b.Massive) (ht : b.FullTurns q q')
    (hB : b.setQ q = .ok B) (hB' : b.setQ q' = .ok B') (tau : ℕ → ℝ) (dt : ℝ) (fext : FExt) (o : IntOpts)
    (hl : o.jointLimits = false) (n : ℕ) : ∃ C C', steps E tau dt fext o n B = .ok C ∧
      steps E tau dt fext o n B' = .ok C' ∧ C'.dq = C.dq ∧
      ∀ i < b.dof, C'.q.getD i 0 - C.q.getD i 0 = q'.getD i 0 - q.getD i 0 := by
  obtain ⟨s, nB, -, _, r⟩ := h.after_setQ hB
  obtain ⟨s', nB', -, _, r'⟩ := h.after_setQ hB'
  have hc : b.c.clearQ.Clear := b.c.clear_clearQ
  have lq := setQ_length hB
  have lq' := setQ_length hB'
  have hdq : List.ofFn (fun i : Fin b.dof => b.dq.getD i 0) = b.dq := stateOf_ofFn h.inv.tree.ldq
  have g : AtState E b (fun i => q.getD i 0, fun i => b.dq.getD i 0) B :=
    ⟨s, r.inv, by rw [(setQ_pos hB).1]; exact (stateOf_ofFn lq).symm, by rw [(setQ_pos hB).2]; exact hdq.symm⟩
  have g' : AtState E b (fun i => q'.getD i 0, fun i => b.dq.getD i 0) B' :=
    ⟨s', r'.inv, by rw [(setQ_pos hB').1]; exact (stateOf_ofFn lq').symm,
      by rw [(setQ_pos hB').2]; exact hdq.symm⟩
  obtain ⟨C, e, a⟩ := steps_from h hm hc tau dt fext o hl g n
  obtain ⟨C', e', a'⟩ := steps_from h hm hc tau dt fext o hl g' n
  have hy : ((fun i : Fin b.dof => q'.getD i 0, fun i : Fin b.dof => b.dq.getD i 0) : State b.dof) =
      (fun i : Fin b.dof => q.getD i 0, fun i : Fin b.dof => b.dq.getD i 0) +
        (fun i : Fin b.dof => q'.getD i 0 - q.getD i 0, 0) := by
    ext i <;> simp
  have hF := field_turns h hm hc tau fext o (a := fun i : Fin b.dof => q'.getD i 0 - q.getD i 0) (by
    intro i
    rcases ht i i.2 with e | ⟨e1, m, e2⟩
    · left; rw [e, sub_self]
    · right; exact ⟨e1, m, by rw [e2]; ring⟩)
  have key : ∀ (n : ℕ) (y : State b.dof),
      (scheme o.method (b.field E b.c.clearQ tau fext o) id dt)^[n]
          (y + (fun i : Fin b.dof => q'.getD i 0 - q.getD i 0, 0)) =
        (scheme o.method (b.field E b.c.clearQ tau fext o) id dt)^[n] y +
          (fun i : Fin b.dof => q'.getD i 0 - q.getD i 0, 0) := by
    intro n
    induction n with
    | zero => intro y; rfl
    | succ n ih =>
      intro y
      rw [Function.iterate_succ_apply, Function.iterate_succ_apply, scheme_shift hF, ih]
  rw [hy, key n] at a'
  refine ⟨C, C', e, e', ?_, fun i hi => ?_⟩
  · rw [a.dq, a'.dq]; simp
  · rw [a.q, a'.q]
    simp [List.getD, hi]

/-! ## C136 -/

theorem Vec3.len_nonneg (v : Vec3) : 0 ≤ v.len := Real.sqrt_nonneg _

theorem Vec3.len_sq (v : Vec3) : v.len ^ 2 = v.dot v :=
  Real.sq_sqrt (by unfold Vec3.dot; nlinarith [sq_nonneg v.x, sq_nonneg v.y, sq_nonneg v.z])

theorem Vec3.len_add (v w : Vec3) : (v + w).len ≤ v.len + w.len := by
  have hv := v.len_nonneg
  have hw := w.len_nonneg
  have h1 := v.len_sq
  have h2 := w.len_sq
  have hd : v.dot w ≤ v.len * w.len := by
    refine le_of_sq_le_sq ?_ (mul_nonneg hv hw)
    rw [mul_pow, h1, h2]
    unfold Vec3.dot
    nlinarith [sq_nonneg (v.x * w.y - v.y * w.x), sq_nonneg (v.x * w.z - v.z * w.x),
      sq_nonneg (v.y * w.z - v.z * w.y)]
  have h3 := (v + w).len_sq
  have h4 : (v + w).dot (v + w) = v.dot v + 2 * v.dot w + w.dot w := by
    simp [Vec3.dot]; ring
  refine le_of_sq_le_sq ?_ (add_nonneg hv hw)
  rw [h3, h4]
  nlinarith

theorem Vec3.len_rot {R : Mat3} (hR : R.IsRot) (v : Vec3) : (R.mulVec v).len = v.len := by
  unfold Vec3.len
  rw [hR.dot]

theorem Vec3.len_cross (v w : Vec3) : (v.cross w).len ≤ v.len * w.len := by
  refine le_of_sq_le_sq ?_ (mul_nonneg v.len_nonneg w.len_nonneg)
  rw [mul_pow, Vec3.len_sq, Vec3.len_sq, Vec3.len_sq]
  unfold Vec3.dot Vec3.cross
  nlinarith [sq_nonneg (v.x * w.x + v.y * w.y + v.z * w.z)]

theorem Vec3.len_smul (a : ℝ) (v : Vec3) : (a • v).len = |a| * v.len := by
  unfold Vec3.len
  rw [show (a • v).dot (a • v) = a ^ 2 * v.dot v by simp [Vec3.dot]; ring, Real.sqrt_mul (sq_nonneg a),
    Real.sqrt_sq_eq_abs]

theorem fresh_rot (h : b.Inv E) {k : ℕ} (hk : k < b.dof) : (b.freshTw k).R.IsRot := by
  have := h.wf.Tw_valid k hk
  rwa [fresh_Tw hk] at this

/-- One link away from its parent. -/
theorem stride_le (h : b.Inv E) {k : ℕ} (hk : k < b.dof) (x : Vec3) :
    ((b.freshTp k).app x).len ≤ b.stride k + x.len := by
  have hj : ((b.rb k).joint.type.Tjoint (b.q.getD k 0)).Valid := JType.Tjoint_valid _ _
  have hT := h.rigid.link k hk
  have ht : ((b.rb k).joint.type.Tjoint (b.q.getD k 0)).t.len ≤
      if (b.rb k).joint.type = .px ∨ (b.rb k).joint.type = .py ∨ (b.rb k).joint.type = .pz then
        |b.q.getD k 0| else 0 := by
    cases (b.rb k).joint.type <;> simp [JType.Tjoint, Vec3.len_smul] <;> simp [Vec3.len, Vec3.dot]
  have e : (b.freshTp k).app x = (b.rb k).T.R.mulVec
      (((b.rb k).joint.type.Tjoint (b.q.getD k 0)).R.mulVec x +
        ((b.rb k).joint.type.Tjoint (b.q.getD k 0)).t) + (b.rb k).T.t := by
    unfold freshTp TpAt
    ext <;> simp [Iso.app, Mat3.mulVec] <;> ring
  rw [e]
  refine (Vec3.len_add _ _).trans ?_
  rw [Vec3.len_rot hT]
  have := Vec3.len_add (((b.rb k).joint.type.Tjoint (b.q.getD k 0)).R.mulVec x)
    ((b.rb k).joint.type.Tjoint (b.q.getD k 0)).t
  rw [Vec3.len_rot hj] at this
  unfold stride
  linarith

theorem app_sub (T : Iso) (x y : Vec3) : T.app x - T.app y = T.R.mulVec (x - y) := by
  ext <;> simp [Iso.app, Mat3.mulVec] <;> ring

/-- Sum over the links from the base to `k`, as far as they come after `j`. -/
theorem anc_sum (h : b.Inv E) {k : ℕ} (hk : k < b.dof) (f : ℕ → ℝ) (P : ℕ → Prop) [DecidablePred P] :
    (((b.anc.getD k []).filter P).map f).sum = ∑ i ∈ (b.anc.getD k []).toFinset with P i, f i := by
  rw [← List.sum_toFinset]
  · congr 1
    ext i
    simp
  · exact ((h.tree.anc_sorted k hk).imp fun h => h.ne).filter _

theorem anc_insert (h : b.Inv E) {k p : ℕ} (hk : k < b.dof) (hp : b.par k = some p) :
    p < b.dof ∧ k ∉ (b.anc.getD p []).toFinset ∧
      (b.anc.getD k []).toFinset = insert k (b.anc.getD p []).toFinset := by
  have hpk : p < k := h.tree.parLt k hk p hp
  have hp' : p < b.dof := by omega
  refine ⟨hp', ?_, ?_⟩
  · rw [List.mem_toFinset, h.tree.anc_mem p hp']
    intro ha
    have := ha.le h.tree.parLt hp'
    omega
  · ext i
    rw [mem_insert, List.mem_toFinset, List.mem_toFinset, h.tree.anc_mem k hk, h.tree.anc_mem p hp']
    constructor
    · intro ha
      cases ha with
      | refl => exact .inl rfl
      | step e ha => rw [hp] at e; cases e; exact .inr ha
    · rintro (rfl | ha)
      · exact .refl
      · exact .step hp ha

theorem reach_base (h : b.Inv E) : ∀ (k : ℕ), k < b.dof → ∀ x : Vec3,
    ((b.freshTw k).app x - b.T0.t).len ≤ ∑ i ∈ (b.anc.getD k []).toFinset, b.stride i + x.len := by
  intro k
  induction k using Nat.strong_induction_on with
  | _ k ih =>
    intro hk x
    have e : (b.freshTw k).app x = (b.topTw (b.par k)).app ((b.freshTp k).app x) := by
      rw [freshTw_top h.tree hk, Iso.mul_app]
    rw [e]
    cases hp : b.par k with
    | none =>
      have hs : (b.anc.getD k []).toFinset = {k} := by
        ext i
        rw [List.mem_toFinset, h.tree.anc_mem k hk, mem_singleton]
        constructor
        · intro ha
          cases ha with
          | refl => rfl
          | step e _ => rw [hp] at e; cases e
        · rintro rfl; exact .refl
      rw [hs, sum_singleton]
      show (b.T0.app ((b.freshTp k).app x) - b.T0.t).len ≤ _
      rw [show b.T0.app ((b.freshTp k).app x) - b.T0.t = b.T0.R.mulVec ((b.freshTp k).app x) by
        ext <;> simp [Iso.app], Vec3.len_rot h.rigid.base]
      exact stride_le h hk x
    | some p =>
      obtain ⟨hp', hn, hs⟩ := anc_insert h hk hp
      rw [hs, sum_insert hn]
      have k1 := ih p (h.tree.parLt k hk p hp) hp' ((b.freshTp k).app x)
      have k2 := stride_le h hk x
      show ((b.freshTw p).app ((b.freshTp k).app x) - b.T0.t).len ≤ _
      linarith

theorem reach_link (h : b.Inv E) {j : ℕ} : ∀ (k : ℕ), k < b.dof → Anc b.par j k → ∀ x : Vec3,
    ((b.freshTw k).app x - (b.freshTw j).t).len ≤
      ∑ i ∈ (b.anc.getD k []).toFinset with j < i, b.stride i + x.len := by
  intro k
  induction k using Nat.strong_induction_on with
  | _ k ih =>
    intro hk ha x
    cases ha with
    | refl =>
      rw [show (b.freshTw j).app x - (b.freshTw j).t = (b.freshTw j).R.mulVec x by
        ext <;> simp [Iso.app], Vec3.len_rot (fresh_rot h hk)]
      have : 0 ≤ ∑ i ∈ (b.anc.getD j []).toFinset with j < i, b.stride i :=
        sum_nonneg fun i _ => add_nonneg (Vec3.len_nonneg _) (by split_ifs <;> simp)
      linarith
    | @step _ p hp ha =>
      obtain ⟨hp', hn, hs⟩ := anc_insert h hk hp
      have hjk : j < k := lt_of_le_of_lt (ha.le h.tree.parLt hp') (h.tree.parLt k hk p hp)
      rw [hs, filter_insert, if_pos hjk, sum_insert (fun hm => hn (mem_filter.1 hm).1)]
      have k1 := ih p (h.tree.parLt k hk p hp) hp' ha ((b.freshTp k).app x)
      have k2 := stride_le h hk x
      have e : (b.freshTw k).app x = (b.freshTw p).app ((b.freshTp k).app x) := by
        rw [freshTw_top h.tree hk, Iso.mul_app, hp]; rfl
      rw [e]
      linarith

/-- C136: no point of a link is farther from the origin of the base than the offsets of the links up to
it, the ways its sliders are out, and its distance from the origin of the link together. -/
theorem C136_reach (h : Reach E b d) {k : ℕ} (hk : k < b.dof) (x : Vec3) :
    ∃ p l, (b.position (k : ℕ) x).map Prod.fst = .ok p ∧ b.ancestors (k : ℕ) = .ok l ∧
      (p - b.T0.t).len ≤ (l.map b.stride).sum + x.len := by
  refine ⟨(b.freshTw k).app x, b.anc.getD k [], ?_, by unfold ancestors; rw [index_ofNat hk]; rfl, ?_⟩
  · unfold Body.position
    rw [index_ofNat hk]
    show Out.ok _ = _
    rw [h.inv.viewTw k hk]
  · have := anc_sum h.inv hk b.stride (fun _ => True)
    simp only [decide_true, List.filter_true, filter_true] at this
    rw [this]
    exact reach_base h.inv k hk x

/-- C136: the lever arm of a joint.  A joint that turns, at rate one, moves a point of a later link no
faster than the offsets between them, the ways sliders between them are out, and the distance of the
point from the origin of its link together; a slider moves it at rate one without turning it. -/
theorem C136_lever (h : Reach E b d) (hax : b.AxesOK) {j k : ℕ} (hk : k < b.dof) (x : Vec3)
    {l : List ℕ} (hl : b.ancestors (k : ℕ) = .ok l) (hj : j ∈ l) :
    ∃ J, b.jacobian (k : ℕ) x = .ok J ∧
      (((b.rb j).joint.type = .rx ∨ (b.rb j).joint.type = .ry ∨ (b.rb j).joint.type = .rz) →
        (J.1 j).lin.len ≤ ((l.filter (j < ·)).map b.stride).sum + x.len ∧ (J.1 j).ang.len = 1) ∧
      (((b.rb j).joint.type = .px ∨ (b.rb j).joint.type = .py ∨ (b.rb j).joint.type = .pz) →
        (J.1 j).lin.len = 1 ∧ (J.1 j).ang = 0) := by
  have e : l = b.anc.getD k [] := by
    unfold ancestors at hl; rw [index_ofNat hk] at hl; exact (Out.ok.inj hl).symm
  subst e
  have ha := (h.inv.tree.anc_mem k hk j).1 hj
  have hjd : j < b.dof := (ha.le h.inv.tree.parLt hk).trans_lt hk
  obtain ⟨J, hJ⟩ := jacobian_total b (⟨hk, .inl rfl⟩ : b.LinkIdx k k) x
  have hv := jacobian_val h.inv (⟨hk, .inl rfl⟩ : b.LinkIdx k k) hJ j
  have hw : b.fresh.Jw k j = (b.freshTw j).actM (b.rb j).joint.type.subspace := by
    unfold Sys.Jw
    rw [if_pos (show Anc b.fresh.par j k from ha)]
    unfold Sys.axis
    rw [fresh_Tw hjd, ← hax j hjd]
    rfl
  rw [hw] at hv
  have hR : (b.freshTw j).R.IsRot := fresh_rot h.inv hjd
  refine ⟨J, hJ, fun ht => ?_, fun ht => ?_⟩
  · obtain ⟨u, hu, hS⟩ : ∃ u : Vec3, u.len = 1 ∧ (b.rb j).joint.type.subspace = ⟨0, u⟩ := by
      rcases ht with ht | ht | ht <;> rw [ht] <;> exact ⟨_, by simp [Vec3.len, Vec3.dot], rfl⟩
    rw [hS] at hv
    have e1 : (J.1 j).lin = ((b.freshTw j).R.mulVec u).cross ((b.freshTw k).app x - (b.freshTw j).t) := by
      rw [hv]
      ext <;> simp [Iso.actM, Motion.atPoint, Vec3.cross, Mat3.mulVec] <;> ring
    have e2 : (J.1 j).ang = (b.freshTw j).R.mulVec u := by
      rw [hv]
      ext <;> simp [Iso.actM, Motion.atPoint, Vec3.cross, Mat3.mulVec]
    refine ⟨?_, by rw [e2, Vec3.len_rot hR, hu]⟩
    rw [e1, anc_sum h.inv hk]
    refine (Vec3.len_cross _ _).trans ?_
    rw [Vec3.len_rot hR, hu, one_mul]
    exact reach_link h.inv k hk ha x
  · obtain ⟨u, hu, hS⟩ : ∃ u : Vec3, u.len = 1 ∧ (b.rb j).joint.type.subspace = ⟨u, 0⟩ := by
      rcases ht with ht | ht | ht <;> rw [ht] <;> exact ⟨_, by simp [Vec3.len, Vec3.dot], rfl⟩
    rw [hS] at hv
    constructor
    · have e1 : (J.1 j).lin = (b.freshTw j).R.mulVec u := by
        rw [hv]
        ext <;> simp [Iso.actM, Motion.atPoint, Vec3.cross, Mat3.mulVec]
      rw [e1, Vec3.len_rot hR, hu]
    · rw [hv]
      ext <;> simp [Iso.actM, Motion.atPoint, Vec3.cross, Mat3.mulVec]

/-- The hypotheses of C135 are met by the turntable with a slider, turned around three times. -/
example (E : Ext) : ∃ (d : Bool) (B B' : Body), Reach E polar d ∧ polar.Massive ∧
    polar.FullTurns [1, 1] [1 + 2 * Real.pi * (3 : ℤ), 1] ∧ polar.setQ [1, 1] = .ok B ∧
    polar.setQ [1 + 2 * Real.pi * (3 : ℤ), 1] = .ok B' := by
  obtain ⟨d, h⟩ := polar_reach E
  obtain ⟨B, hB, -⟩ := setQ_total (b := polar) (q := [1, 1]) rfl
  obtain ⟨B', hB', -⟩ := setQ_total (b := polar) (q := [1 + 2 * Real.pi * (3 : ℤ), 1]) rfl
  refine ⟨d, B, B', h, polar_definite.massive h.inv.tree, fun i hi => ?_, hB, hB'⟩
  have hi : i < 2 := hi
  interval_cases i
  · exact .inr ⟨.inr (.inr rfl), 3, rfl⟩
  · exact .inl rfl

/-- The bounds of C136 are met with equality by the turntable, whose slider is one metre out. -/
example (E : Ext) : ∃ (d : Bool) (p : Vec3), Reach E polar d ∧ polar.AxesOK ∧
    (polar.position (1 : ℕ) 0).map Prod.fst = .ok p ∧ (p - polar.T0.t).len = 1 ∧
    polar.ancestors (1 : ℕ) = .ok [0, 1] ∧ ([0, 1].map polar.stride).sum + (0 : Vec3).len = 1 := by
  obtain ⟨d, h⟩ := polar_reach E
  refine ⟨d, (polar.freshTw 1).app 0, h, fun i hi => ?_, ?_, ?_, rfl, ?_⟩
  · have hi : i < 2 := hi
    interval_cases i <;> rfl
  · unfold Body.position
    rw [index_ofNat (by decide)]
    show Out.ok _ = _
    rw [h.inv.viewTw 1 (by decide)]
  · rw [polar_tw1]
    simp [Vec3.len, Vec3.dot, Iso.app, Mat3.mulVec, polar]
  · have e : ∀ i < 2, (polar.rb i).T.t.len = 0 := by
      intro i hi
      have : (polar.rb i).T = 1 := by interval_cases i <;> rfl
      rw [this]; simp [Vec3.len, Vec3.dot]
    simp [Body.stride, e]
    simp [polar, Body.rb, ballRB, mkJoint, Vec3.len, Vec3.dot]

end SpatialDyn
