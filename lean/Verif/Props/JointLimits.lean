import Verif.Lemmas.JointLimits
import Verif.Props.OpsAbaWitness
import Mathlib.Analysis.InnerProductSpace.PiL2
import Mathlib.Topology.MetricSpace.HausdorffDistance

/-! # Property C116: the stops of the joints in the build with `JOINT_LIMITS` -/

namespace SpatialDyn
open Body Finset

variable {E : Ext} {Q : Qp} {b b' : Body} {d : Bool}

/-- C116: without joint limits the build with `JOINT_LIMITS` integrates as the one without. -/
theorem C116_off (tau : ℕ → ℝ) (dt : ℝ) (fext : FExt) (o : IntOpts) (ho : o.jointLimits = false) :
    b.integrateL E Q tau dt fext o = b.integrate E tau dt fext o := by
  unfold integrateL integrate Body.accelL
  simp [ho]

/-- C116: with joint limits, Heun's method and Runge-Kutta never fail; they leave the state of the
textbook scheme for the accelerations of `ForwardDynamics` plus those of the stops, filtered by the
limits, whatever was cached before; the state is legal, and nothing but the state changes. -/
theorem C116_step (h : Reach E b d) (hm : b.Massive) (hl : ∀ i < b.dof, (b.rb i).joint.LimitsOK)
    {c : Cache} (hc : c.Clear) (tau : ℕ → ℝ) (dt : ℝ) (fext : FExt) (o : IntOpts)
    (ho : o.jointLimits = true) (he : o.method ≠ .euler) :
    ∃ b', b.integrateL E Q tau dt fext o = .ok b' ∧
      (let y := scheme o.method (b.stopField E Q c tau fext o) b.limit dt b.state
       b'.q = List.ofFn y.1 ∧ b'.dq = List.ofFn y.2) ∧ b'.Legal ∧
      b'.rbs = b.rbs ∧ b'.g = b.g ∧ b'.load = b.load ∧ b'.T0 = b.T0 ∧
      b'.inertiaBase = b.inertiaBase ∧ b'.anc = b.anc ∧ b'.sub = b.sub := by
  have hs := hm.symI
  have hp := hm.posMass h.inv.tree
  obtain ⟨b', h1, h2⟩ := (atState_self h.inv).integrateWith
    (f := fun b => b.accelL E Q tau fext o) (F := b.stopField E Q c tau fext o) (fun _ => rfl)
    (fun g => g.accelL h.inv hs hp hl hc tau fext o) dt o.jointLimits o.method
  have hleg : b'.Legal := by
    rw [ho] at h1
    refine integrateWith_legal h.inv.tree hl (fun b1 => ?_) h1
    unfold Body.accelL
    simp only [ho, if_true]
    exact (accel_same tau fext o).trans (limitImpulse_same _)
  rw [ho, codeFilter_limit hl] at h2
  have hk := h2.only
  refine ⟨b', ?_, ⟨h2.q, h2.dq⟩, hleg, hk.rbs, hk.g, hk.load, hk.T0, hk.inertiaBase, hk.anc, hk.sub⟩
  unfold integrateL
  rw [if_neg fun h => he h.1, h1]

/-- C116: with joint limits, Euler's method is undefined for every body and every call: it reads
through a null pointer. -/
theorem C116_violated_euler (tau : ℕ → ℝ) (dt : ℝ) (fext : FExt) (o : IntOpts)
    (ho : o.jointLimits = true) (he : o.method = .euler) :
    b.integrateL E Q tau dt fext o = .ub := by
  unfold integrateL
  rw [if_pos ⟨he, ho⟩]

theorem accelL_eq (h : Inv E b) (hm : b.Massive) (hl : ∀ i < b.dof, (b.rb i).joint.LimitsOK)
    (tau : ℕ → ℝ) (fext : FExt) {o : IntOpts} (ho : o.jointLimits = true) :
    (b.accelL E Q tau fext o).1 = fun i =>
      (b.accel E tau fext o).1 i + (b.limitImpulse E Q (b.accel E tau fext o).1).1 i := by
  have g := atState_self h
  obtain ⟨-, k⟩ := g.accel h hm.symI (hm.posMass h.tree) (Cache.clear_clearQ b.c) tau fext o
  unfold Body.accelL
  simp only [ho, if_true]
  rw [k.limitImpulse g hl fun _ _ => rfl]

/-- C116: the stops act on the joints that are at a limit only: what they add to the accelerations is
what torques at those joints would add. -/
theorem C116_only_stops (h : Reach E b d) (hD : b.Definite)
    (hl : ∀ i < b.dof, (b.rb i).joint.LimitsOK) (tau : ℕ → ℝ) (fext : FExt) (o : IntOpts)
    (ho : o.jointLimits = true) :
    b.OnlyStops (fun i => b.q.getD i 0) fun i => ∑ j ∈ range b.dof, b.inertia.1 i j *
      ((b.accelL E Q tau fext o).1 j - (b.accel E tau fext o).1 j) := by
  intro i hi h1 h2
  refine Eq.trans ?_ (limitImpulse_torque (E := E) (Q := Q) h.inv hD hl
    (b.accel E tau fext o).1 i hi h1 h2)
  refine sum_congr rfl fun j hj => ?_
  rw [inertia_inv h.inv hD i j hi (mem_range.1 hj),
    accelL_eq h.inv (hD.massive h.inv.tree) hl tau fext ho]
  ring

/-- C116: when no joint is driven against a stop, the stops do nothing. -/
theorem C116_idle (h : Reach E b d) (hD : b.Definite) (hQ : Q.Exact)
    (hl : ∀ i < b.dof, (b.rb i).joint.LimitsOK) (tau : ℕ → ℝ) (fext : FExt) (o : IntOpts)
    (hn : b.NoPush (fun i => b.q.getD i 0) (b.accel E tau fext o).1) :
    (b.accelL E Q tau fext o).1 = (b.accel E tau fext o).1 := by
  cases ho : o.jointLimits with
  | true =>
    rw [accelL_eq h.inv (hD.massive h.inv.tree) hl tau fext ho]
    funext i
    rw [limitImpulse_idle hQ hl hn, add_zero]
  | false =>
    unfold Body.accelL
    simp [ho]

/-- C116: with the stops, no joint at a limit is accelerated outward.  Missing: bodies with joints at
upper and at lower limits at the same time, for which the claim is false
(`C116_violated_opposite`). -/
theorem C116_stops_partial (h : Reach E b d) (hD : b.Definite) (hQ : Q.Exact)
    (hl : ∀ i < b.dof, (b.rb i).joint.LimitsOK) (tau : ℕ → ℝ) (fext : FExt) (o : IntOpts)
    (ho : o.jointLimits = true) (h1 : b.OneSided fun i => b.q.getD i 0) :
    b.NoPush (fun i => b.q.getD i 0) (b.accelL E Q tau fext o).1 := by
  rw [accelL_eq h.inv (hD.massive h.inv.tree) hl tau fext ho]
  exact limitImpulse_stops h.inv hD hQ hl _ h1

theorem two_impulse (hQ : Q.Exact) {i j : ℕ} {s t : Bool} (hL : b.limited = [(i, s), (j, t)])
    (ddq : ℕ → ℝ) {y z : ℝ} :
    let H := impulseHat E b.dof b.inertiaInverse.1 [(i, s), (j, t)]
    let σ : ℝ := if s then 1 else -1
    let τ : ℝ := if t then 1 else -1
    σ * H i 0 * y + τ * H j 0 * z ≤ -σ * ddq i → σ * H i 1 * y + τ * H j 1 * z ≤ -τ * ddq j →
    ∃ x w : ℝ, (b.limitImpulse E Q ddq).1 = (fun k => H k 0 * x + H k 1 * w) ∧
      σ * H i 0 * x + τ * H j 0 * w ≤ -σ * ddq i ∧ σ * H i 1 * x + τ * H j 1 * w ≤ -τ * ddq j ∧
      x ^ 2 + w ^ 2 ≤ y ^ 2 + z ^ 2 := by
  intro H σ τ h0 h1
  obtain ⟨A, v, hA, hv, e⟩ := limitImpulse_some (E := E) (Q := Q) (b := b) (by rw [hL]; simp) ddq
  rw [hL] at hA hv e
  simp only [List.length_cons, List.length_nil, zero_add, Nat.reduceAdd] at hA hv e
  have hf : ∀ x : ℕ → ℝ, QpFeasible 2 A v x ↔
      σ * H i 0 * x 0 + τ * H j 0 * x 1 ≤ -σ * ddq i ∧ σ * H i 1 * x 0 + τ * H j 1 * x 1 ≤ -τ * ddq j := by
    intro x
    have c := fun (k l : ℕ) (hk : k < 2) (hl : l < 2) => colMajor_getD (m := 2) (fun i' j' =>
      limitSign [(i, s), (j, t)] i' * impulseHat E b.dof b.inertiaInverse.1 [(i, s), (j, t)]
        ([(i, s), (j, t)].getD i' (0, false)).1 j') hk hl
    have g := fun (k : ℕ) (hk : k < 2) => map_range_getD (m := 2) (fun i' =>
      -limitSign [(i, s), (j, t)] i' * ddq ([(i, s), (j, t)].getD i' (0, false)).1) hk
    rw [← hA] at c
    rw [← hv] at g
    unfold QpFeasible
    constructor
    · intro hh
      have r0 := hh 0 (by omega)
      have r1 := hh 1 (by omega)
      simp only [sum_range_succ, sum_range_zero, zero_add] at r0 r1
      rw [c 0 0 (by omega) (by omega), c 0 1 (by omega) (by omega), g 0 (by omega)] at r0
      rw [c 1 0 (by omega) (by omega), c 1 1 (by omega) (by omega), g 1 (by omega)] at r1
      exact ⟨r0, r1⟩
    · rintro ⟨r0, r1⟩ k hk
      simp only [sum_range_succ, sum_range_zero, zero_add]
      interval_cases k
      · rw [c 0 0 (by omega) (by omega), c 0 1 (by omega) (by omega), g 0 (by omega)]
        exact r0
      · rw [c 1 0 (by omega) (by omega), c 1 1 (by omega) (by omega), g 1 (by omega)]
        exact r1
  have hy : QpFeasible 2 A v fun k => if k = 0 then y else z := (hf _).2 ⟨by simpa using h0, by simpa using h1⟩
  obtain ⟨q1, q2⟩ := hQ 2 A v ⟨_, hy⟩
  have q3 := q2 _ hy
  obtain ⟨r0, r1⟩ := (hf _).1 q1
  refine ⟨(Q.run 2 A v).getD 0 0, (Q.run 2 A v).getD 1 0, ?_, r0, r1, ?_⟩
  · rw [e]
    funext k
    simp only [sum_range_succ, sum_range_zero, zero_add]
    rfl
  · simpa [sum_range_succ] using q3

/-- A torque for given accelerations. -/
theorem fd_onto (h : Reach E b d) (hD : b.Definite) (fext : FExt) {o : IntOpts} (ha : o.aba = false)
    (hf : o.fd.friction = false) (ddq : ℕ → ℝ) :
    ∃ tau, ∀ i < b.dof, (b.accel E tau fext o).1 i = ddq i := by
  refine ⟨(b.inverseDynamics ddq fext ⟨o.fd.gravity, o.fd.cc, false, 0⟩).1, fun i hi => ?_⟩
  unfold Body.accel
  rw [if_neg (by rw [ha]; exact Bool.false_ne_true)]
  exact C29_forward_inverse h (hD.massive h.inv.tree) (hD.form h) ddq fext o.fd 0 hf i hi

/-- C116: whenever just two joints are at limits, on opposite sides, and a torque at one accelerates
the other, there are torques for which the stops fail: the first joint is still accelerated outward.
The code hands the solver the constraint matrix column by column, and the solver reads it row by
row. -/
theorem C116_violated_opposite (h : Reach E b d) (hD : b.Definite) (hQ : Q.Exact)
    (hl : ∀ i < b.dof, (b.rb i).joint.LimitsOK) {i j : ℕ} {s : Bool} (hij : i < j)
    (h2 : b.TwoLimits (fun i => b.q.getD i 0) i j s (!s)) {u : ℕ → ℝ} (hu : b.Response j u)
    (hc : u i ≠ 0) (fext : FExt) (o : IntOpts) (ho : o.jointLimits = true) (ha : o.aba = false)
    (hf : o.fd.friction = false) :
    ∃ tau, ¬ b.NoPush (fun i => b.q.getD i 0) (b.accelL E Q tau fext o).1 := by
  have hL := limited_two hl hij h2
  obtain ⟨hi, hj, hs, -, -⟩ := h2
  obtain ⟨p0, p1, e1, e0⟩ := two_hat (E := E) (s := s) (t := !s) h.inv hD hi hj hu
  set H := impulseHat E b.dof b.inertiaInverse.1 [(i, s), (j, !s)] with hH
  set a := H i 0
  set c := u i
  set g := H j 1
  set σ : ℝ := if s then 1 else -1 with hσ
  have hτ : (if (!s) = true then (1 : ℝ) else -1) = -σ := by cases s <;> simp [hσ]
  have hσ2 : σ * σ = 1 := by cases s <;> simp [hσ]
  set S := a ^ 2 + c ^ 2 with hS
  have hS0 : 0 < S := by positivity
  set K := |c| * (a + g) / S with hK
  set ddq : ℕ → ℝ := fun k => if k = i then σ else σ * K with hddq
  obtain ⟨tau, ht⟩ := fd_onto h hD fext ha hf ddq
  refine ⟨tau, fun hn => ?_⟩
  rw [accelL_eq h.inv (hD.massive h.inv.tree) hl tau fext ho] at hn
  have d0 : (b.accel E tau fext o).1 i = σ := by rw [ht i hi]; simp [hddq]
  have d1 : (b.accel E tau fext o).1 j = σ * K := by rw [ht j hj]; simp [hddq, hij.ne']
  obtain ⟨x, w, hx, r0, -, r2⟩ := two_impulse (E := E) (Q := Q) hQ hL (b.accel E tau fext o).1
    (y := -σ * (a / S)) (z := σ * (c / S)) (by
      rw [hτ, ← hH, ← hσ, e0, d0]
      have : σ * H i 0 * (-σ * (a / S)) + -σ * c * (σ * (c / S)) =
          -((σ * σ) * ((a ^ 2 + c ^ 2) / S)) := by
        rw [show H i 0 = a from rfl]; ring
      rw [this, ← hS, hσ2, div_self hS0.ne', one_mul, neg_mul, hσ2]) (by
      rw [hτ, ← hH, ← hσ, e1, d1]
      have e3 : σ * c * (-σ * (a / S)) + -σ * H j 1 * (σ * (c / S)) =
          -((σ * σ) * (c * (a + g) / S)) := by
        rw [show H j 1 = g from rfl]; ring
      have e4 : -(-σ) * (σ * K) = (σ * σ) * K := by ring
      rw [e3, e4, hσ2, one_mul, one_mul, hK, ← neg_div, ← neg_mul]
      gcongr
      exact neg_le_abs c)
  rw [hτ, ← hH, ← hσ, e0, d0] at r0
  have e5 : (-σ * (a / S)) ^ 2 + (σ * (c / S)) ^ 2 = (σ * σ) * ((a / S) ^ 2 + (c / S) ^ 2) := by ring
  rw [e5, hσ2, one_mul] at r2
  obtain ⟨x1, w1⟩ := shortest (p := a) (r := c) (x := -σ * x) (y := σ * w) hS0 (by
    have : σ * H i 0 * x + -σ * c * w = -(a * (-σ * x) + c * (σ * w)) := by
      rw [show H i 0 = a from rfl]; ring
    rw [this, show -σ * σ = -(σ * σ) by ring, hσ2] at r0
    linarith) (by
    have : (-σ * x) ^ 2 + (σ * w) ^ 2 = (σ * σ) * (x ^ 2 + w ^ 2) := by ring
    rw [this, hσ2, one_mul]
    exact r2)
  have hpos : 0 < σ * ((b.accel E tau fext o).1 i +
      (b.limitImpulse E Q (b.accel E tau fext o).1).1 i) := by
    rw [hx, d0]
    simp only
    rw [← hH, e1, show H i 0 = a from rfl]
    have : σ * (σ + (a * x + c * w)) = σ * σ - a * (-σ * x) + c * (σ * w) := by ring
    rw [this, x1, w1, hσ2]
    have : 1 - a * (a / S) + c * (c / S) = 2 * c ^ 2 / S := by
      have hne := hS0.ne'
      field_simp
      rw [hS]; ring
    rw [← hS, this]
    positivity
  obtain ⟨n1, n2⟩ := hn i hi
  cases s with
  | true =>
    have := n1 hs
    simp only [if_true] at hσ
    rw [hσ, one_mul] at hpos
    linarith
  | false =>
    have := n2 hs.1 hs.2
    simp only [Bool.false_eq_true, if_false] at hσ
    rw [hσ] at hpos
    linarith

/-- C116: a stop can pull.  Whenever just two joints are at limits, both upper, and a torque at the
second accelerates the first inward, there are torques that drive the first joint away from its stop,
and for which its stop nevertheless applies a torque outward. -/
theorem C116_violated_pull (h : Reach E b d) (hD : b.Definite) (hQ : Q.Exact)
    (hl : ∀ i < b.dof, (b.rb i).joint.LimitsOK) {i j : ℕ} (hij : i < j)
    (h2 : b.TwoLimits (fun i => b.q.getD i 0) i j true true) {u : ℕ → ℝ} (hu : b.Response j u)
    (hc : u i < 0) (fext : FExt) (o : IntOpts) (ho : o.jointLimits = true) (ha : o.aba = false)
    (hf : o.fd.friction = false) :
    ∃ tau, (b.accel E tau fext o).1 i < 0 ∧ 0 < ∑ k ∈ range b.dof, b.inertia.1 i k *
      ((b.accelL E Q tau fext o).1 k - (b.accel E tau fext o).1 k) := by
  have hL := limited_two hl hij h2
  obtain ⟨hi, hj, hs, -, -⟩ := h2
  obtain ⟨p0, p1, e1, e0⟩ := two_hat (E := E) (s := true) (t := true) h.inv hD hi hj hu
  set H := impulseHat E b.dof b.inertiaInverse.1 [(i, true), (j, true)] with hH
  set a := H i 0
  set c := u i
  set g := H j 1
  set S := c ^ 2 + g ^ 2 with hS
  have hS0 : 0 < S := by positivity
  set K := |c| * (a + g) / S + 1 with hK
  have hK0 : 0 < K := by positivity
  set ddq : ℕ → ℝ := fun k => if k = i then -K else 1 with hddq
  obtain ⟨tau, ht⟩ := fd_onto h hD fext ha hf ddq
  have d0 : (b.accel E tau fext o).1 i = -K := by rw [ht i hi]; simp [hddq]
  have d1 : (b.accel E tau fext o).1 j = 1 := by rw [ht j hj]; simp [hddq, hij.ne']
  refine ⟨tau, by rw [d0]; linarith, ?_⟩
  rw [accelL_eq h.inv (hD.massive h.inv.tree) hl tau fext ho]
  obtain ⟨x, w, hx, -, r1, r2⟩ := two_impulse (E := E) (Q := Q) hQ hL (b.accel E tau fext o).1
    (y := -(c / S)) (z := -(g / S)) (by
      simp only [if_true, one_mul]
      rw [← hH, e0, d0, show H i 0 = a from rfl]
      have : a * -(c / S) + c * -(g / S) = -c * (a + g) / S := by ring
      rw [this]
      have : -c * (a + g) / S ≤ |c| * (a + g) / S := by
        gcongr
        exact neg_le_abs c
      linarith) (by
      simp only [if_true, one_mul]
      rw [← hH, e1, d1, show H j 1 = g from rfl]
      have : c * -(c / S) + g * -(g / S) = -((c ^ 2 + g ^ 2) / S) := by ring
      rw [this, ← hS, div_self hS0.ne']
      norm_num)
  simp only [if_true, one_mul] at r1
  rw [← hH, e1, d1, show H j 1 = g from rfl] at r1
  obtain ⟨x1, w1⟩ := shortest (p := c) (r := g) (x := -x) (y := -w) hS0 (by linarith) (by
    rw [neg_sq, neg_sq]
    rw [neg_sq, neg_sq] at r2
    exact r2)
  have e2 : ∑ k ∈ range b.dof, b.inertia.1 i k * ((b.accel E tau fext o).1 k +
      (b.limitImpulse E Q (b.accel E tau fext o).1).1 k - (b.accel E tau fext o).1 k) = x := by
    have := hat_torque (E := E) (L := [(i, true), (j, true)]) (inv_det h.inv hD)
      (fun k => if k = 0 then x else w) 2 i hi
    simp only [sum_range_succ, sum_range_zero, zero_add, if_true, one_ne_zero, if_false] at this
    rw [show (([(i, true), (j, true)] : List (ℕ × Bool)).getD 0 (0, false)).1 = i from rfl,
      show (([(i, true), (j, true)] : List (ℕ × Bool)).getD 1 (0, false)).1 = j from rfl, if_pos rfl,
      if_neg hij.ne, add_zero] at this
    rw [← this]
    refine sum_congr rfl fun k hk => ?_
    rw [hx, inertia_inv h.inv hD i k hi (mem_range.1 hk), add_sub_cancel_left]
  rw [e2]
  have : 0 < -(c / S) := by
    rw [← neg_div]
    exact div_pos (by linarith) hS0
  linarith

/-! ## Witnesses -/

/-- There is an exact solver. -/
theorem Qp.exists_exact : ∃ Q : Qp, Q.Exact := by
  have key : ∀ (m : ℕ) (A b : List ℝ), ∃ l : List ℝ, (∃ x, QpFeasible m A b x) →
      QpFeasible m A b (fun j => l.getD j 0) ∧
      ∀ y, QpFeasible m A b y → ∑ j ∈ range m, l.getD j 0 ^ 2 ≤ ∑ j ∈ range m, y j ^ 2 := by
    intro m A b
    by_cases hx : ∃ x, QpFeasible m A b x
    swap
    · exact ⟨[], fun h => absurd h hx⟩
    set F : Set (EuclideanSpace ℝ (Fin m)) :=
      {x | ∀ i : Fin m, ∑ j : Fin m, A.getD (i * m + j) 0 * x j ≤ b.getD i 0} with hF
    have hcl : IsClosed F := by
      rw [hF, Set.setOf_forall]
      refine isClosed_iInter fun i => isClosed_le ?_ continuous_const
      exact continuous_finset_sum _ fun j _ => continuous_const.mul (by fun_prop)
    have hto : ∀ y, QpFeasible m A b y → WithLp.toLp 2 (fun j : Fin m => y j) ∈ F := by
      intro y hy i
      have := hy i i.2
      rw [← Fin.sum_univ_eq_sum_range (fun j => A.getD (i * m + j) 0 * y j)] at this
      exact this
    obtain ⟨x0, hx0⟩ := hx
    obtain ⟨z, hz, hd⟩ := hcl.exists_infDist_eq_dist ⟨_, hto x0 hx0⟩ 0
    have hg : ∀ j : Fin m, (List.ofFn fun j : Fin m => z j).getD j 0 = z j := fun j =>
      getD_ofFn _ j
    refine ⟨List.ofFn fun j => z j, fun _ => ⟨fun i hi => ?_, fun y hy => ?_⟩⟩
    · rw [← Fin.sum_univ_eq_sum_range
        (fun j => A.getD (i * m + j) 0 * (List.ofFn fun j : Fin m => z j).getD j 0)]
      simp only [hg]
      exact hz ⟨i, hi⟩
    · rw [← Fin.sum_univ_eq_sum_range (fun j => (List.ofFn fun j : Fin m => z j).getD j 0 ^ 2),
        ← Fin.sum_univ_eq_sum_range (fun j => y j ^ 2)]
      simp only [hg]
      have h1 : dist 0 z ≤ dist 0 (WithLp.toLp 2 (fun j : Fin m => y j)) :=
        hd ▸ Metric.infDist_le_dist_of_mem (hto y hy)
      rw [dist_zero_left, dist_zero_left] at h1
      have h2 : ‖z‖ ^ 2 ≤ ‖WithLp.toLp 2 (fun j : Fin m => y j)‖ ^ 2 := by gcongr
      rw [EuclideanSpace.norm_sq_eq, EuclideanSpace.norm_sq_eq] at h2
      simpa using h2
  choose f hf using key
  exact ⟨⟨f⟩, hf⟩

/-- Slider that may go to `0` from below (`s`), or from above. -/
noncomputable def stopJoint (s : Bool) : Joint :=
  { mkJoint .px with qMin := .fin (if s then -1 else 0), qMax := .fin (if s then 0 else 1) }

/-- Two sliders in line, the first at its upper limit, the second at the limit `s`. -/
noncomputable def rail (s : Bool) : Body where
  rbs := [{ T := 1, inertia := ball, joint := stopJoint true, id := 0, idParent := -1 },
    { T := 1, inertia := ball, joint := stopJoint s, id := 1, idParent := 0 }]
  q := [0, 0]
  dq := [0, 0]
  g := ⟨0, 0, -9.81⟩
  load := fun _ => none
  T0 := 1
  inertiaBase := ⟨1, 0, 0⟩
  anc := [[0], [0, 1]]
  sub := [[0, 1], [1]]
  c := ((Body.init cache0).c.expand 0).expand 1

theorem rail_reach (E : Ext) (s : Bool) : ∃ d, Reach E (rail s) d := by
  refine reach_execAll [.addRigidBody { T := 1, inertia := ball, joint := stopJoint true } (-1),
    .addRigidBody { T := 1, inertia := ball, joint := stopJoint s } 0] (Reach.init cache0) ?_ ?_
  · intro op hop
    simp only [List.mem_cons, List.not_mem_nil, or_false] at hop
    rcases hop with rfl | rfl <;> exact Iso.valid_one
  · simp [execAll, Op.exec, Op.step, addRigidBody, Out.map, Out.bind, Body.init, pushSub, rail]

theorem rail_lt {s : Bool} {k : ℕ} (hk : k < (rail s).dof) : k = 0 ∨ k = 1 := by
  have : k < 2 := hk
  omega

theorem rail_definite (s : Bool) : (rail s).Definite := by
  refine ⟨fun k hk => ?_, fun k hk => ?_, fun k hk v hv => ?_, fun k hk L hL => ?_, fun k hk => ?_⟩
  · rcases rail_lt hk with rfl | rfl <;> (show (0 : ℝ) < 1; norm_num)
  · rcases rail_lt hk with rfl | rfl <;> exact ball_phys.2.1
  · rcases rail_lt hk with rfl | rfl <;> exact ball_pd v hv
  · cases hL
  · rcases rail_lt hk with rfl | rfl
    all_goals
      intro h
      have := congrArg (fun m : Motion => m.lin.x) h
      simp [rail, Body.rb, stopJoint, mkJoint, JType.subspace] at this

theorem rail_limits (s : Bool) : ∀ i < (rail s).dof, ((rail s).rb i).joint.LimitsOK := by
  have h : ∀ t, (stopJoint t).LimitsOK := by
    intro t
    cases t <;> constructor <;> simp [stopJoint, Dbl.toEReal, ← EReal.coe_one]
  intro k hk
  rcases rail_lt hk with rfl | rfl
  · exact h true
  · exact h s

theorem rail_two (s : Bool) : (rail s).TwoLimits (fun i => (rail s).q.getD i 0) 0 1 true s := by
  have h : ∀ (t : Bool) (k : ℕ), ((rail s).rb k).joint = stopJoint t → (rail s).AtLimit k 0 t := by
    intro t k e
    cases t
    · refine ⟨?_, ?_⟩
      · unfold AtMax
        rw [e]
        simp [stopJoint, Dbl.toEReal]
      · unfold AtMin
        rw [e]
        simp [stopJoint, Dbl.toEReal]
    · unfold AtLimit AtMax
      rw [e]
      simp [stopJoint, Dbl.toEReal]
  refine ⟨by show 0 < 2; omega, by show 1 < 2; omega, h true 0 rfl, h s 1 rfl, fun k hk h0 h1 => ?_⟩
  rcases rail_lt hk with rfl | rfl
  · exact absurd rfl h0
  · exact absurd rfl h1

theorem rail_tw (s : Bool) (k : ℕ) (hk : k < 2) : (rail s).freshTw k = 1 := by
  interval_cases k
  · show (1 : Iso) * ((1 : Iso) * JType.px.Tjoint 0) = 1
    rw [Tjoint_zero]
    ext <;> simp
  · show (1 : Iso) * ((1 : Iso) * JType.px.Tjoint 0) * ((1 : Iso) * JType.px.Tjoint 0) = 1
    rw [Tjoint_zero]
    ext <;> simp

theorem rail_mass (s : Bool) : (rail s).fresh.massSpec 0 0 = 2 ∧ (rail s).fresh.massSpec 0 1 = 1 ∧
    (rail s).fresh.massSpec 1 0 = 1 ∧ (rail s).fresh.massSpec 1 1 = 1 := by
  have p0 : (rail s).fresh.par 0 = none := rfl
  have p1 : (rail s).fresh.par 1 = some 0 := rfl
  have ax : ∀ k < 2, (rail s).fresh.axis k = JType.px.subspace := by
    intro k hk
    unfold Sys.axis
    rw [fresh_Tw (b := rail s) hk, rail_tw s k hk, Iso.one_actM]
    interval_cases k <;> rfl
  have hI : ∀ k < 2, ∀ m, (rail s).fresh.Iw k m = ⟨m.lin, m.ang⟩ := by
    intro k hk m
    unfold Sys.Iw
    rw [fresh_Tw (b := rail s) hk, rail_tw s k hk, one_inv_iso, Iso.one_actM, Iso.one_actF,
      show (rail s).fresh.Itot k = ball by interval_cases k <;> rfl, ball_app]
  have j : (rail s).fresh.Jw 0 0 = JType.px.subspace ∧ (rail s).fresh.Jw 1 0 = JType.px.subspace ∧
      (rail s).fresh.Jw 0 1 = 0 ∧ (rail s).fresh.Jw 1 1 = JType.px.subspace := by
    unfold Sys.Jw
    rw [if_pos Anc.refl, if_pos (Anc.step p1 Anc.refl), if_pos Anc.refl, if_neg, ax 0 (by omega),
      ax 1 (by omega)]
    · exact ⟨rfl, rfl, rfl, rfl⟩
    · rw [anc_root p0]; omega
  obtain ⟨j1, j2, j3, j4⟩ := j
  unfold Sys.massSpec
  rw [show (rail s).fresh.n = 2 from rfl]
  simp only [sum_range_succ, sum_range_zero, j1, j2, j3, j4, hI 0 (by omega), hI 1 (by omega)]
  refine ⟨?_, ?_, ?_, ?_⟩ <;> simp [JType.subspace, Motion.dot]
  norm_num

/-- A unit torque at the second slider accelerates it by `2`, and the first by `-1`. -/
theorem rail_response (s : Bool) : (rail s).Response 1 fun k => if k = 0 then -1 else 2 := by
  obtain ⟨d, h⟩ := rail_reach ext0 s
  have hm := (rail_definite s).massive h.inv.tree
  obtain ⟨m1, m2, m3, m4⟩ := rail_mass s
  intro l hl
  rw [sum_congr rfl fun k hk => by rw [inertia_entry h hm l k hl (mem_range.1 hk)],
    show (rail s).dof = 2 from rfl]
  simp only [sum_range_succ, sum_range_zero]
  rcases rail_lt hl with rfl | rfl
  · rw [m1, m2]; norm_num
  · rw [m3, m4]; norm_num

/-- C116: two sliders in line at opposite limits; the stops let the first one be accelerated
outward. -/
theorem C116_violated_opposite_witness (hQ : Q.Exact) : ∃ tau, ¬ (rail false).NoPush
    (fun i => (rail false).q.getD i 0) ((rail false).accelL ext0 Q tau (fun _ => none)
      ⟨true, true, false, true, .heuns, false, 0⟩).1 := by
  obtain ⟨d, h⟩ := rail_reach ext0 false
  exact C116_violated_opposite h (rail_definite _) hQ (rail_limits _) Nat.zero_lt_one (rail_two _)
    (rail_response _) (by norm_num) _ _ rfl rfl rfl

/-- C116: two sliders in line at their upper limits; the stop of the first one pulls. -/
theorem C116_violated_pull_witness (hQ : Q.Exact) : ∃ tau,
    let a := ((rail true).accel ext0 tau (fun _ => none) ⟨true, true, false, true, .heuns, false, 0⟩).1
    let a' := ((rail true).accelL ext0 Q tau (fun _ => none)
      ⟨true, true, false, true, .heuns, false, 0⟩).1
    a 0 < 0 ∧ 0 < ∑ k ∈ range 2, (rail true).inertia.1 0 k * (a' k - a k) := by
  obtain ⟨d, h⟩ := rail_reach ext0 true
  exact C116_violated_pull h (rail_definite _) hQ (rail_limits _) Nat.zero_lt_one (rail_two _)
    (rail_response _) (by norm_num) _ _ rfl rfl rfl

/-- The two sliders at their upper limits are at limits on one side only. -/
theorem rail_oneSided : (rail true).OneSided fun i => (rail true).q.getD i 0 := by
  obtain ⟨-, -, h0, h1, -⟩ := rail_two true
  refine .inl fun i hi _ => ?_
  rcases rail_lt hi with rfl | rfl
  · exact h0
  · exact h1

end SpatialDyn
