import Verif.Props.Tracking
import Verif.Props.Feedback

/-! C156: simulations under computed-torque control towards a goal. -/

namespace SpatialDyn
open Finset Body OneStep Filter Topology
open scoped ContDiff

variable {E : Ext} {b : Body} {d : Bool}

/-- The torques of computed-torque control towards a goal depend smoothly on the state. -/
theorem computed_smooth (h : Reach E b d) (hd : b.Definite) (kp kv : ℕ → ℝ) (goal : List ℝ) (fext : FExt)
    (o : IntOpts) {law : List ℝ → List ℝ → ℕ → ℝ}
    (hlaw : ∀ q dq b1 B, b.setQ q = .ok b1 → b1.setDq dq = .ok B → ∀ k < b.dof,
      law q dq k = (B.inverseDynamics (fun j => - kp j * (q.getD j 0 - goal.getD j 0) - kv j * dq.getD j 0) fext
        ⟨o.gravity, o.cc, false, o.eps⟩).1 k) {i : ℕ} (hi : i < b.dof) :
    ContDiff ℝ 1 fun y : State b.dof => law (List.ofFn y.1) (List.ofFn y.2) i := by
  have e : (fun y : State b.dof => law (List.ofFn y.1) (List.ofFn y.2) i) = fun y : State b.dof =>
      (b.sysAt (padFin y.1) (padFin y.2)).idSpec
        (fun j => - kp j * (padFin y.1 j - goal.getD j 0) - kv j * padFin y.2 j) fext o.cc o.gravity i := by
    funext y
    obtain ⟨c1, e1, n1⟩ := setQ_total (b := b) (q := List.ofFn y.1) (by simp)
    obtain ⟨c2, e2, n2⟩ := setDq_total (b := c1) (q := List.ofFn y.2) (by simp [n1])
    obtain ⟨hs, hn, ⟨d', hr⟩, hf, -⟩ := set_facts h e1 e2
    have hm := (hs.definite hd).massive hr.inv.tree
    rw [hlaw _ _ c1 c2 e1 e2 i hi,
      inverseDynamics_val hr.inv hm.symI (hm.posMass hr.inv.tree) _ _ _ i (by rw [hn]; exact hi), hf]
    unfold qFun dqFun Sys.addFriction
    rw [setDq_q e2, setQ_q e1, setDq_dq e2]
    simp only [Bool.false_eq_true, if_false]
    have g : ∀ (x : Fin b.dof → ℝ) (j : ℕ), (List.ofFn x).getD j 0 = padFin x j := fun x j =>
      congrFun (getD_ofFn_pad x) j
    simp only [g]
  rw [e]
  have p1 : ∀ j, ContDiff ℝ ∞ fun y : State b.dof => padFin y.1 j := fun j => padFin_smooth contDiff_fst j
  have p2 : ∀ j, ContDiff ℝ ∞ fun y : State b.dof => padFin y.2 j := fun j => padFin_smooth contDiff_snd j
  refine (idSpec_smooth h.inv.tree (fun j _ => p1 j) (fun j _ => p2 j) (fun j _ => ?_) fext o.cc o.gravity i).of_le
    (by simp)
  exact (contDiff_const.mul ((p1 j).sub contDiff_const)).sub (contDiff_const.mul (p2 j))

/-- C156: calls of `Integrate` with the torques of computed-torque control for the state before the call bring the
robot as close to the goal as wanted and keep it there for as long as wanted, with every method, if the steps
are short enough. -/
theorem C156_simulation (h : Reach E b d) (hd : b.Definite) {kp kv : ℕ → ℝ} (hp : ∀ i < b.dof, 0 < kp i)
    (hv : ∀ i < b.dof, 0 < kv i) (goal : List ℝ) {fext : FExt} {o : IntOpts} (ho : o.friction = false)
    (hl : o.jointLimits = false) (hbase : o.aba = false ∨ b.T0.R.mulVec b.g = b.g)
    {law : List ℝ → List ℝ → ℕ → ℝ}
    (hlaw : ∀ q dq b1 B, b.setQ q = .ok b1 → b1.setDq dq = .ok B → ∀ k < b.dof,
      law q dq k = (B.inverseDynamics (fun j => - kp j * (q.getD j 0 - goal.getD j 0) - kv j * dq.getD j 0) fext
        ⟨o.gravity, o.cc, false, o.eps⟩).1 k)
    {q0 dq0 : List ℝ} {b1 B : Body} (e1 : b.setQ q0 = .ok b1) (e2 : b1.setDq dq0 = .ok B) :
    ∀ ε > 0, ∃ T0 : ℝ, ∀ T : ℝ, ∃ h0 > 0, ∀ dt : ℝ, 0 < dt → dt ≤ h0 → ∀ k : ℕ, T0 ≤ k * dt → k * dt ≤ T →
      ∃ B', feedback E law dt fext o k B = .ok B' ∧ ∀ i < b.dof,
        |B'.q.getD i 0 - goal.getD i 0| ≤ ε ∧ |B'.dq.getD i 0| ≤ ε := by
  intro ε hε
  have hm := hd.massive h.inv.tree
  have hl2 : dq0.length = b.dof := by
    obtain ⟨hs, hn, -⟩ := h.after_setQ e1
    rw [← hn]
    exact setDq_length e2
  have c0 : ∀ c : ℕ → ℝ, ∀ T, ∀ i < b.dof, ∀ t ∈ Set.Icc (0 : ℝ) T,
      HasDerivWithinAt (fun _ : ℝ => c i) 0 (Set.Icc 0 T) t := fun c T i _ t _ => hasDerivWithinAt_const _ _ _
  obtain ⟨tau, q, dq, rfl, rfl, hM, htau⟩ := C156_motion h hd hp (fun i hi => (hv i hi).le) fext ho hbase
    (x := fun _ i => goal.getD i 0) (w := fun _ _ => 0) (a := fun _ _ => 0) (c0 fun i => goal.getD i 0)
    (c0 fun _ => 0) (setQ_length e1) hl2
  have reach : ∀ᶠ t in atTop, ∀ i ∈ range b.dof,
      |(q t).getD i 0 - goal.getD i 0| ≤ ε / 2 ∧ |(dq t).getD i 0| ≤ ε / 2 := by
    refine (Filter.eventually_all_finset _).2 fun i hi => ?_
    replace hi := mem_range.1 hi
    obtain ⟨C, lam, hlam, hC⟩ := C156_tracks (kp := kp) (kv := kv) (hp i hi) (hv i hi)
    have hb := fun t (ht : (0 : ℝ) ≤ t) => hC E b d h hd fext o ho hbase t (fun _ i => goal.getD i 0)
      (fun _ _ => 0) (fun _ _ => 0) (c0 (fun i => goal.getD i 0) t) (c0 (fun _ => 0) t) tau q dq (hM t)
      (fun s _ => htau s) hi t ⟨ht, le_rfl⟩
    simp only [sub_zero] at hb
    set K := kp i * ((q 0).getD i 0 - goal.getD i 0) ^ 2 + (dq 0).getD i 0 ^ 2
    have lim : Tendsto (fun t : ℝ => C * Real.exp (-(lam * t)) * K) atTop (𝓝 (C * 0 * K)) :=
      ((Real.tendsto_exp_neg_atTop_nhds_zero.comp (tendsto_id.const_mul_atTop hlam)).const_mul C).mul_const K
    rw [mul_zero, zero_mul] at lim
    have hδ : 0 < min 1 (kp i) * (ε / 2) ^ 2 := mul_pos (lt_min one_pos (hp i hi)) (by positivity)
    filter_upwards [lim.eventually (gt_mem_nhds hδ), eventually_ge_atTop 0] with t h1 h2
    have h3 := (hb t h2).trans h1.le
    have m1 := mul_le_mul_of_nonneg_right (min_le_left 1 (kp i)) (sq_nonneg (ε / 2))
    have m2 := mul_le_mul_of_nonneg_right (min_le_right 1 (kp i)) (sq_nonneg (ε / 2))
    have n1 := mul_nonneg (hp i hi).le (sq_nonneg ((q t).getD i 0 - goal.getD i 0))
    have n2 := sq_nonneg ((dq t).getD i 0)
    refine ⟨abs_le_of_sq_le_sq ?_ (half_pos hε).le, abs_le_of_sq_le_sq ?_ (half_pos hε).le⟩
    · refine le_of_mul_le_mul_left ?_ (hp i hi)
      linarith
    · linarith
  obtain ⟨T0, hT0⟩ := eventually_atTop.1 reach
  refine ⟨T0, fun T => ?_⟩
  have hM' : b.MovesWith E (fun t => law (q t) (dq t)) fext o T q dq := by
    intro t ht
    obtain ⟨c1, B1, f1, f2, f3⟩ := hM T t ht
    refine ⟨c1, B1, f1, f2, fun i hi => ⟨(f3 i hi).1, (f3 i hi).2.congr_deriv ?_⟩⟩
    have g := fun u => field_of_set h hm cache0_clear u fext o f1 f2 ⟨i, hi⟩
    simp only at g
    rw [g, g, field_congr h hd (t' := law (q t) (dq t)) (fun j hj => ?_) fext ho]
    rw [htau t c1 B1 f1 f2 j hj, hlaw (q t) (dq t) c1 B1 f1 f2 j hj]
    simp only [sub_zero, zero_sub, neg_mul]
  obtain ⟨C, h0, hpos, hC⟩ := C146_feedback h hd (law := law)
    (fun i hi => computed_smooth h hd kp kv goal fext o hlaw hi) ho hl hM'
  refine ⟨min h0 (ε / 2 / (|C| + 1)), by positivity, fun dt d0 d1 k k0 k1 => ?_⟩
  obtain ⟨B', e3, e4⟩ := hC dt d0 (d1.trans (min_le_left _ _)) 0 le_rfl hpos.le _ _ b1 B e1 e2
    (fun i _ => by simp) k k1
  have hs : C * (dt + 0) ≤ ε / 2 := by
    have := (le_div_iff₀ (by positivity)).1 (d1.trans (min_le_right _ _))
    nlinarith [le_abs_self C, abs_nonneg C]
  refine ⟨B', e3, fun i hi => ?_⟩
  have g1 := e4 i hi
  have g2 := hT0 _ k0 i (mem_range.2 hi)
  constructor
  · have := abs_sub_le (B'.q.getD i 0) ((q (k * dt)).getD i 0) (goal.getD i 0)
    linarith [g1.1, g2.1]
  · have := abs_sub_le (B'.dq.getD i 0) ((dq (k * dt)).getD i 0) 0
    rw [sub_zero, sub_zero] at this
    linarith [g1.2, g2.2]

/-- The hypotheses hold for a pendulum: the states are set as wanted and there is such a law. -/
example (E : Ext) (x w : ℝ) (fext : FExt) (o : IntOpts) : ∃ d, Reach E creak d ∧ creak.Definite ∧
    (∃ b1 B, creak.setQ [x] = .ok b1 ∧ b1.setDq [w] = .ok B) ∧
    ∃ law : List ℝ → List ℝ → ℕ → ℝ, ∀ q dq b1 B, creak.setQ q = .ok b1 → b1.setDq dq = .ok B →
      ∀ k < creak.dof, law q dq k = (B.inverseDynamics
        (fun j => - 1 * (q.getD j 0 - [1].getD j 0) - 1 * dq.getD j 0) fext ⟨o.gravity, o.cc, false, o.eps⟩).1 k := by
  obtain ⟨d, h⟩ := creak_reach E
  obtain ⟨b1, h1, e1⟩ := setQ_total (b := creak) (q := [x]) rfl
  obtain ⟨B, h2, -⟩ := setDq_total (b := b1) (q := [w]) (by rw [e1]; rfl)
  refine ⟨d, h, creak_definite, ⟨b1, B, h1, h2⟩, fun q dq k => match creak.setQ q with
    | .ok c => match c.setDq dq with
      | .ok c' => (c'.inverseDynamics (fun j => - 1 * (q.getD j 0 - [1].getD j 0) - 1 * dq.getD j 0) fext
        ⟨o.gravity, o.cc, false, o.eps⟩).1 k
      | _ => 0
    | _ => 0, fun q dq c c' f1 f2 k _ => ?_⟩
  simp only [f1, f2]

end SpatialDyn
