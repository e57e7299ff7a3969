import Verif.Spec.Pursuit
import Verif.Props.TrackingSim

/-! C146, C156: simulations with torques computed from the time and the state. -/

namespace SpatialDyn
open Finset Body OneStep Filter Topology
open scoped ContDiff

variable {E : Ext} {b : Body} {d : Bool}

/-- The states after calls with torques computed from the time and the state. -/
theorem pursuit_from (h : Reach E b d) (hm : b.Massive) (law : ℝ → List ℝ → List ℝ → ℕ → ℝ)
    (dt : ℝ) (fext : FExt) (o : IntOpts) (ho : o.jointLimits = false) {s : State b.dof} {B : Body}
    (hB : AtState E b s B) : ∃ z : ℕ → State b.dof, z 0 = s ∧
      (∀ n : ℕ, z (n + 1) = scheme o.method
        (b.field E cache0 (law (n * dt) (List.ofFn (z n).1) (List.ofFn (z n).2)) fext o) id dt (z n)) ∧
      ∀ n, ∃ B', pursuit E law dt fext o n B = .ok B' ∧ AtState E b (z n) B' := by
  have e : b.codeFilter o.jointLimits = id := by
    funext y
    unfold codeFilter
    simp [ho]
  refine ⟨fun n => Nat.rec s (fun n y => scheme o.method
    (b.field E cache0 (law (n * dt) (List.ofFn y.1) (List.ofFn y.2)) fext o) id dt y) n, rfl, fun _ => rfl,
    fun n => ?_⟩
  induction n with
  | zero => exact ⟨B, rfl, hB⟩
  | succ n ih =>
    obtain ⟨b1, h1, h2⟩ := ih
    obtain ⟨b2, h3, h4⟩ := h2.integrate h.inv hm.symI (hm.posMass h.inv.tree) cache0_clear
      (law (n * dt) b1.q b1.dq) dt fext o
    refine ⟨b2, by simp [pursuit, h1, h3], ?_⟩
    rw [e, h2.q, h2.dq] at h4
    exact h4

/-- C146: the same where the program computes the torques from the time and the state. -/
theorem C146_pursuit (h : Reach E b d) (hd : b.Definite) {law : ℝ → List ℝ → List ℝ → ℕ → ℝ}
    (hlaw : ∀ i < b.dof, ContDiff ℝ 1 fun y : ℝ × ((Fin b.dof → ℝ) × (Fin b.dof → ℝ)) =>
      law y.1 (List.ofFn y.2.1) (List.ofFn y.2.2) i) {fext : FExt} {o : IntOpts}
    (ho : o.friction = false) (hl : o.jointLimits = false) {T : ℝ} {q dq : ℝ → List ℝ}
    (hM : b.MovesWith E (fun t => law t (q t) (dq t)) fext o T q dq) :
    ∃ C h0 : ℝ, 0 < h0 ∧ ∀ dt, 0 < dt → dt ≤ h0 → ∀ e, 0 ≤ e → e ≤ h0 →
      ∀ (q0 dq0 : List ℝ) (b1 B : Body), b.setQ q0 = .ok b1 → b1.setDq dq0 = .ok B →
      (∀ i < b.dof, |q0.getD i 0 - (q 0).getD i 0| ≤ e ∧ |dq0.getD i 0 - (dq 0).getD i 0| ≤ e) →
      ∀ k : ℕ, k * dt ≤ T → ∃ B', pursuit E law dt fext o k B = .ok B' ∧ ∀ i < b.dof,
        |B'.q.getD i 0 - (q (k * dt)).getD i 0| ≤ C * (dt + e) ∧
        |B'.dq.getD i 0 - (dq (k * dt)).getD i 0| ≤ C * (dt + e) := by
  have hm := hd.massive h.inv.tree
  obtain ⟨Φ, p1, p2, p3⟩ := scheme_inputs (F := fun w => b.field E cache0 (padFin w) fext o)
    ((field_inputs h hd fext o ho).of_le (by simp)) (fun _ _ => rfl) o.method
  set U : ℝ × State b.dof → Fin b.dof → ℝ := fun y i => law y.1 (List.ofFn y.2.1) (List.ofFn y.2.2) i with hU
  have hUs : ContDiff ℝ 1 U := contDiff_pi.2 fun i => hlaw i i.2
  have hS := movesWith_solves h hm hM
  have hst : ∀ t ∈ Set.Icc 0 T, ((List.ofFn (stateOf b q dq t).1) = q t) ∧
      List.ofFn (stateOf b q dq t).2 = dq t := by
    intro t ht
    obtain ⟨b1, B, e1, e2, -⟩ := hM t ht
    refine ⟨stateOf_ofFn (setQ_length e1), stateOf_ofFn ?_⟩
    obtain ⟨hs, hn, -⟩ := h.after_setQ e1
    rw [← hn]
    exact setDq_length e2
  obtain ⟨C, h0, hC, hpos, hle, hn⟩ := hold_near (W := ℝ)
    (Φ := fun p : ℝ × (ℝ × State b.dof) => Φ (p.1, (U p.2, p.2.2)))
    (p1.comp (contDiff_fst.prodMk ((hUs.comp contDiff_snd).prodMk
      (contDiff_snd.comp contDiff_snd)))) (T := T) (τ := fun t => t) (Y := stateOf b q dq)
    ⟨1, fun s _ t _ => by rw [one_mul, Real.norm_eq_abs]⟩
    (fun t ht => by
      have e : U (t, stateOf b q dq t) = fun i : Fin b.dof => law t (q t) (dq t) i := by
        rw [hU]; simp only [(hst t ht).1, (hst t ht).2]
      simp only
      rw [p2, e, ← field_pad h hd (law t (q t) (dq t)) fext o ho]
      exact hS t ht)
  refine ⟨C, h0, hpos, fun dt h1 h2 e he hs q0 dq0 b1 B e1 e2 hnear k hk => ?_⟩
  obtain ⟨z, hz0, hz, hB⟩ := pursuit_from h hm law dt fext o hl (atState_of_set h e1 e2)
  obtain ⟨B', e3, e4⟩ := hB k
  refine ⟨B', e3, fun i hi => e4.near (s := stateOf b q dq (k * dt)) ?_ hi⟩
  have g := hn dt h1 h2 e 0 he le_rfl (by linarith) z (fun n => n * dt) ?_
    (fun n hn => by simp) (fun n _ => ?_) k hk
  · rwa [add_zero] at g
  · rw [hz0]
    exact (cut_near (y := (fun i => q0.getD i 0, fun i => dq0.getD i 0)) he).2 fun i => hnear i i.2
  · rw [hz, field_pad h hd _ fext o ho, p3]

/-- The torques of computed-torque control along a smooth reference depend smoothly on time and state. -/
theorem pursuit_smooth (h : Reach E b d) (hd : b.Definite) (kp kv : ℕ → ℝ) {x w a : ℝ → ℕ → ℝ}
    (hx : ∀ i < b.dof, ContDiff ℝ ∞ fun t => x t i) (hw : ∀ i < b.dof, ContDiff ℝ ∞ fun t => w t i)
    (ha : ∀ i < b.dof, ContDiff ℝ ∞ fun t => a t i) (fext : FExt)
    (o : IntOpts) {law : ℝ → List ℝ → List ℝ → ℕ → ℝ}
    (hlaw : ∀ t q dq b1 B, b.setQ q = .ok b1 → b1.setDq dq = .ok B → ∀ k < b.dof,
      law t q dq k = (B.inverseDynamics (fun j => a t j - kp j * (q.getD j 0 - x t j) -
        kv j * (dq.getD j 0 - w t j)) fext ⟨o.gravity, o.cc, false, o.eps⟩).1 k) {i : ℕ} (hi : i < b.dof) :
    ContDiff ℝ 1 fun y : ℝ × State b.dof => law y.1 (List.ofFn y.2.1) (List.ofFn y.2.2) i := by
  have e : (fun y : ℝ × State b.dof => law y.1 (List.ofFn y.2.1) (List.ofFn y.2.2) i) = fun y =>
      (b.sysAt (padFin y.2.1) (padFin y.2.2)).idSpec (fun j => a y.1 j - kp j * (padFin y.2.1 j - x y.1 j) -
        kv j * (padFin y.2.2 j - w y.1 j)) fext o.cc o.gravity i := by
    funext y
    obtain ⟨c1, e1, n1⟩ := setQ_total (b := b) (q := List.ofFn y.2.1) (by simp)
    obtain ⟨c2, e2, n2⟩ := setDq_total (b := c1) (q := List.ofFn y.2.2) (by simp [n1])
    obtain ⟨hs, hn, ⟨d', hr⟩, hf, -⟩ := set_facts h e1 e2
    have hm := (hs.definite hd).massive hr.inv.tree
    rw [hlaw _ _ _ c1 c2 e1 e2 i hi,
      inverseDynamics_val hr.inv hm.symI (hm.posMass hr.inv.tree) _ _ _ i (by rw [hn]; exact hi), hf]
    unfold qFun dqFun Sys.addFriction
    rw [setDq_q e2, setQ_q e1, setDq_dq e2]
    simp only [Bool.false_eq_true, if_false]
    have g : ∀ (x : Fin b.dof → ℝ) (j : ℕ), (List.ofFn x).getD j 0 = padFin x j := fun x j =>
      congrFun (getD_ofFn_pad x) j
    simp only [g]
  rw [e]
  have p1 : ∀ j, ContDiff ℝ ∞ fun y : ℝ × State b.dof => padFin y.2.1 j := fun j =>
    padFin_smooth (contDiff_fst.comp contDiff_snd) j
  have p2 : ∀ j, ContDiff ℝ ∞ fun y : ℝ × State b.dof => padFin y.2.2 j := fun j =>
    padFin_smooth (contDiff_snd.comp contDiff_snd) j
  refine (idSpec_smooth h.inv.tree (fun j _ => p1 j) (fun j _ => p2 j) (fun j hj => ?_) fext o.cc o.gravity i).of_le
    (by simp)
  exact (((ha j hj).comp contDiff_fst).sub (contDiff_const.mul ((p1 j).sub ((hx j hj).comp contDiff_fst)))).sub
    (contDiff_const.mul ((p2 j).sub ((hw j hj).comp contDiff_fst)))

/-- C156: calls of `Integrate` with the torques of computed-torque control along a smooth reference, for the time
and state before the call, bring the robot as close to the reference as wanted and keep it there for as long as
wanted, with every method, if the steps are short enough. -/
theorem C156_follows (h : Reach E b d) (hd : b.Definite) {kp kv : ℕ → ℝ} (hp : ∀ i < b.dof, 0 < kp i)
    (hv : ∀ i < b.dof, 0 < kv i) {x : ℝ → ℕ → ℝ} (hx : ∀ i < b.dof, ContDiff ℝ ∞ fun t => x t i)
    {fext : FExt} {o : IntOpts} (ho : o.friction = false)
    (hl : o.jointLimits = false) (hbase : o.aba = false ∨ b.T0.R.mulVec b.g = b.g)
    {law : ℝ → List ℝ → List ℝ → ℕ → ℝ}
    (hlaw : ∀ t q dq b1 B, b.setQ q = .ok b1 → b1.setDq dq = .ok B → ∀ k < b.dof,
      law t q dq k = (B.inverseDynamics (fun j => deriv (deriv fun s => x s j) t - kp j * (q.getD j 0 - x t j) -
        kv j * (dq.getD j 0 - deriv (fun s => x s j) t)) fext ⟨o.gravity, o.cc, false, o.eps⟩).1 k)
    {q0 dq0 : List ℝ} {b1 B : Body} (e1 : b.setQ q0 = .ok b1) (e2 : b1.setDq dq0 = .ok B) :
    ∀ ε > 0, ∃ T0 : ℝ, ∀ T : ℝ, ∃ h0 > 0, ∀ dt : ℝ, 0 < dt → dt ≤ h0 → ∀ k : ℕ, T0 ≤ k * dt → k * dt ≤ T →
      ∃ B', pursuit E law dt fext o k B = .ok B' ∧ ∀ i < b.dof,
        |B'.q.getD i 0 - x (k * dt) i| ≤ ε ∧ |B'.dq.getD i 0 - deriv (fun s => x s i) (k * dt)| ≤ ε := by
  intro ε hε
  have hm := hd.massive h.inv.tree
  have hl2 : dq0.length = b.dof := by
    obtain ⟨hs, hn, -⟩ := h.after_setQ e1
    rw [← hn]
    exact setDq_length e2
  have sv : ∀ i < b.dof, ContDiff ℝ ∞ (deriv fun s => x s i) := fun i hi =>
    (contDiff_infty_iff_deriv.1 (hx i hi)).2
  have sa : ∀ i < b.dof, ContDiff ℝ ∞ (deriv (deriv fun s => x s i)) := fun i hi =>
    (contDiff_infty_iff_deriv.1 (sv i hi)).2
  have d1 : ∀ T, ∀ i < b.dof, ∀ t ∈ Set.Icc (0 : ℝ) T,
      HasDerivWithinAt (fun s => x s i) (deriv (fun s => x s i) t) (Set.Icc 0 T) t := fun T i hi t _ =>
    ((hx i hi).differentiable (by simp)).differentiableAt.hasDerivAt.hasDerivWithinAt
  have d2 : ∀ T, ∀ i < b.dof, ∀ t ∈ Set.Icc (0 : ℝ) T,
      HasDerivWithinAt (fun s => deriv (fun r => x r i) s) (deriv (deriv fun s => x s i) t) (Set.Icc 0 T) t :=
    fun T i hi t _ => ((sv i hi).differentiable (by simp)).differentiableAt.hasDerivAt.hasDerivWithinAt
  obtain ⟨tau, q, dq, rfl, rfl, hM, htau⟩ := C156_motion h hd hp (fun i hi => (hv i hi).le) fext ho hbase
    (x := x) (w := fun t i => deriv (fun s => x s i) t) (a := fun t i => deriv (deriv fun s => x s i) t) d1 d2
    (setQ_length e1) hl2
  have reach : ∀ᶠ t in atTop, ∀ i ∈ range b.dof,
      |(q t).getD i 0 - x t i| ≤ ε / 2 ∧ |(dq t).getD i 0 - deriv (fun s => x s i) t| ≤ ε / 2 := by
    refine (Filter.eventually_all_finset _).2 fun i hi => ?_
    replace hi := mem_range.1 hi
    obtain ⟨C, lam, hlam, hC⟩ := C156_tracks (kp := kp) (kv := kv) (hp i hi) (hv i hi)
    have hb := fun t (ht : (0 : ℝ) ≤ t) => hC E b d h hd fext o ho hbase t x
      (fun t i => deriv (fun s => x s i) t) (fun t i => deriv (deriv fun s => x s i) t) (d1 t) (d2 t) tau q dq (hM t)
      (fun s _ => htau s) hi t ⟨ht, le_rfl⟩
    set K := kp i * ((q 0).getD i 0 - x 0 i) ^ 2 + ((dq 0).getD i 0 - deriv (fun s => x s i) 0) ^ 2
    have lim : Tendsto (fun t : ℝ => C * Real.exp (-(lam * t)) * K) atTop (𝓝 (C * 0 * K)) :=
      ((Real.tendsto_exp_neg_atTop_nhds_zero.comp (tendsto_id.const_mul_atTop hlam)).const_mul C).mul_const K
    rw [mul_zero, zero_mul] at lim
    have hδ : 0 < min 1 (kp i) * (ε / 2) ^ 2 := mul_pos (lt_min one_pos (hp i hi)) (by positivity)
    filter_upwards [lim.eventually (gt_mem_nhds hδ), eventually_ge_atTop 0] with t h1 h2
    have h3 := (hb t h2).trans h1.le
    have m1 := mul_le_mul_of_nonneg_right (min_le_left 1 (kp i)) (sq_nonneg (ε / 2))
    have m2 := mul_le_mul_of_nonneg_right (min_le_right 1 (kp i)) (sq_nonneg (ε / 2))
    have n1 := mul_nonneg (hp i hi).le (sq_nonneg ((q t).getD i 0 - x t i))
    have n2 := sq_nonneg ((dq t).getD i 0 - deriv (fun s => x s i) t)
    refine ⟨abs_le_of_sq_le_sq ?_ (half_pos hε).le, abs_le_of_sq_le_sq ?_ (half_pos hε).le⟩
    · refine le_of_mul_le_mul_left ?_ (hp i hi)
      linarith
    · linarith
  obtain ⟨T0, hT0⟩ := eventually_atTop.1 reach
  refine ⟨T0, fun T => ?_⟩
  have hM' : b.MovesWith E (fun t => law t (q t) (dq t)) fext o T q dq := by
    intro t ht
    obtain ⟨c1, B1, f1, f2, f3⟩ := hM T t ht
    refine ⟨c1, B1, f1, f2, fun i hi => ⟨(f3 i hi).1, (f3 i hi).2.congr_deriv ?_⟩⟩
    have g := fun u => field_of_set h hm cache0_clear u fext o f1 f2 ⟨i, hi⟩
    simp only at g
    rw [g, g, field_congr h hd (t' := law t (q t) (dq t)) (fun j hj => ?_) fext ho]
    rw [htau t c1 B1 f1 f2 j hj, hlaw t (q t) (dq t) c1 B1 f1 f2 j hj]
  obtain ⟨C, h0, hpos, hC⟩ := C146_pursuit h hd (law := law)
    (fun i hi => pursuit_smooth h hd kp kv hx (w := fun t i => deriv (fun s => x s i) t)
      (a := fun t i => deriv (deriv fun s => x s i) t) sv sa fext o hlaw hi) ho hl hM'
  refine ⟨min h0 (ε / 2 / (|C| + 1)), by positivity, fun dt d0 d1 k k0 k1 => ?_⟩
  obtain ⟨B', e3, e4⟩ := hC dt d0 (d1.trans (min_le_left _ _)) 0 le_rfl hpos.le _ _ b1 B e1 e2
    (fun i _ => by simp) k k1
  have hs : C * (dt + 0) ≤ ε / 2 := by
    have := (le_div_iff₀ (by positivity)).1 (d1.trans (min_le_right _ _))
    nlinarith [le_abs_self C, abs_nonneg C]
  refine ⟨B', e3, fun i hi => ?_⟩
  have g1 := e4 i hi
  have g2 := hT0 _ k0 i (mem_range.2 hi)
  constructor
  · have := abs_sub_le (B'.q.getD i 0) ((q (k * dt)).getD i 0) (x (k * dt) i)
    linarith [g1.1, g2.1]
  · have := abs_sub_le (B'.dq.getD i 0) ((dq (k * dt)).getD i 0) (deriv (fun s => x s i) (k * dt))
    linarith [g1.2, g2.2]

/-- The hypotheses hold for a pendulum that is to swing as the sine: the states are set as wanted and there is such
a law. -/
example (E : Ext) (x w : ℝ) (fext : FExt) (o : IntOpts) : ∃ d, Reach E creak d ∧ creak.Definite ∧
    (∀ i < creak.dof, ContDiff ℝ ∞ fun t => (fun t _ => Real.sin t : ℝ → ℕ → ℝ) t i) ∧
    (∃ b1 B, creak.setQ [x] = .ok b1 ∧ b1.setDq [w] = .ok B) ∧
    ∃ law : ℝ → List ℝ → List ℝ → ℕ → ℝ, ∀ t q dq b1 B, creak.setQ q = .ok b1 → b1.setDq dq = .ok B →
      ∀ k < creak.dof, law t q dq k = (B.inverseDynamics
        (fun j => deriv (deriv fun s => Real.sin s) t - 1 * (q.getD j 0 - Real.sin t) -
          1 * (dq.getD j 0 - deriv (fun s => Real.sin s) t)) fext ⟨o.gravity, o.cc, false, o.eps⟩).1 k := by
  obtain ⟨d, h⟩ := creak_reach E
  obtain ⟨b1, h1, e1⟩ := setQ_total (b := creak) (q := [x]) rfl
  obtain ⟨B, h2, -⟩ := setDq_total (b := b1) (q := [w]) (by rw [e1]; rfl)
  refine ⟨d, h, creak_definite, fun _ _ => Real.contDiff_sin, ⟨b1, B, h1, h2⟩,
    fun t q dq k => match creak.setQ q with
    | .ok c => match c.setDq dq with
      | .ok c' => (c'.inverseDynamics (fun j => deriv (deriv fun s => Real.sin s) t - 1 * (q.getD j 0 - Real.sin t) -
          1 * (dq.getD j 0 - deriv (fun s => Real.sin s) t)) fext ⟨o.gravity, o.cc, false, o.eps⟩).1 k
      | _ => 0
    | _ => 0, fun t q dq c c' f1 f2 k _ => ?_⟩
  simp only [f1, f2]

end SpatialDyn
