import Verif.Spec.Circulation
import Verif.Lemmas.Circulation

/-!
# C129: the variational integrator is symplectic
-/

namespace SpatialDyn
open Finset Body MeasureTheory
variable {E : Ext} {b : Body} {d : Bool} {p : Prev}

/-- One step of the argument: three loops of configurations related, up to `ε` in every joint and for
the same impulses on the whole loop, by the discrete Euler–Lagrange equations. -/
theorem circulation_step (hE : E.TrueLog) : ∃ δ > 0, ∀ {b : Body}, Inv E b → b.AxesOK →
    (∀ k < b.dof, (b.rb k).inertia.Icom.IsSymm) → (∀ k < b.dof, b.load k = none) →
    ∀ {dt : ℝ}, dt ≠ 0 → ∀ (g : Bool) {q0 q1 q2 : ℝ → ℕ → ℝ} {f : ℕ → ℝ} {ε : ℝ},
    (∀ i < b.dof, ContDiff ℝ 1 fun s => q0 s i) → (∀ i < b.dof, ContDiff ℝ 1 fun s => q1 s i) →
    (∀ i < b.dof, ContDiff ℝ 1 fun s => q2 s i) →
    (∀ i < b.dof, q1 1 i = q1 0 i) → (∀ i < b.dof, q2 1 i = q2 0 i) →
    (∀ s, ∀ k < b.dof, (b.disp (q0 s) (q1 s) k).gap 1 < δ) →
    (∀ s, ∀ k < b.dof, (b.disp (q1 s) (q2 s) k).gap 1 < δ) →
    (∀ s, ∀ i < b.dof, ∃ S', HasDerivAt (fun x =>
      b.stepAction E dt g (q0 s) (Function.update (q1 s) i x) +
        b.stepAction E dt g (Function.update (q1 s) i x) (q2 s)) S' (q1 s i) ∧ |S' + f i| ≤ ε) →
    |b.circulation E dt g q1 q2 - b.circulation E dt g q0 q1| ≤ ε * b.loopLength q1 := by
  obtain ⟨δ, hδ, H⟩ := action_curve hE
  refine ⟨δ, hδ, ?_⟩
  intro b h ha hI hl dt h0 g q0 q1 q2 f ε c0 c1 c2 l1 l2 g01 g12 hdel
  obtain ⟨P, Q, hd, hcont⟩ := H h ha hI hl h0 g
  have der : ∀ {q : ℝ → ℕ → ℝ}, (∀ i < b.dof, ContDiff ℝ 1 fun s => q s i) → ∀ s, ∀ i < b.dof,
      HasDerivAt (fun s => q s i) (deriv (fun s => q s i) s) s := fun c s i hi =>
    ((c i hi).differentiable (by simp) s).hasDerivAt
  have dc : ∀ {q : ℝ → ℕ → ℝ}, (∀ i < b.dof, ContDiff ℝ 1 fun s => q s i) → ∀ i < b.dof,
      Continuous fun s => deriv (fun s => q s i) s := fun c i hi => (c i hi).continuous_deriv (by simp)
  have cc : ∀ {q : ℝ → ℕ → ℝ}, (∀ i < b.dof, ContDiff ℝ 1 fun s => q s i) → ∀ i < b.dof,
      Continuous fun s => q s i := fun c i hi => (c i hi).continuous
  have dQ : ∀ (u w : ℕ → ℝ), (∀ k < b.dof, (b.disp u w k).gap 1 < δ) → ∀ i < b.dof,
      HasDerivAt (fun x => b.stepAction E dt g u (Function.update w i x)) (Q u w i) (w i) := by
    intro u w hg i hi
    have := hd (u := fun _ => u) (w := fun x => Function.update w i x) (u' := fun _ => 0)
      (w' := fun j => if j = i then 1 else 0) (s := w i) (fun j _ => hasDerivAt_const _ _)
      (fun j _ => update_deriv w i j _) (by rw [Function.update_eq_self]; exact hg)
    rw [Function.update_eq_self] at this
    simpa [hi] using this
  have dP : ∀ (u w : ℕ → ℝ), (∀ k < b.dof, (b.disp u w k).gap 1 < δ) → ∀ i < b.dof,
      HasDerivAt (fun x => b.stepAction E dt g (Function.update u i x) w) (P u w i) (u i) := by
    intro u w hg i hi
    have := hd (u := fun x => Function.update u i x) (w := fun _ => w) (w' := fun _ => 0)
      (u' := fun j => if j = i then 1 else 0) (s := u i) (fun j _ => update_deriv u i j _)
      (fun j _ => hasDerivAt_const _ _) (by rw [Function.update_eq_self]; exact hg)
    rw [Function.update_eq_self] at this
    simpa [hi] using this
  have hcirc : ∀ {u w : ℝ → ℕ → ℝ}, (∀ s, ∀ k < b.dof, (b.disp (u s) (w s) k).gap 1 < δ) →
      b.circulation E dt g u w = ∫ s in (0 : ℝ)..1, ∑ i ∈ range b.dof,
        Q (u s) (w s) i * deriv (fun s => w s i) s := by
    intro u w hg
    unfold circulation endMomentum
    congr 1
    funext s
    exact sum_congr rfl fun i hi => by rw [(dQ _ _ (hg s) i (mem_range.1 hi)).deriv]
  have cQ : ∀ {u w z : ℝ → ℕ → ℝ}, (∀ i < b.dof, ContDiff ℝ 1 fun s => u s i) →
      (∀ i < b.dof, ContDiff ℝ 1 fun s => w s i) → (∀ i < b.dof, ContDiff ℝ 1 fun s => z s i) →
      (∀ s, ∀ k < b.dof, (b.disp (u s) (w s) k).gap 1 < δ) →
      Continuous (fun s => ∑ i ∈ range b.dof, Q (u s) (w s) i * deriv (fun s => z s i) s) ∧
      Continuous (fun s => ∑ i ∈ range b.dof, P (u s) (w s) i * deriv (fun s => z s i) s) :=
    fun cu cw cz hg =>
      ⟨continuous_finsetSum _ fun i hi => (hcont (cc cu) (cc cw) hg i).2.mul
          (dc cz i (mem_range.1 hi)),
        continuous_finsetSum _ fun i hi => (hcont (cc cu) (cc cw) hg i).1.mul
          (dc cz i (mem_range.1 hi))⟩
  -- around the loop the action of the second step returns to its value
  have hloop : (∫ s in (0 : ℝ)..1, ∑ i ∈ range b.dof, Q (q1 s) (q2 s) i * deriv (fun s => q2 s i) s) +
      (∫ s in (0 : ℝ)..1, ∑ i ∈ range b.dof, P (q1 s) (q2 s) i * deriv (fun s => q1 s i) s) = 0 := by
    rw [← intervalIntegral.integral_add ((cQ c1 c2 c2 g12).1.intervalIntegrable _ _)
      ((cQ c1 c2 c1 g12).2.intervalIntegrable _ _)]
    rw [intervalIntegral.integral_eq_sub_of_hasDerivAt
      (fun s _ => hd (der c1 s) (der c2 s) (g12 s))
      (((cQ c1 c2 c2 g12).1.add (cQ c1 c2 c1 g12).2).intervalIntegrable _ _)]
    rw [stepAction_congr h l1 l2, sub_self]
  -- constant impulses do no work around the loop
  have hwork : ∫ s in (0 : ℝ)..1, ∑ i ∈ range b.dof, f i * deriv (fun s => q1 s i) s = 0 := by
    have ci : ∀ i ∈ range b.dof, IntervalIntegrable (fun s => f i * deriv (fun s => q1 s i) s)
        volume 0 1 := fun i hi =>
      (continuous_const.mul (dc c1 i (mem_range.1 hi))).intervalIntegrable _ _
    rw [intervalIntegral.integral_finsetSum ci]
    refine sum_eq_zero fun i hi => ?_
    have hi := mem_range.1 hi
    rw [intervalIntegral.integral_const_mul, intervalIntegral.integral_eq_sub_of_hasDerivAt
      (fun s _ => der c1 s i hi) ((dc c1 i hi).intervalIntegrable _ _), l1 i hi, sub_self, mul_zero]
  have cf : Continuous fun s => ∑ i ∈ range b.dof, f i * deriv (fun s => q1 s i) s :=
    continuous_finsetSum _ fun i hi => continuous_const.mul (dc c1 i (mem_range.1 hi))
  have e : b.circulation E dt g q1 q2 - b.circulation E dt g q0 q1 = -∫ s in (0 : ℝ)..1,
      (∑ i ∈ range b.dof, P (q1 s) (q2 s) i * deriv (fun s => q1 s i) s +
        ∑ i ∈ range b.dof, Q (q0 s) (q1 s) i * deriv (fun s => q1 s i) s) +
        ∑ i ∈ range b.dof, f i * deriv (fun s => q1 s i) s := by
    have ci : IntervalIntegrable (fun s =>
        ∑ i ∈ range b.dof, P (q1 s) (q2 s) i * deriv (fun s => q1 s i) s +
          ∑ i ∈ range b.dof, Q (q0 s) (q1 s) i * deriv (fun s => q1 s i) s) volume 0 1 :=
      ((cQ c1 c2 c1 g12).2.add (cQ c0 c1 c1 g01).1).intervalIntegrable _ _
    rw [intervalIntegral.integral_add ci (cf.intervalIntegrable _ _),
      intervalIntegral.integral_add ((cQ c1 c2 c1 g12).2.intervalIntegrable _ _)
        ((cQ c0 c1 c1 g01).1.intervalIntegrable _ _), hwork, hcirc g12, hcirc g01]
    linarith
  rw [e, abs_neg, ← Real.norm_eq_abs]
  unfold loopLength
  rw [← intervalIntegral.integral_const_mul]
  refine intervalIntegral.norm_integral_le_of_norm_le zero_le_one ?_
    ((continuous_const.mul (continuous_finsetSum _ fun i hi =>
      (dc c1 i (mem_range.1 hi)).abs)).intervalIntegrable _ _)
  refine Filter.Eventually.of_forall fun s _ => ?_
  rw [← sum_add_distrib, ← sum_add_distrib, Real.norm_eq_abs, mul_sum]
  refine (abs_sum_le_sum_abs _ _).trans (sum_le_sum fun i hi => ?_)
  have hi := mem_range.1 hi
  obtain ⟨S', hS, hle⟩ := hdel s i hi
  have hS2 := (dQ (q0 s) (q1 s) (g01 s) i hi).add (dP (q1 s) (q2 s) (g12 s) i hi)
  have := hS.unique hS2
  rw [← add_mul, ← add_mul, abs_mul]
  refine mul_le_mul_of_nonneg_right ?_ (abs_nonneg _)
  rw [add_comm (P _ _ i), ← this]
  exact hle

/-- C129: the variational integrator is symplectic.  Take a closed loop of states of a robot without
loads and run `discrete::Integrate` from all of them with the same torques, any number of steps of
equal length, each converged.  For positions up to `M` there is a size `ρ` of the moves of the joints
in a step, so that for all such families with smaller moves that vary smoothly around the loop: the
circulation of the momenta around the loop stays what it is at the first step, within the tolerance of
the root finding times the lengths of the loops passed. -/
theorem C129_circulation (h : DReach E b d p) (ha : b.AxesOK) (hm : b.Massive)
    (hl : ∀ k < b.dof, b.load k = none) (hE : E.TrueLog) (M : ℝ) :
    ∃ ρ > 0, ∀ {B : ℝ → ℕ → Body} {N : ℕ} {dt : ℝ} {o : DIntOpts} {tau : ℕ → ℕ → ℝ}, dt ≠ 0 →
      (∀ s, StateOnly b (B s 0) ∧ ∃ d p, DReach E (B s 0) d p) →
      (∀ s, ∀ n < N, (B s n).Converges E (tau n) dt (fun _ => none) o) →
      (∀ s, ∀ n < N, (B s n).discreteIntegrate E (tau n) dt (fun _ => none) o = .ok (B s (n + 1))) →
      (∀ s, ∀ n ≤ N, ∀ i < b.dof, |(B s n).pos i| ≤ M) →
      (∀ s, ∀ n < N, ∀ i < b.dof, |(B s (n + 1)).pos i - (B s n).pos i| ≤ ρ) →
      (∀ n ≤ N, ∀ i < b.dof, ContDiff ℝ 1 fun s => (B s n).pos i) →
      (∀ n ≤ N, ∀ i < b.dof, (B 1 n).pos i = (B 0 n).pos i) →
      ∀ n < N, |b.circulation E dt o.gravity (fun s => (B s n).pos) (fun s => (B s (n + 1)).pos) -
          b.circulation E dt o.gravity (fun s => (B s 0).pos) (fun s => (B s 1).pos)| ≤
        o.epsV * ∑ m ∈ range n, b.loopLength fun s => (B s (m + 1)).pos := by
  obtain ⟨δ1, hδ1, H1⟩ := circulation_step hE
  obtain ⟨δ2, hδ2, H2⟩ := C114_stationary hE
  obtain ⟨ρ, hρ, hsm⟩ := disp_small h.reach.inv M (lt_min hδ1 hδ2)
  refine ⟨ρ, hρ, ?_⟩
  intro B N dt o tau h0 hB hc hs hM hmv hC hcl
  have key : ∀ s, ∀ n < N, StateOnly b (B s (n + 1)) ∧
      DReach E (B s (n + 1)) true (some (dt, (B s n).pos)) := by
    intro s n
    induction n with
    | zero =>
      intro hn
      obtain ⟨so, d, p, hr⟩ := hB s
      obtain ⟨k, x, -, -, -, hx, hst, hso, hr⟩ := C42_step hr (hc s 0 hn) (hs s 0 hn)
      exact ⟨so.trans hso, hr⟩
    | succ n ih =>
      intro hn
      obtain ⟨j1, j2⟩ := ih (by omega)
      obtain ⟨k, x, -, -, -, hx, hst, hso, hr⟩ := C42_step j2 (hc s (n + 1) hn) (hs s (n + 1) hn)
      exact ⟨j1.trans hso, hr⟩
  have small : ∀ s, ∀ n < N, ∀ k < b.dof,
      (b.disp (B s n).pos (B s (n + 1)).pos k).gap 1 < min δ1 δ2 := fun s n hn =>
    hsm _ _ fun j hj => ⟨hM s n hn.le j hj, hM s (n + 1) hn j hj, by
      rw [abs_sub_comm]; exact hmv s n hn j hj⟩
  have hsym : ∀ k < b.dof, (b.rb k).inertia.Icom.IsSymm := fun k hk =>
    hm.symm k hk _ (List.mem_cons_self ..)
  intro n
  induction n with
  | zero => intro _; simp
  | succ n ih =>
    intro hn
    have step := H1 h.reach.inv ha hsym hl h0 o.gravity (q0 := fun s => (B s n).pos)
      (q1 := fun s => (B s (n + 1)).pos) (q2 := fun s => (B s (n + 2)).pos)
      (f := fun i => dt * tau (n + 1) i) (ε := o.epsV) (hC n (by omega)) (hC (n + 1) (by omega))
      (hC (n + 2) (by omega)) (hcl (n + 1) (by omega)) (hcl (n + 2) (by omega))
      (fun s k hk => (small s n (by omega) k hk).trans_le (min_le_left _ _))
      (fun s k hk => (small s (n + 1) hn k hk).trans_le (min_le_left _ _)) (by
        intro s i hi
        obtain ⟨so, hr⟩ := key s n (by omega)
        have hd : (B s (n + 1)).dof = b.dof := so.same_dof
        have hrb : (B s (n + 1)).rb = b.rb := by unfold Body.rb; rw [so.rbs]
        have e : (B s (n + 1)).before (some (dt, (B s n).pos)) dt = (B s n).pos := if_pos rfl
        have hi' : i < (B s (n + 1)).dof := hd.symm ▸ hi
        have st := H2 hr (by intro i hi; rw [hrb]; exact ha i (hd ▸ hi)) (so.massive hm)
          (fun k hk => by rw [so.load]; exact hl k (hd ▸ hk)) (B s (n + 2)).pos (fun _ => none)
          o.gravity h0 (fun k hk => by
            rw [e, so.disp]
            exact ⟨(small s n (by omega) k (hd ▸ hk)).trans_le (min_le_right _ _),
              (small s (n + 1) hn k (hd ▸ hk)).trans_le (min_le_right _ _)⟩) i hi'
        rw [e, so.stepAction] at st
        refine ⟨_, st, ?_⟩
        obtain ⟨k, x, -, -, -, hx, hst, -, -⟩ := C42_step hr (hc s (n + 1) hn) (hs s (n + 1) hn)
        have hxi : |((B s (n + 1)).discreteID E x dt (fun _ => none) o.gravity).1 i -
            dt * tau (n + 1) i| < o.epsV := by
          refine lt_of_le_of_lt ?_ hx
          refine Real.abs_le_sqrt ?_
          exact single_le_sum (f := fun i => (((B s (n + 1)).discreteID E x dt (fun _ => none)
            o.gravity).1 i - dt * tau (n + 1) i) ^ 2) (fun _ _ => sq_nonneg _) (mem_range.2 hi')
        rw [discreteID_congr hr (y := (B s (n + 2)).pos) (fun j hj => (hst j hj).1.symm) dt _ _ hi']
          at hxi
        rw [← abs_neg]
        refine le_of_eq_of_le ?_ hxi.le
        congr 1
        simp [Sys.genForce]
        ring)
    have := ih (by omega)
    rw [sum_range_succ, mul_add]
    have t := abs_sub_le
      (b.circulation E dt o.gravity (fun s => (B s (n + 1)).pos) fun s => (B s (n + 2)).pos)
      (b.circulation E dt o.gravity (fun s => (B s n).pos) fun s => (B s (n + 1)).pos)
      (b.circulation E dt o.gravity (fun s => (B s 0).pos) fun s => (B s 1).pos)
    linarith

/-! ## A loop of motions of a mass on a rail -/

theorem railPath_twist (x s : ℝ) : HasTwist (fun s => (⟨1, ⟨x * s, 0, 0⟩⟩ : Iso)) ⟨⟨x, 0, 0⟩, 0⟩ s := by
  have h1 := HasTwist.comp (u := fun s => x * s) (JType.px.Tjoint_twist (x * s))
    (((hasDerivAt_id s).const_mul x))
  have e : (fun s => JType.px.Tjoint (x * s)) = fun s => (⟨1, ⟨x * s, 0, 0⟩⟩ : Iso) := by
    funext s; ext <;> simp [JType.Tjoint]
  beta_reduce at h1
  rw [e] at h1
  have e2 : (x * 1) • JType.px.subspace = (⟨⟨x, 0, 0⟩, 0⟩ : Motion) := by
    ext <;> simp [JType.subspace]
  rwa [e2] at h1

theorem rail_gap (x : ℝ) : (⟨1, ⟨x, 0, 0⟩⟩ : Iso).gap 1 = |x| := by
  rw [Iso.gap_eq]
  simp

/-- The logarithm of a short translation is the translation, and along it the momentum is that of the
translation. -/
theorem Ext.TrueLog.short (hE : E.TrueLog) : ∃ δ > 0, ∀ x : ℝ, |x| < δ →
    E.log ⟨1, ⟨x, 0, 0⟩⟩ = ⟨⟨x, 0, 0⟩, 0⟩ ∧
    ∀ f, (⟨⟨1, 0, 0⟩, 0⟩ : Motion).dot (E.dlogT ⟨1, ⟨x, 0, 0⟩⟩ f) = f.lin.x := by
  obtain ⟨δ0, hδ0, L, hL, HL, -⟩ := expTw_near
  obtain ⟨δ, hδ, H⟩ := hE.inverse δ0 hδ0
  obtain ⟨δ', hδ', HR⟩ := hE.log_rate
  have hv : ∀ x : ℝ, (⟨1, ⟨x, 0, 0⟩⟩ : Iso).Valid := fun x => Mat3.isRot_one
  have hlog : ∀ x : ℝ, |x| < min δ δ0 → E.log ⟨1, ⟨x, 0, 0⟩⟩ = ⟨⟨x, 0, 0⟩, 0⟩ := by
    intro x hx
    obtain ⟨t1, t2⟩ := H ⟨1, ⟨x, 0, 0⟩⟩ (hv x) (by
      rw [rail_gap]; exact hx.trans_le (min_le_left _ _))
    have e1 : expTw (⟨⟨x, 0, 0⟩, 0⟩ : Motion).comps = (⟨1, ⟨x, 0, 0⟩⟩ : Iso).twist.comps := by
      have := isoM_flow (P := fun s => (⟨1, ⟨x * s, 0, 0⟩⟩ : Iso)) (V := ⟨⟨x, 0, 0⟩, 0⟩)
        (by ext <;> simp) (railPath_twist x) 1
      rw [one_smul, mul_one] at this
      unfold expTw
      rw [← this, twM_isoM]
    have e2 : ‖(⟨⟨x, 0, 0⟩, 0⟩ : Motion).comps‖ < δ0 := by
      refine (Motion.norm_comps _).trans_lt ?_
      have : (⟨⟨x, 0, 0⟩, 0⟩ : Motion).size = |x| := by simp [Motion.size, Vec3.size]
      rw [this]
      exact hx.trans_le (min_le_right _ _)
    obtain ⟨-, e3, -⟩ := HL _ _ t1 e2
    rw [t2, e1, sub_self, norm_zero, mul_zero] at e3
    have e4 := sub_eq_zero.1 (norm_eq_zero.1 (le_antisymm e3 (norm_nonneg _)))
    rw [← Motion.ofComps_comps (E.log _), e4, Motion.ofComps_comps]
  refine ⟨min (min δ δ0) δ', lt_min (lt_min hδ hδ0) hδ', fun x hx => ⟨hlog x
    (hx.trans_le (min_le_left _ _)), fun f => ?_⟩⟩
  have htw : HasTwist (fun s => (⟨1, ⟨x + s, 0, 0⟩⟩ : Iso)) ⟨⟨1, 0, 0⟩, 0⟩ 0 := by
    have := (railPath_twist 1 x).shift
    simpa using this
  have h1 := HR ⟨1, ⟨x, 0, 0⟩⟩ (hv x) (by rw [rail_gap]; exact hx.trans_le (min_le_right _ _)) _ _
    (by simp) (fun s => hv _) htw f
  have h2 : HasDerivAt (fun s => (E.log ⟨1, ⟨x + s, 0, 0⟩⟩).dot f) f.lin.x 0 := by
    have h3 : HasDerivAt (fun s : ℝ => (x + s) * f.lin.x) (1 * f.lin.x) 0 :=
      ((hasDerivAt_id (0 : ℝ)).const_add x).mul_const _
    rw [one_mul] at h3
    refine h3.congr_of_eventuallyEq ?_
    have hc : Filter.Tendsto (fun s : ℝ => |x + s|) (nhds 0) (nhds |x + 0|) :=
      ((continuous_const.add continuous_id).abs).tendsto 0
    rw [add_zero] at hc
    filter_upwards [hc.eventually (gt_mem_nhds (hx.trans_le (min_le_left _ _)))] with s hs
    rw [hlog _ hs]
    simp [Motion.dot, Vec3.dot]
  exact h1.unique h2

/-- On a rail, moving by short steps, `discrete::Integrate` without torques keeps the velocity
exactly. -/
theorem rail_drift (hE : E.TrueLog) : ∃ δ > 0, ∀ {b : Body} {d : Bool} {p : Prev} {dt : ℝ},
    Rail b → b.load 0 = none → DReach E b d p → dt ≠ 0 → b.before p dt 0 = b.pos 0 - dt * b.vel 0 →
    |dt * b.vel 0| < δ → ∀ {o : DIntOpts}, o.gravity = false → 0 < o.epsV → 1 ≤ o.maxIter →
    b.Converges E (fun _ => 0) dt (fun _ => none) o ∧ ∃ b',
      b.discreteIntegrate E (fun _ => 0) dt (fun _ => none) o = .ok b' ∧
      b'.pos 0 = b.pos 0 + dt * b.vel 0 ∧ b'.vel 0 = b.vel 0 ∧ StateOnly b b' ∧
      DReach E b' true (some (dt, b.pos)) := by
  obtain ⟨δ, hδ, H⟩ := hE.short
  refine ⟨δ, hδ, ?_⟩
  intro b d p dt h hl hr h0 hp hv o hg he hm
  have hmom : ∀ x, |x| < δ → (discMom E b.own dt 0 ⟨1, ⟨x, 0, 0⟩⟩).lin.x = x / dt := by
    intro x hx
    obtain ⟨h1, h2⟩ := H x hx
    unfold discMom own
    rw [h1, h.rb]
    have := h2 (((solo .px).rb 0).inertia.app ((1 / dt) • (⟨⟨x, 0, 0⟩, 0⟩ : Motion)))
    have e : ((solo .px).rb 0).inertia.app ((1 / dt) • (⟨⟨x, 0, 0⟩, 0⟩ : Motion)) =
        ⟨⟨x / dt, 0, 0⟩, 0⟩ := by
      show ball.app _ = _
      ext <;> simp [ball, Inertia.app]
      ring
    rw [e] at this ⊢
    refine Eq.trans ?_ this
    simp [Motion.dot]
  have hc0 : b.candidate E (fun _ => 0) dt (fun _ => none) false 0 0 = b.pos 0 + dt * b.vel 0 := by
    simp only [candidate]
    rw [h.fd hl hr.reach]
    ring
  have hdef : b.defect E (fun _ => 0) dt (fun _ => none) false
      (b.candidate E (fun _ => 0) dt (fun _ => none) false 0) 0 = 0 := by
    unfold Body.defect
    rw [discreteID_own hr _ _ _ _ 0 (by rw [h.dof]; exact Nat.one_pos)]
    unfold discreteSpec Sys.genForce
    rw [show b.fresh.n = 1 from h.dof, sum_range_one]
    beta_reduce
    rw [h.jw, h.disp, h.disp, h.twAt, hc0, hp]
    have a1 := hmom (b.pos 0 + dt * b.vel 0 - b.pos 0) (by rw [add_sub_cancel_left]; exact hv)
    have a2 := hmom (b.pos 0 - (b.pos 0 - dt * b.vel 0)) (by rw [sub_sub_cancel]; exact hv)
    simp [Iso.actF, Iso.inv, Motion.dot, Mat3.mulVec, Mat3.T] at a1 a2 ⊢
  have hA : b.Accepts E (fun _ => 0) dt (fun _ => none) o
      (b.candidate E (fun _ => 0) dt (fun _ => none) o.gravity 0) := by
    unfold Accepts
    rw [h.dof, sum_range_one, hg, hdef]
    simpa using he
  have hc : b.Converges E (fun _ => 0) dt (fun _ => none) o := ⟨0, hm, hA⟩
  obtain ⟨b', hs⟩ := C42_defined hr (fun _ => 0) dt (fun _ => none) o
  obtain ⟨k, x, -, hx, hmin, -, hst, so, hr'⟩ := C42_step hr hc hs
  have hk : k = 0 := by
    by_contra hk
    exact hmin 0 (Nat.pos_of_ne_zero hk) hA
  subst hk
  obtain ⟨s1, s2⟩ := hst 0 (by rw [h.dof]; exact Nat.one_pos)
  rw [hx, hg, hc0] at s1 s2
  refine ⟨hc, b', hs, s1, ?_, so, hr'⟩
  rw [s2, hp]
  field_simp
  ring

/-- The hypotheses of `C129_circulation` hold, with the logarithm of the group of rigid motions and
whatever size `ρ` of the moves it asks for, for a circle of states of a mass on a rail, for any number
of steps. -/
example (N : ℕ) : ∃ (b : Body) (d : Bool) (p : Prev), DReach extLog b d p ∧ b.AxesOK ∧ b.Massive ∧
    (∀ k < b.dof, b.load k = none) ∧ extLog.TrueLog ∧ b.dof = 1 ∧
    ∀ ρ > 0, ∃ (B : ℝ → ℕ → Body) (o : DIntOpts) (r : ℝ), 0 < r ∧
      (∀ s, StateOnly b (B s 0) ∧ ∃ d p, DReach extLog (B s 0) d p) ∧
      (∀ s, ∀ n < N, (B s n).Converges extLog (fun _ => 0) 1 (fun _ => none) o) ∧
      (∀ s, ∀ n < N, (B s n).discreteIntegrate extLog (fun _ => 0) 1 (fun _ => none) o =
        .ok (B s (n + 1))) ∧
      (∀ s, ∀ n ≤ N, ∀ i < b.dof, |(B s n).pos i| ≤ 1 + N) ∧
      (∀ s, ∀ n < N, ∀ i < b.dof, |(B s (n + 1)).pos i - (B s n).pos i| ≤ ρ) ∧
      (∀ n ≤ N, ∀ i < b.dof, ContDiff ℝ 1 fun s => (B s n).pos i) ∧
      (∀ n ≤ N, ∀ i < b.dof, (B 1 n).pos i = (B 0 n).pos i) ∧
      ∀ s n, (B s n).pos 0 = r * Real.cos (2 * Real.pi * s) + n * (r * Real.sin (2 * Real.pi * s)) := by
  have hR0 := cart_rail cache0
  have hr0 := cart_reach extLog cache0
  have z : ∀ {i : ℕ}, i < (cart cache0).dof → i = 0 := fun {i} hi => by rw [hR0.dof] at hi; omega
  refine ⟨cart cache0, _, _, hr0, ?_, (hR0.definite rfl).massive hr0.reach.inv.tree, fun _ _ => rfl,
    extLog_true, rfl, fun ρ hρ => ?_⟩
  · intro i hi
    rw [z hi]
    rfl
  obtain ⟨δ, hδ, H⟩ := rail_drift extLog_true
  obtain ⟨r, hr0', hrδ, hrρ, hr1⟩ : ∃ r : ℝ, 0 < r ∧ r < δ ∧ r ≤ ρ ∧ r ≤ 1 :=
    ⟨min (δ / 2) (min ρ 1), by positivity, (min_le_left _ _).trans_lt (by linarith),
      (min_le_right _ _).trans (min_le_left _ _), (min_le_right _ _).trans (min_le_right _ _)⟩
  set o : DIntOpts := ⟨false, 0.1, 1⟩ with ho
  let Q : Body → Prop := fun b => Rail b ∧ b.load 0 = none ∧ |b.vel 0| < δ ∧
    ∃ d p, DReach extLog b d p ∧ b.before p 1 0 = b.pos 0 - 1 * b.vel 0
  have step : ∀ s : {b // Q b}, ∃ s' : {b // Q b},
      s.1.Converges extLog (fun _ => 0) 1 (fun _ => none) o ∧
      s.1.discreteIntegrate extLog (fun _ => 0) 1 (fun _ => none) o = .ok s'.1 ∧
      s'.1.pos 0 = s.1.pos 0 + s.1.vel 0 ∧ s'.1.vel 0 = s.1.vel 0 := by
    rintro ⟨b, hR, hl, hv, d, p, hr, hp⟩
    obtain ⟨hc, b', hs, e1, e2, so, hr'⟩ := H hR hl hr one_ne_zero hp (by rwa [one_mul])
      (o := o) rfl (by norm_num [ho]) le_rfl
    rw [one_mul] at e1
    refine ⟨⟨b', hR.stateOnly so, by rw [so.load]; exact hl, by rw [e2]; exact hv, _, _, hr', ?_⟩,
      hc, hs, e1, e2⟩
    rw [show b'.before (some (1, b.pos)) 1 = b.pos from if_pos rfl, e1, e2]
    ring
  choose f hf using step
  have start : ∀ q v : ℝ, |v| < δ → ∃ b : {b // Q b}, StateOnly (cart cache0) b.1 ∧ b.1.pos 0 = q ∧
      b.1.vel 0 = v := by
    intro q v hv
    obtain ⟨b1, h1, -⟩ := setQ_total (b := cart cache0) (q := [q]) rfl
    have r1 := DReach.step (E := extLog) (b' := b1) (.setQ [q]) hr0 trivial
      (by unfold Op.exec; rw [show (Op.setQ [q]).step extLog (cart cache0) = .ok b1 from h1]) trivial
    have p1 : Op.prev (cart cache0) b1 none (.setQ [q]) = none := ite_self _
    rw [p1] at r1
    have so1 := setQ_stateOnly hr0.reach.inv.tree.lq h1
    have R1 := hR0.stateOnly so1
    obtain ⟨b2, h2, -⟩ := setDq_total (b := b1) (q := [v]) (by rw [R1.dof]; rfl)
    have r2 := DReach.step (E := extLog) (b' := b2) (.setDq [v]) r1 trivial
      (by unfold Op.exec; rw [show (Op.setDq [v]).step extLog b1 = .ok b2 from h2]) trivial
    have p2 : Op.prev b1 b2 none (.setDq [v]) = none := ite_self _
    rw [p2] at r2
    have so2 := setDq_stateOnly r1.reach.inv.tree.ldq h2
    have so := so1.trans so2
    have e1 : b2.pos 0 = q := by
      unfold Body.pos; rw [setDq_q h2, setQ_q h1]; rfl
    have e2 : b2.vel 0 = v := by unfold Body.vel; rw [setDq_dq h2]; rfl
    exact ⟨⟨b2, hR0.stateOnly so, by rw [so.load]; rfl, by rw [e2]; exact hv, _, _, r2, rfl⟩,
      so, e1, e2⟩
  have hsin : ∀ s, |r * Real.sin (2 * Real.pi * s)| ≤ r := fun s => by
    rw [abs_mul, abs_of_pos hr0']
    exact mul_le_of_le_one_right hr0'.le (Real.abs_sin_le_one _)
  have hcos : ∀ s, |r * Real.cos (2 * Real.pi * s)| ≤ r := fun s => by
    rw [abs_mul, abs_of_pos hr0']
    exact mul_le_of_le_one_right hr0'.le (Real.abs_cos_le_one _)
  choose b0 hb0 using fun s : ℝ => start (r * Real.cos (2 * Real.pi * s))
    (r * Real.sin (2 * Real.pi * s)) ((hsin s).trans_lt hrδ)
  have hpos : ∀ s n, (f^[n] (b0 s)).1.pos 0 =
      r * Real.cos (2 * Real.pi * s) + n * (r * Real.sin (2 * Real.pi * s)) ∧
      (f^[n] (b0 s)).1.vel 0 = r * Real.sin (2 * Real.pi * s) := by
    intro s n
    induction n with
    | zero => simpa using (hb0 s).2
    | succ n ih =>
      rw [Function.iterate_succ_apply', (hf _).2.2.1, (hf _).2.2.2, ih.1, ih.2]
      push_cast
      exact ⟨by ring, rfl⟩
  refine ⟨fun s n => (f^[n] (b0 s)).1, o, r, hr0', fun s => ⟨(hb0 s).1, ?_⟩, fun s n _ => (hf _).1,
    fun s n _ => ?_, ?_, ?_, ?_, ?_, fun s n => (hpos s n).1⟩
  · obtain ⟨-, -, -, d, p, h, -⟩ := (b0 s).2
    exact ⟨d, p, h⟩
  · beta_reduce
    rw [Function.iterate_succ_apply']
    exact (hf _).2.1
  · intro s n hn i hi
    rw [z hi, (hpos s n).1]
    have h1 : |(n : ℝ) * (r * Real.sin (2 * Real.pi * s))| ≤ N := by
      rw [abs_mul, Nat.abs_cast]
      have : (n : ℝ) ≤ N := Nat.cast_le.2 hn
      have h2 := (hsin s).trans hr1
      have n0 : (0 : ℝ) ≤ n := Nat.cast_nonneg n
      nlinarith [abs_nonneg (r * Real.sin (2 * Real.pi * s))]
    exact (abs_add_le _ _).trans (add_le_add ((hcos s).trans hr1) h1)
  · intro s n hn i hi
    rw [z hi, (hpos s n).1, (hpos s (n + 1)).1]
    push_cast
    rw [show ∀ a c : ℝ, a + ((n : ℝ) + 1) * c - (a + n * c) = c from fun a c => by ring]
    exact (hsin s).trans hrρ
  · intro n hn i hi
    rw [z hi]
    simp only [(hpos _ n).1]
    fun_prop
  · intro n hn i hi
    rw [z hi, (hpos _ n).1, (hpos _ n).1]
    simp

end SpatialDyn
