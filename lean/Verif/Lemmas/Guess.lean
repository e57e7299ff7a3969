import Verif.Lemmas.Track

/-!
# Steps that take the first guess

`discrete::Integrate` starts its root finding from a guess.  What happens when the guess is within the
tolerance at every step: the three-term recursion of the guesses, and the motion it follows.
-/

namespace SpatialDyn

namespace Guess
open Set OneStep
open scoped ContDiff

variable {n : ℕ}

/-- Position, mean rate over the last step, and velocity. -/
abbrev Mem (n : ℕ) := (Fin n → ℝ) × (Fin n → ℝ) × (Fin n → ℝ)

/-- One step that takes the guess: the velocity becomes the mean of the rates of the last two steps. -/
noncomputable def next (acc : State n → Fin n → ℝ) (dt : ℝ) (z : Mem n) : Mem n :=
  let v := z.2.2 + dt • acc (z.1, z.2.2)
  (z.1 + dt • v, v, (1 / 2 : ℝ) • (v + z.2.1))

/-- The combination of rate and velocity that the steps change by two thirds of the acceleration. -/
noncomputable def mean (z : Mem n) : State n := (z.1, (1 / 3 : ℝ) • (z.2.1 + (2 : ℝ) • z.2.2))

/-- The equations of motion with two thirds of the acceleration. -/
noncomputable def slow (acc : State n → Fin n → ℝ) (y : State n) : State n :=
  (y.2, (2 / 3 : ℝ) • acc y)

theorem slow_smooth {acc : State n → Fin n → ℝ} (hacc : ContDiff ℝ ∞ acc) :
    ContDiff ℝ ∞ (slow acc) := contDiff_snd.prodMk (hacc.const_smul (2 / 3 : ℝ))

theorem lip_vec {acc : State n → Fin n → ℝ} (hacc : ContDiff ℝ ∞ acc) (R : ℝ) :
    ∃ L, 0 ≤ L ∧ ∀ y z : State n, ‖y‖ ≤ R → ‖z‖ ≤ R → ‖acc y - acc z‖ ≤ L * ‖y - z‖ := by
  obtain ⟨L, hL, H⟩ := lip_near (Φ := fun p : ℝ × State n => ((0 : Fin n → ℝ), acc p.2))
    (contDiff_const.prodMk ((hacc.of_le (by simp)).comp contDiff_snd)) R
  refine ⟨L, hL, fun y z hy hz => ?_⟩
  have := H 0 ⟨le_rfl, zero_le_one⟩ y z hy hz
  exact (norm_snd_le (((0 : Fin n → ℝ), acc y) - (0, acc z))).trans this

theorem size_of {R A dt : ℝ} {y : State n} {z : Mem n} (hy : ‖y‖ ≤ R) (hz : ‖mean z - y‖ ≤ 1)
    (hu : ‖z.2.1 - z.2.2‖ ≤ A * dt) (hAd : A * dt ≤ 1) :
    ‖z‖ ≤ R + 2 ∧ ‖mean z‖ ≤ R + 1 ∧ ‖z.2.2 - (mean z).2‖ ≤ A * dt := by
  have h1 : ‖mean z‖ ≤ R + 1 := by
    have f1 := norm_add_le (mean z - y) y
    rw [sub_add_cancel] at f1
    linarith
  have e1 : z.2.2 - (mean z).2 = -((1 / 3 : ℝ) • (z.2.1 - z.2.2)) := by
    unfold mean; module
  have e2 : z.2.1 - (mean z).2 = (2 / 3 : ℝ) • (z.2.1 - z.2.2) := by
    unfold mean; module
  have n1 : ‖z.2.2 - (mean z).2‖ ≤ A * dt := by
    rw [e1, norm_neg, norm_smul, Real.norm_of_nonneg (by norm_num)]
    linarith [norm_nonneg (z.2.1 - z.2.2)]
  have n2 : ‖z.2.1 - (mean z).2‖ ≤ A * dt := by
    rw [e2, norm_smul, Real.norm_of_nonneg (by norm_num)]
    linarith [norm_nonneg (z.2.1 - z.2.2)]
  have m1 : ‖(mean z).1‖ ≤ R + 1 := (norm_fst_le _).trans h1
  have m2 : ‖(mean z).2‖ ≤ R + 1 := (norm_snd_le _).trans h1
  refine ⟨max_le (m1.trans (by linarith)) (max_le ?_ ?_), h1, n1⟩
  · have := norm_add_le (z.2.1 - (mean z).2) (mean z).2
    rw [sub_add_cancel] at this
    linarith
  · have := norm_add_le (z.2.2 - (mean z).2) (mean z).2
    rw [sub_add_cancel] at this
    linarith

theorem local_error {acc : State n → Fin n → ℝ} {A L dt : ℝ} {z : Mem n} (h0 : 0 < dt) (hA : 0 ≤ A)
    (hL : 0 ≤ L) (na : ‖acc (z.1, z.2.2)‖ ≤ A)
    (nl : ‖acc (z.1, z.2.2) - acc (mean z)‖ ≤ L * (A * dt))
    (s3 : ‖z.2.2 - (mean z).2‖ ≤ A * dt) :
    ‖mean (next acc dt z) - (mean z + dt • slow acc (mean z))‖ ≤ (2 * A + L * A) * dt ^ 2 := by
  have e1 : (mean (next acc dt z)).1 - ((mean z).1 + dt • (mean z).2) =
      dt • (z.2.2 - (mean z).2 + dt • acc (z.1, z.2.2)) := by
    show z.1 + dt • (z.2.2 + dt • acc (z.1, z.2.2)) - (z.1 + dt • (mean z).2) = _
    module
  have e2 : (mean (next acc dt z)).2 - ((mean z).2 + dt • ((2 / 3 : ℝ) • acc (mean z))) =
      dt • ((2 / 3 : ℝ) • (acc (z.1, z.2.2) - acc (mean z))) := by
    show (1 / 3 : ℝ) • ((z.2.2 + dt • acc (z.1, z.2.2)) + (2 : ℝ) • ((1 / 2 : ℝ) •
        ((z.2.2 + dt • acc (z.1, z.2.2)) + z.2.1))) -
      ((1 / 3 : ℝ) • (z.2.1 + (2 : ℝ) • z.2.2) + dt • ((2 / 3 : ℝ) • acc (mean z))) = _
    module
  have p1 : 0 ≤ L * A * dt ^ 2 := by positivity
  have p2 : 0 ≤ A * dt ^ 2 := by positivity
  refine max_le ?_ ?_
  · show ‖(mean (next acc dt z)).1 - ((mean z).1 + dt • (mean z).2)‖ ≤ _
    rw [e1, norm_smul, Real.norm_of_nonneg h0.le]
    have f1 := norm_add_le (z.2.2 - (mean z).2) (dt • acc (z.1, z.2.2))
    rw [norm_smul, Real.norm_of_nonneg h0.le] at f1
    have f2 : ‖z.2.2 - (mean z).2 + dt • acc (z.1, z.2.2)‖ ≤ 2 * A * dt := by
      have := mul_le_mul_of_nonneg_left na h0.le
      linarith
    have f3 := mul_le_mul_of_nonneg_left f2 h0.le
    linarith
  · show ‖(mean (next acc dt z)).2 - ((mean z).2 + dt • ((2 / 3 : ℝ) • acc (mean z)))‖ ≤ _
    rw [e2, norm_smul, norm_smul, Real.norm_of_nonneg h0.le, Real.norm_of_nonneg (by norm_num)]
    have f2 : (2 / 3 : ℝ) * ‖acc (z.1, z.2.2) - acc (mean z)‖ ≤ L * (A * dt) := by
      linarith [norm_nonneg (acc (z.1, z.2.2) - acc (mean z))]
    have f3 := mul_le_mul_of_nonneg_left f2 h0.le
    linarith

theorem spread_next {acc : State n → Fin n → ℝ} {A dt : ℝ} {z : Mem n} (h0 : 0 < dt)
    (na : ‖acc (z.1, z.2.2)‖ ≤ A) (hu : ‖z.2.1 - z.2.2‖ ≤ A * dt) :
    ‖(next acc dt z).2.1 - (next acc dt z).2.2‖ ≤ A * dt := by
  have e3 : (next acc dt z).2.1 - (next acc dt z).2.2 =
      (1 / 2 : ℝ) • (dt • acc (z.1, z.2.2) - (z.2.1 - z.2.2)) := by
    show (z.2.2 + dt • acc (z.1, z.2.2)) -
      (1 / 2 : ℝ) • ((z.2.2 + dt • acc (z.1, z.2.2)) + z.2.1) = _
    module
  rw [e3, norm_smul, Real.norm_of_nonneg (by norm_num)]
  have f1 := norm_sub_le (dt • acc (z.1, z.2.2)) (z.2.1 - z.2.2)
  rw [norm_smul, Real.norm_of_nonneg h0.le] at f1
  have := mul_le_mul_of_nonneg_left na h0.le
  linarith

/-- The steps follow the motion with two thirds of the acceleration. -/
theorem follow {acc : State n → Fin n → ℝ} (hacc : ContDiff ℝ ∞ acc) {T : ℝ} (hT : 0 ≤ T)
    {Y : ℝ → State n} (hY : Solves (slow acc) T Y) :
    ∃ t0 > 0, t0 ≤ 1 ∧ ∃ A M C, 0 ≤ A ∧ 0 ≤ M ∧ 0 ≤ C ∧ ∀ dt, 0 < dt → dt < t0 → ∀ k : ℕ, k * dt ≤ T →
      ∀ z, z = (next acc dt)^[k] ((Y 0).1, (Y 0).2, (Y 0).2) →
        ‖z‖ ≤ M ∧ ‖z.2.1 - z.2.2‖ ≤ A * dt ∧ ‖((z.1, z.2.2) : State n) - Y (k * dt)‖ ≤ C * dt := by
  obtain ⟨R, L, C0, hR0, hL0, hC0, hR, hstep⟩ := track_step (slow_smooth hacc) hY
  obtain ⟨A, hA0, hA⟩ := bounded_on hacc.continuous.norm (R + 2)
  obtain ⟨L1, hL1, hlip⟩ := lip_vec hacc (R + 2)
  have hA' : ∀ y : State n, ‖y‖ ≤ R + 2 → ‖acc y‖ ≤ A := fun y hy => by
    have := hA y hy
    rwa [abs_of_nonneg (norm_nonneg _)] at this
  set D := 2 * A + L1 * A with hD
  have hD0 : 0 ≤ D := by positivity
  set K := T * Real.exp (L * T) * (C0 + D) with hK
  have hK0 : 0 ≤ K := by positivity
  refine ⟨min (1 / (K + 1)) (1 / (A + 1)), lt_min (by positivity) (by positivity),
    (min_le_left _ _).trans ((div_le_one (by positivity)).2 (by linarith)), A, R + 2, K + A, hA0,
    by positivity, by positivity, fun dt h0 hdt => ?_⟩
  have hKd : K * dt ≤ 1 := by
    have := hdt.le.trans (min_le_left _ _)
    rw [le_div_iff₀ (by positivity)] at this
    nlinarith
  have hAd : A * dt ≤ 1 := by
    have := hdt.le.trans (min_le_right _ _)
    rw [le_div_iff₀ (by positivity)] at this
    nlinarith
  have hdt1 : dt ≤ 1 := by
    have := hdt.le.trans (min_le_right _ _)
    exact this.trans ((div_le_one (by positivity)).2 (by linarith))
  set σ := (C0 + D) * dt ^ 2 with hσ
  have hσ0 : 0 ≤ σ := by positivity
  have hLd : 1 ≤ 1 + L * dt := by nlinarith
  have hsum : ∀ k : ℕ, k * dt ≤ T → k * (1 + L * dt) ^ k * σ ≤ K * dt := by
    intro k hk
    refine (track_sum hL0 h0 hk hσ0).trans (le_of_eq ?_)
    rw [hσ, hK]
    have := h0.ne'
    field_simp
  -- the spread of the rates and the distance to the motion, and what they give
  have size : ∀ (k : ℕ) (z : Mem n), k * dt ≤ T → ‖mean z - Y (k * dt)‖ ≤ K * dt →
      ‖z.2.1 - z.2.2‖ ≤ A * dt → ‖z‖ ≤ R + 2 ∧ ‖mean z‖ ≤ R + 1 ∧
        ‖z.2.2 - (mean z).2‖ ≤ A * dt := fun k z hk hz hu =>
    size_of (hR (k * dt) ⟨by positivity, hk⟩) (hz.trans hKd) hu hAd
  have key : ∀ k : ℕ, k * dt ≤ T → ∀ z, z = (next acc dt)^[k] ((Y 0).1, (Y 0).2, (Y 0).2) →
      ‖mean z - Y (k * dt)‖ ≤ k * (1 + L * dt) ^ k * σ ∧ ‖z.2.1 - z.2.2‖ ≤ A * dt := by
    intro k
    induction k with
    | zero =>
      rintro - z rfl
      have e : mean (n := n) ((next acc dt)^[0] ((Y 0).1, (Y 0).2, (Y 0).2)) = Y 0 := by
        refine Prod.ext rfl ?_
        show (1 / 3 : ℝ) • ((Y 0).2 + (2 : ℝ) • (Y 0).2) = (Y 0).2
        module
      constructor
      · rw [e, Nat.cast_zero, zero_mul, zero_mul, sub_self, norm_zero]; simp
      · show ‖(Y 0).2 - (Y 0).2‖ ≤ _
        rw [sub_self, norm_zero]; positivity
    | succ k ih =>
      rintro hk z' rfl
      have hcast : ((k + 1 : ℕ) : ℝ) * dt = k * dt + dt := by push_cast; ring
      have hkT : k * dt + dt ≤ T := by rw [← hcast]; exact hk
      have hk0 : 0 ≤ (k : ℝ) * dt := by positivity
      rw [Function.iterate_succ_apply']
      generalize hz : (next acc dt)^[k] ((Y 0).1, (Y 0).2, (Y 0).2) = z at *
      obtain ⟨i1, i2⟩ := ih (by linarith) z rfl
      obtain ⟨s1, s2, s3⟩ := size k z (by linarith) (i1.trans (hsum k (by linarith))) i2
      have sw : ‖((z.1, z.2.2) : State n)‖ ≤ R + 2 :=
        max_le ((norm_fst_le z).trans s1) ((norm_snd_le z.2).trans ((norm_snd_le z).trans s1))
      have na := hA' _ sw
      have nl := hlip (z.1, z.2.2) (mean z) sw (s2.trans (by linarith))
      have e0 : ((z.1, z.2.2) : State n) - mean z = (0, z.2.2 - (mean z).2) := by
        refine Prod.ext ?_ rfl
        show z.1 - z.1 = 0
        exact sub_self _
      have n0 : ‖((z.1, z.2.2) : State n) - mean z‖ ≤ A * dt := by
        rw [e0]
        exact max_le (by rw [norm_zero]; positivity) s3
      have loc := local_error h0 hA0 hL1 na (nl.trans (mul_le_mul_of_nonneg_left n0 hL1)) s3
      rw [← hD] at loc
      constructor
      · have g1 := hstep dt (k * dt) h0 hdt1 hk0 hkT (mean z) (mean (next acc dt z)) s2
        rw [← hcast] at g1
        refine g1.trans ?_
        have g3 : C0 * dt ^ 2 + ‖mean (next acc dt z) - (mean z + dt • slow acc (mean z))‖ ≤ σ := by
          rw [hσ, add_mul]; exact add_le_add le_rfl loc
        have g4 : (1 + L * dt) * ‖mean z - Y (k * dt)‖ ≤
            (1 + L * dt) * (k * (1 + L * dt) ^ k * σ) :=
          mul_le_mul_of_nonneg_left i1 (by positivity)
        have g5 : σ ≤ (1 + L * dt) ^ (k + 1) * σ := le_mul_of_one_le_left hσ0 (one_le_pow₀ hLd)
        refine (add_le_add g4 (g3.trans g5)).trans (le_of_eq ?_)
        push_cast
        ring
      · exact spread_next h0 na i2
  intro k hk z hz
  obtain ⟨k1, k2⟩ := key k hk z hz
  obtain ⟨s1, -, s3⟩ := size k z hk (k1.trans (hsum k hk)) k2
  refine ⟨s1, k2, ?_⟩
  have k3 := k1.trans (hsum k hk)
  have e : ((z.1, z.2.2) : State n) - Y (k * dt) = (0, z.2.2 - (mean z).2) + (mean z - Y (k * dt)) := by
    refine Prod.ext ?_ ?_
    · show z.1 - (Y (k * dt)).1 = 0 + (z.1 - (Y (k * dt)).1)
      rw [zero_add]
    · show z.2.2 - (Y (k * dt)).2 = z.2.2 - (mean z).2 + ((mean z).2 - (Y (k * dt)).2)
      abel
  rw [e]
  refine (norm_add_le _ _).trans ?_
  have n0 : ‖((0, z.2.2 - (mean z).2) : State n)‖ ≤ A * dt :=
    max_le (by rw [norm_zero]; positivity) s3
  linarith

end Guess

namespace Body
open Finset Matrix
variable {E : Ext} {b : Body} {d : Bool}

/-- The defect of the first guess is of the order of the step, if the velocity is within that order
of the mean rate over the last step. -/
theorem guess_defect (h : Reach E b d) (hd : b.Definite) (ha : b.AxesOK)
    (hl : ∀ k < b.dof, b.load k = none) (hE : E.NearLog2) (tau : ℕ → ℝ) (fext : FExt) (g : Bool)
    {M A : ℝ} (hM : 0 ≤ M) (hA : 0 ≤ A) : ∃ t0 > 0, t0 ≤ 1 ∧ ∃ C, 0 ≤ C ∧
      ∀ (B : Body) (dB : Bool) (p : Prev) (dt : ℝ), DReach E B dB p → StateOnly b B →
      ‖b.track B p dt‖ ≤ M → ‖fun i : Fin b.dof => B.vel i‖ ≤ M →
      ‖(b.track B p dt).2 - fun i : Fin b.dof => B.vel i‖ ≤ A * dt → 0 < dt → dt < t0 →
      Real.sqrt (∑ i ∈ range b.dof, B.defect E tau dt fext g (B.candidate E tau dt fext g 0) i ^ 2) ≤
        C * dt := by
  obtain ⟨_, _, _, K2', _, _, hbd'⟩ := bounds_of h hd ha hl hE.toNearLog tau fext g M
    (r := 1 / 2) (by norm_num)
  set m := M + K2' with hm
  have hK2' := hbd'.nn2
  have hm0 : 0 ≤ m := by positivity
  obtain ⟨t1, ht1, ht11, C1, hC1, H1⟩ := balance_bound h.inv ha hl hE m
  obtain ⟨δ1, δ2, K1, K2, K3, K4, hbd⟩ := bounds_of h hd ha hl hE.toNearLog tau fext g m
    (r := 1 / 2) (by norm_num)
  have hK2 := hbd.nn2
  have hK3 := hbd.nn3
  set c := A + K2' with hc
  have hc0 : 0 ≤ c := by positivity
  refine ⟨t1, ht1, ht11, K3 * (c + K2) + b.dof * (C1 * (c + 1)), by positivity,
    fun B dB p dt hB hs hz hv hu h0 hdt => ?_⟩
  have hdt1 : dt ≤ 1 := hdt.le.trans ht11
  have hdet := hbd.det (b.qv B)
  set q := b.qv B with hq
  set u := (b.track B p dt).2 with hu'
  set v : Fin b.dof → ℝ := fun i => B.vel i with hv'
  set a := b.accAt b.g tau fext true g (q, v) with ha'
  set X := B.candidate E tau dt fext g 0 with hX
  have nq : ‖q‖ ≤ M := (norm_fst_le (b.track B p dt)).trans hz
  have nu : ‖u‖ ≤ M := (norm_snd_le (b.track B p dt)).trans hz
  have na : ‖a‖ ≤ K2' := hbd'.acc (q, v) (max_le nq hv)
  have emove : b.moveTo B X = dt • (v + dt • a) := by
    rw [hX, candidate_zero hd hB hs tau fext g, smul_add, smul_smul]
  set y := v + dt • a with hy
  have ny : ‖y‖ ≤ m := by
    have h1 := norm_add_le v (dt • a)
    rw [norm_smul, Real.norm_of_nonneg h0.le] at h1
    have h2 : dt * ‖a‖ ≤ K2' := by nlinarith [norm_nonneg a]
    linarith
  have nyu : ‖y - u‖ ≤ c * dt := by
    have e : y - u = dt • a - (u - v) := by rw [hy]; abel
    rw [e]
    have h1 := norm_sub_le (dt • a) (u - v)
    rw [norm_smul, Real.norm_of_nonneg h0.le] at h1
    have h2 := mul_le_mul_of_nonneg_left na h0.le
    have : c * dt = dt * K2' + A * dt := by rw [hc]; ring
    linarith
  have nq' : ‖q‖ ≤ m := nq.trans (by linarith)
  have nu' : ‖u‖ ≤ m := nu.trans (by linarith)
  have hback : dt • u = b.lastMove B p dt := smul_inv_smul₀ h0.ne' _
  have hbal : ∀ i : Fin b.dof, dt * B.defect E tau dt fext g X i = b.nextMom E (q, dt • y) i -
      b.prevMom E (q, dt • u) i + dt * dt * b.pull tau fext g q i := by
    intro i
    rw [hback, ← emove]
    exact defect_mom hB hs hE.toNearLog h0.ne' X i
  have hb := H1 dt h0 hdt q u y nq' nu' ny
  -- the sum of the mass and velocity terms
  set w := y - u - dt • b.accAt b.g tau fext true g (q, u) with hw
  have hMw : ∀ i, (b.massAt q *ᵥ w) i = (b.massAt q *ᵥ (y - u)) i +
      dt * (b.quad (q, u, u) i + b.pull tau fext g q i) := by
    intro i
    rw [hw, accAt_quad h.inv hl, smul_neg, sub_neg_eq_add, Matrix.mulVec_add, ← Matrix.mulVec_smul,
      Matrix.mulVec_mulVec, Matrix.mul_nonsing_inv _ hdet, Matrix.one_mulVec]
    rfl
  have hdi : ∀ i : Fin b.dof, |B.defect E tau dt fext g X i| ≤
      |(b.massAt q *ᵥ w) i| + C1 * (c + 1) * dt := by
    intro i
    have h1 := hb i
    have e1 : b.nextMom E (q, dt • y) i - b.prevMom E (q, dt • u) i -
        (dt * (b.massAt q *ᵥ (y - u)) i + dt ^ 2 * b.quad (q, u, u) i) =
        dt * (B.defect E tau dt fext g X i - (b.massAt q *ᵥ w) i) := by
      rw [hMw]
      have := hbal i
      linarith
    rw [e1, abs_mul, abs_of_pos h0] at h1
    have h2 : ‖y - u‖ + dt ≤ (c + 1) * dt := by linarith
    have h3 : C1 * dt ^ 2 * (‖y - u‖ + dt) ≤ C1 * dt ^ 2 * ((c + 1) * dt) :=
      mul_le_mul_of_nonneg_left h2 (by positivity)
    have h4 : C1 * dt ^ 2 * ((c + 1) * dt) ≤ dt * (C1 * (c + 1) * dt) := by
      have : 0 ≤ C1 * (c + 1) * dt ^ 2 := by positivity
      nlinarith
    have h5 : |B.defect E tau dt fext g X i - (b.massAt q *ᵥ w) i| ≤ C1 * (c + 1) * dt :=
      le_of_mul_le_mul_left (h1.trans (h3.trans h4)) h0
    have h6 := abs_add_le (B.defect E tau dt fext g X i - (b.massAt q *ᵥ w) i) ((b.massAt q *ᵥ w) i)
    rw [sub_add_cancel] at h6
    linarith
  have nw : ‖w‖ ≤ (c + K2) * dt := by
    have h1 := norm_sub_le (y - u) (dt • b.accAt b.g tau fext true g (q, u))
    rw [norm_smul, Real.norm_of_nonneg h0.le] at h1
    have h2 := mul_le_mul_of_nonneg_left (hbd.acc (q, u) (max_le nq' nu')) h0.le
    linarith
  have hsum : ∑ i : Fin b.dof, |B.defect E tau dt fext g X i| ≤
      (K3 * (c + K2) + b.dof * (C1 * (c + 1))) * dt := by
    refine (sum_le_sum fun i _ => hdi i).trans ?_
    rw [sum_add_distrib, sum_const, card_univ, Fintype.card_fin, nsmul_eq_mul]
    have h1 := (hbd.mass q nq' w).trans (mul_le_mul_of_nonneg_left nw hK3)
    linarith
  have hs0 : 0 ≤ ∑ i ∈ range b.dof, |B.defect E tau dt fext g X i| :=
    sum_nonneg fun _ _ => abs_nonneg _
  have hcon : ∑ i ∈ range b.dof, |B.defect E tau dt fext g X i| =
      ∑ i : Fin b.dof, |B.defect E tau dt fext g X i| :=
    (Fin.sum_univ_eq_sum_range (fun i => |B.defect E tau dt fext g X i|) b.dof).symm
  refine le_trans ?_ hsum
  rw [← hcon]
  refine Real.sqrt_le_iff.2 ⟨hs0, ?_⟩
  have := sum_sq_le_sq_sum_of_nonneg (s := range b.dof)
    (f := fun i => |B.defect E tau dt fext g X i|) (fun i _ => abs_nonneg _)
  simpa only [sq_abs] using this

/-- A step that takes the guess. -/
theorem guess_step (hd : b.Definite) {B : Body} {dB : Bool} {p : Prev}
    {dt : ℝ} (hB : DReach E B dB p) (hs : StateOnly b B) (h0 : 0 < dt) {tau : ℕ → ℝ} {fext : FExt}
    {o : DIntOpts} (ho : 0 < o.maxIter)
    (hA : B.Accepts E tau dt fext o (B.candidate E tau dt fext o.gravity 0)) :
    ∃ B', B.discreteIntegrate E tau dt fext o = .ok B' ∧ StateOnly b B' ∧
      DReach E B' true (some (dt, B.pos)) ∧
      ((b.qv B', (b.track B' (some (dt, B.pos)) dt).2, fun i : Fin b.dof => B'.vel i) :
        Guess.Mem b.dof) =
      Guess.next (b.accAt b.g tau fext true o.gravity) dt
        (b.qv B, (b.track B p dt).2, fun i : Fin b.dof => B.vel i) := by
  obtain ⟨B', hst⟩ := C42_defined hB tau dt fext o
  obtain ⟨k, x, -, hx, hmin, -, hpos, hso, hr⟩ := C42_step hB ⟨0, ho, hA⟩ hst
  obtain rfl : k = 0 := by
    by_contra hk
    exact hmin 0 (Nat.pos_of_ne_zero hk) hA
  subst hx
  refine ⟨B', hst, hs.trans hso, hr, ?_⟩
  set X := B.candidate E tau dt fext o.gravity 0 with hX
  have hn := hs.same_dof
  have epos : ∀ i : Fin b.dof, B'.pos i = X i := fun i =>
    (hpos i (lt_of_lt_of_eq i.2 hn.symm)).1
  have emove : b.moveTo B X = dt • (fun i : Fin b.dof => B.vel i) + (dt * dt) •
      b.accAt b.g tau fext true o.gravity (b.qv B, fun i => B.vel i) :=
    candidate_zero hd hB hs tau fext o.gravity
  have hne := h0.ne'
  refine Prod.ext ?_ (Prod.ext ?_ ?_)
  · funext i
    have := congrFun emove i
    simp only [moveTo, Pi.add_apply, Pi.smul_apply, smul_eq_mul] at this
    show B'.pos i = B.pos i + dt * (B.vel i + dt * _)
    rw [epos i]
    linarith
  · funext i
    have := congrFun emove i
    simp only [moveTo, Pi.add_apply, Pi.smul_apply, smul_eq_mul] at this
    show dt⁻¹ * (B'.pos i - (if dt = dt then B.pos else _) i) = B.vel i + dt * _
    rw [if_pos rfl, epos i, this]
    field_simp
  · funext i
    have := congrFun emove i
    simp only [moveTo, Pi.add_apply, Pi.smul_apply, smul_eq_mul] at this
    have h5 := (hpos i (lt_of_lt_of_eq i.2 hn.symm)).2
    show B'.vel i = (1 / 2) * ((B.vel i + dt * _) + dt⁻¹ * (B.pos i - B.before p dt i))
    rw [h5]
    have e : X i - B.before p dt i = (X i - B.pos i) + (B.pos i - B.before p dt i) := by ring
    rw [e, this]
    field_simp

/-- Repeated steps with a given tolerance follow the motion with two thirds of the acceleration. -/
theorem guess_follow (h : DReach E b d none) (hd : b.Definite) (ha : b.AxesOK)
    (hl : ∀ k < b.dof, b.load k = none) (hE : E.NearLog2) (tau : ℕ → ℝ) (fext : FExt)
    {o : DIntOpts} (he : 0 < o.epsV) (ho : 0 < o.maxIter) {T : ℝ} (hT : 0 ≤ T)
    {Y : ℝ → State b.dof} (hY : OneStep.Solves (Guess.slow (b.accAt b.g tau fext true o.gravity)) T Y)
    (hY0 : Y 0 = b.state) :
    ∃ t0 > 0, ∃ C, ∀ dt, 0 < dt → dt < t0 → ∀ k : ℕ, k * dt ≤ T →
      ∃ b', dsteps E tau dt fext o k b = .ok b' ∧ StateOnly b b' ∧ ∀ i : Fin b.dof,
        |b'.pos i - (Y (k * dt)).1 i| ≤ C * dt ∧ |b'.vel i - (Y (k * dt)).2 i| ≤ C * dt := by
  have hr := h.reach
  obtain ⟨t1, ht1, -, A, M, C, hA, hM, hC, H⟩ := Guess.follow
    (accAt_smooth hr hd b.g tau fext true o.gravity) hT hY
  obtain ⟨t2, ht2, -, K, hK, HK⟩ := guess_defect hr hd ha hl hE tau fext o.gravity hM hA
  refine ⟨min (min t1 t2) (o.epsV / (K + 1)), lt_min (lt_min ht1 ht2) (by positivity), C,
    fun dt h0 hdt => ?_⟩
  have hdt1 : dt < t1 := hdt.trans_le ((min_le_left _ _).trans (min_le_left _ _))
  have hdt2 : dt < t2 := hdt.trans_le ((min_le_left _ _).trans (min_le_right _ _))
  have heps : K * dt < o.epsV := by
    have := hdt.trans_le (min_le_right _ _)
    rw [lt_div_iff₀ (by positivity)] at this
    nlinarith
  have H' := H dt h0 hdt1
  have key : ∀ k : ℕ, k * dt ≤ T → ∃ (B : Body) (dB : Bool) (p : Prev),
      dsteps E tau dt fext o k b = .ok B ∧ DReach E B dB p ∧ StateOnly b B ∧
      ((b.qv B, (b.track B p dt).2, fun i : Fin b.dof => B.vel i) : Guess.Mem b.dof) =
        (Guess.next (b.accAt b.g tau fext true o.gravity) dt)^[k] ((Y 0).1, (Y 0).2, (Y 0).2) := by
    intro k
    induction k with
    | zero =>
      intro _
      refine ⟨b, d, none, rfl, h, ⟨rfl, rfl, rfl, rfl, rfl, rfl, rfl, rfl, rfl⟩, ?_⟩
      rw [hY0]
      refine Prod.ext rfl (Prod.ext (funext fun i => ?_) rfl)
      show dt⁻¹ * (b.pos i - (b.pos i - dt * b.vel i)) = b.vel i
      have := h0.ne'
      field_simp
      ring
    | succ k ih =>
      intro hk
      have hk' : (k : ℝ) * dt ≤ T := by
        refine le_trans ?_ hk
        push_cast
        nlinarith
      obtain ⟨B, dB, p, e1, e2, e3, e4⟩ := ih hk'
      obtain ⟨n1, n2, -⟩ := H' k hk' _ e4
      have nq : ‖b.qv B‖ ≤ M := (norm_fst_le _).trans n1
      have nt : ‖(b.track B p dt).2‖ ≤ M := (norm_fst_le _).trans ((norm_snd_le _).trans n1)
      have nv : ‖fun i : Fin b.dof => B.vel i‖ ≤ M := (norm_snd_le _).trans ((norm_snd_le _).trans n1)
      have acc := HK B dB p dt e2 e3 (max_le nq nt) nv n2 h0 hdt2
      obtain ⟨B', f1, f2, f3, f4⟩ := guess_step hd e2 e3 h0 (tau := tau) (fext := fext) ho (by
        unfold Accepts
        rw [e3.same_dof]
        exact acc.trans_lt heps)
      refine ⟨B', true, some (dt, B.pos), ?_, f3, f2, ?_⟩
      · show (match dsteps E tau dt fext o k b with
          | .ok b1 => b1.discreteIntegrate E tau dt fext o
          | .throws => .throws
          | .ub => .ub) = _
        rw [e1]
        exact f1
      · rw [Function.iterate_succ_apply', ← e4, f4]
  intro k hk
  obtain ⟨B, dB, p, e1, -, e3, e4⟩ := key k hk
  obtain ⟨-, -, n3⟩ := H' k hk _ e4
  refine ⟨B, e1, e3, fun i => ⟨?_, ?_⟩⟩
  · exact (norm_le_pi_norm (b.qv B - (Y (k * dt)).1) i).trans ((norm_fst_le _).trans n3)
  · exact (norm_le_pi_norm ((fun i : Fin b.dof => B.vel i) - (Y (k * dt)).2) i).trans
      ((norm_snd_le _).trans n3)

end Body
end SpatialDyn
