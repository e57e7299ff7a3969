import Verif.Lemmas.Converge
import Verif.Lemmas.LocalStep
import Verif.Spec.DiscreteFlow
import Verif.Props.RootFind

/-!
# Following a motion with inexact steps

Error growth of an Euler method whose steps are only approximately right.
-/

namespace SpatialDyn

namespace OneStep
open Set
open scoped ContDiff

variable {V : Type*} [NormedAddCommGroup V] [NormedSpace ℝ V] {F : V → V} {T : ℝ} {Y : ℝ → V}

/-- How the distance to a motion changes in a step, near the motion. -/
theorem track_step [ProperSpace V] [CompleteSpace V] (hF : ContDiff ℝ ∞ F) (hY : Solves F T Y) :
    ∃ R L C, 0 ≤ R ∧ 0 ≤ L ∧ 0 ≤ C ∧ (∀ t ∈ Icc 0 T, ‖Y t‖ ≤ R) ∧
      ∀ h t, 0 < h → h ≤ 1 → 0 ≤ t → t + h ≤ T → ∀ z z' : V, ‖z‖ ≤ R + 1 →
        ‖z' - Y (t + h)‖ ≤ (1 + L * h) * ‖z - Y t‖ + (C * h ^ 2 + ‖z' - (z + h • F z)‖) := by
  obtain ⟨R, hR⟩ := isCompact_Icc.exists_bound_of_continuousOn hY.cont
  have hR' : ∀ t ∈ Icc 0 T, ‖Y t‖ ≤ max R 0 := fun t ht => (hR t ht).trans (le_max_left _ _)
  obtain ⟨L, hL, hlip⟩ := lip_near (Φ := fun p : ℝ × V => F p.2)
    ((hF.of_le (by simp)).comp contDiff_snd) (max R 0 + 1)
  have hZ := hY.ladder hF
  have t0 := hZ.expand 0 1 (c := 1) zero_le_one le_rfl
  simp only [Finset.sum_range_succ, Finset.sum_range_zero, Nat.factorial, one_mul, zero_add,
    lie, id, pow_zero, pow_one, Nat.cast_one, div_one, one_smul] at t0
  obtain ⟨C, hC, hloc⟩ := t0
  refine ⟨max R 0, L, C, le_max_right _ _, hL, hC, hR', fun h t h0 h1 ht hT z z' hz => ?_⟩
  have e1 := hloc (t, h) ⟨ht, h0.le, h1, hT⟩
  have e2 := hlip h ⟨h0.le, h1⟩ z (Y t) hz ((hR' t ⟨ht, by linarith⟩).trans (by linarith))
  simp only at e1 e2
  have e3 : z' - Y (t + h) = (z - Y t) + h • (F z - F (Y t)) -
      (Y (t + h) - (Y t + h • F (Y t))) + (z' - (z + h • F z)) := by module
  have e4 : ‖h • (F z - F (Y t))‖ ≤ h * (L * ‖z - Y t‖) := by
    rw [norm_smul, Real.norm_eq_abs, abs_of_pos h0]
    exact mul_le_mul_of_nonneg_left e2 h0.le
  rw [e3]
  have e5 := norm_add_le ((z - Y t) + h • (F z - F (Y t)) - (Y (t + h) - (Y t + h • F (Y t))))
    (z' - (z + h • F z))
  have e6 := norm_sub_le ((z - Y t) + h • (F z - F (Y t))) (Y (t + h) - (Y t + h • F (Y t)))
  have e7 := norm_add_le (z - Y t) (h • (F z - F (Y t)))
  have e8 : ‖Y (t + h) - (Y t + h • F (Y t))‖ ≤ C * h ^ 2 := by simpa using e1
  nlinarith

/-- Accumulated error. -/
theorem track_sum {L h : ℝ} (hL : 0 ≤ L) (hh : 0 < h) {n : ℕ} (hn : n * h ≤ T) {σ : ℝ}
    (hσ : 0 ≤ σ) : n * (1 + L * h) ^ n * σ ≤ T * Real.exp (L * T) * (σ / h) := by
  have e1 : (1 + L * h) ^ n ≤ Real.exp (L * T) := by
    calc (1 + L * h) ^ n ≤ (Real.exp (L * h)) ^ n := by
          refine pow_le_pow_left₀ (by positivity) ?_ n
          linarith [Real.add_one_le_exp (L * h)]
      _ = Real.exp (n * (L * h)) := (Real.exp_nat_mul _ n).symm
      _ ≤ _ := Real.exp_le_exp.2 (by nlinarith)
  have e2 : n * (1 + L * h) ^ n * σ = n * h * (1 + L * h) ^ n * (σ / h) := by
    field_simp
  have hT : 0 ≤ T := le_trans (by positivity) hn
  rw [e2]
  have : 0 ≤ σ / h := div_nonneg hσ hh.le
  gcongr

end OneStep

namespace Body
open Finset
variable {E : Ext} {b : Body} {d : Bool}

/-- Position and last mean rate of a body. -/
noncomputable def track (b B : Body) (p : Prev) (dt : ℝ) : State b.dof :=
  (b.qv B, dt⁻¹ • b.lastMove B p dt)

/-- A step of `discrete::Integrate` from a bounded state is nearly an Euler step. -/
theorem discrete_euler (h : Reach E b d) (hd : b.Definite) (ha : b.AxesOK)
    (hl : ∀ k < b.dof, b.load k = none) (hE : E.NearLog2) (tau : ℕ → ℝ) (fext : FExt) (g : Bool)
    (M : ℝ) (hM : 0 ≤ M) : ∃ t0 > 0, t0 ≤ 1 ∧ ∃ C, 0 ≤ C ∧ ∀ eps > 0, ∃ N : ℕ,
      ∀ (B : Body) (dB : Bool) (p : Prev) (dt : ℝ) (o : DIntOpts), DReach E B dB p →
      StateOnly b B → ‖b.track B p dt‖ ≤ M → (∀ i < b.dof, |B.vel i| ≤ M) → 0 < dt → dt < t0 →
      o.gravity = g → o.epsV = eps → N ≤ o.maxIter →
      ∃ B', B.discreteIntegrate E tau dt fext o = .ok B' ∧ StateOnly b B' ∧
        DReach E B' true (some (dt, B.pos)) ∧
        ‖b.track B' (some (dt, B.pos)) dt - (b.track B p dt + dt • ((b.track B p dt).2,
          b.accAt b.g tau fext true g (b.track B p dt)))‖ ≤ C * (eps + dt ^ 2) ∧
        ‖(b.track B' (some (dt, B.pos)) dt).2 - (b.track B p dt).2‖ ≤ C * (eps + dt) ∧
        ∀ i : Fin b.dof, B'.vel i = ((b.track B' (some (dt, B.pos)) dt).2 i +
          (b.track B p dt).2 i) / 2 := by
  obtain ⟨t1, ht1, C1, ρ, -, H⟩ := root_uniform h hd ha hl hE.toNearLog tau fext g M
    (r := 1 / 2) (by norm_num) (by norm_num)
  set m := M + 2 * |C1| with hm
  have hm0 : 0 ≤ m := by positivity
  obtain ⟨t2, ht2, ht21, C2, hC2, HR⟩ := rates_bound h hd ha hl hE tau fext g m hm0
  refine ⟨min t1 t2, lt_min ht1 ht2, (min_le_right _ _).trans ht21, C2 + C2, by positivity,
    fun eps heps => ?_⟩
  have hlim : Filter.Tendsto (fun k : ℕ => C1 * (1 / 2 : ℝ) ^ k) Filter.atTop (nhds (C1 * 0)) :=
    (tendsto_pow_atTop_nhds_zero_of_lt_one (by norm_num) (by norm_num)).const_mul C1
  rw [mul_zero] at hlim
  obtain ⟨K, hK⟩ := (hlim.eventually (gt_mem_nhds heps)).exists
  refine ⟨K + 1, fun B dB p dt o hB hs hz hv h0 hdt hg he hN => ?_⟩
  subst hg he
  have hn := hs.same_dof
  have hdt1 : dt ≤ 1 := (hdt.le.trans (min_le_right _ _)).trans ht21
  have hq : ‖b.qv B‖ ≤ M := (norm_fst_le (b.track B p dt)).trans hz
  have hu : ‖dt⁻¹ • b.lastMove B p dt‖ ≤ M := (norm_snd_le (b.track B p dt)).trans hz
  have hback : dt • (dt⁻¹ • b.lastMove B p dt) = b.lastMove B p dt :=
    smul_inv_smul₀ h0.ne' _
  have hw : ∀ i < b.dof, |B.pos i| ≤ M ∧ |B.vel i| ≤ M ∧
      |B.pos i - B.before p dt i| ≤ M * dt := by
    intro i hi
    refine ⟨(norm_le_pi_norm (b.qv B) ⟨i, hi⟩).trans hq, hv i hi, ?_⟩
    have h2 := (norm_le_pi_norm (dt⁻¹ • b.lastMove B p dt) ⟨i, hi⟩).trans hu
    rw [Pi.smul_apply, smul_eq_mul, Real.norm_eq_abs, abs_mul, abs_of_pos (inv_pos.2 h0),
      inv_mul_le_iff₀ h0] at h2
    rw [mul_comm]
    exact h2
  obtain ⟨hdef, x, hx, hk, -, -⟩ := H B dB p dt hB hs hw h0 (hdt.trans_le (min_le_left _ _))
  have hc : B.Converges E tau dt fext o := ⟨K, by omega, by
    unfold Accepts
    rw [hn]
    exact (hdef K).trans_lt hK⟩
  obtain ⟨B', hst⟩ := C42_defined hB tau dt fext o
  obtain ⟨k, y, -, rfl, -, hacc, hpos, hso, hr⟩ := C42_step hB hc hst
  have hs' : StateOnly b B' := hs.trans hso
  refine ⟨B', hst, hs', hr, ?_⟩
  set X := B.candidate E tau dt fext o.gravity k with hX
  set u := dt⁻¹ • b.lastMove B p dt with hu'
  set Yv := dt⁻¹ • b.moveTo B X with hY'
  have hYb : dt • Yv = b.moveTo B X := smul_inv_smul₀ h0.ne' _
  have etr : b.track B p dt = (b.qv B, u) := rfl
  have epos : ∀ i : Fin b.dof, B'.pos i = X i := fun i =>
    (hpos i (lt_of_lt_of_eq i.2 hn.symm)).1
  have elast : b.lastMove B' (some (dt, B.pos)) dt = b.moveTo B X := by
    funext i
    show B'.pos i - (if dt = dt then B.pos else _) i = X i - B.pos i
    rw [if_pos rfl, epos i]
  have eqv : b.qv B' = b.qv B + dt • Yv := by
    rw [hYb]
    funext i
    show B'.pos i = B.pos i + (X i - B.pos i)
    rw [epos i]; ring
  have etr' : b.track B' (some (dt, B.pos)) dt = (b.qv B + dt • Yv, Yv) := by
    unfold track
    rw [elast, eqv]
  -- bounds of the rates
  have nY : ‖Yv‖ ≤ m := by
    refine (pi_norm_le_iff_of_nonneg hm0).2 fun i => ?_
    have h1 := (hx i i.2).2
    have h2 := hk k i i.2
    have h3 : |X i - B.pos i| ≤ 2 * |C1| * dt := by
      have h4 : C1 * dt * (1 / 2) ^ k ≤ |C1| * dt := by
        have h5 : ((1 : ℝ) / 2) ^ k ≤ 1 := pow_le_one₀ (by norm_num) (by norm_num)
        have h6 : (0 : ℝ) ≤ (1 / 2) ^ k := by positivity
        calc C1 * dt * (1 / 2) ^ k ≤ |C1| * dt * (1 / 2) ^ k := by
              gcongr; exact le_abs_self _
          _ ≤ |C1| * dt * 1 := by gcongr
          _ = _ := mul_one _
      have h7 : C1 * dt ≤ |C1| * dt := mul_le_mul_of_nonneg_right (le_abs_self _) h0.le
      have h8 := abs_add_le (X i - x i) (x i - B.pos i)
      rw [sub_add_sub_cancel] at h8
      rw [← hX] at h2
      linarith
    rw [hY', Pi.smul_apply, smul_eq_mul, Real.norm_eq_abs, abs_mul, abs_of_pos (inv_pos.2 h0),
      inv_mul_le_iff₀ h0]
    refine h3.trans ?_
    rw [mul_comm dt]
    exact mul_le_mul_of_nonneg_right (by rw [hm]; linarith) h0.le
  have mM : M ≤ m := by rw [hm]; linarith [abs_nonneg C1]
  set D : Fin b.dof → ℝ := fun i => B.defect E tau dt fext o.gravity X i with hD
  have nD : ‖D‖ ≤ o.epsV := by
    refine (pi_norm_le_iff_of_nonneg heps.le).2 fun i => ?_
    rw [hn] at hacc
    refine le_trans ?_ hacc.le
    rw [Real.norm_eq_abs, ← Real.sqrt_sq_eq_abs]
    exact Real.sqrt_le_sqrt (single_le_sum (f := fun j => B.defect E tau dt fext o.gravity X j ^ 2)
      (fun j _ => sq_nonneg _) (mem_range.2 i.2))
  have hbal : ∀ i, dt * D i = b.nextMom E (b.qv B, dt • Yv) i - b.prevMom E (b.qv B, dt • u) i +
      dt * dt * b.pull tau fext o.gravity (b.qv B) i := by
    intro i
    rw [hYb, hback]
    exact defect_mom hB hs hE.toNearLog h0.ne' X i
  obtain ⟨r1, r2⟩ := HR dt h0 (hdt.trans_le (min_le_right _ _)) (b.qv B) u Yv D (hq.trans mM)
    (hu.trans mM) nY hbal
  have r1' : ‖Yv - u‖ ≤ C2 * (o.epsV + dt) :=
    r1.trans (mul_le_mul_of_nonneg_left (by linarith) hC2)
  have r2' : ‖Yv - u - dt • b.accAt b.g tau fext true o.gravity (b.qv B, u)‖ ≤
      C2 * (o.epsV + dt ^ 2) := r2.trans (mul_le_mul_of_nonneg_left (by linarith) hC2)
  have w1 : 0 ≤ C2 * (o.epsV + dt) := by positivity
  have w2 : 0 ≤ C2 * (o.epsV + dt ^ 2) := by positivity
  rw [etr', etr]
  refine ⟨?_, ?_, fun i => ?_⟩
  · refine max_le ?_ ?_
    · show ‖b.qv B + dt • Yv - (b.qv B + dt • u)‖ ≤ _
      have e : b.qv B + dt • Yv - (b.qv B + dt • u) = dt • (Yv - u) := by module
      rw [e, norm_smul, Real.norm_of_nonneg h0.le]
      have h5 : dt * ‖Yv - u‖ ≤ dt * (C2 * (o.epsV + dt)) := mul_le_mul_of_nonneg_left r1' h0.le
      have h6 : dt * (C2 * (o.epsV + dt)) ≤ C2 * (o.epsV + dt ^ 2) := by
        have h7 : dt * o.epsV ≤ o.epsV := by nlinarith
        calc dt * (C2 * (o.epsV + dt)) = C2 * (dt * o.epsV + dt ^ 2) := by ring
          _ ≤ _ := mul_le_mul_of_nonneg_left (by linarith) hC2
      calc _ ≤ C2 * (o.epsV + dt ^ 2) := h5.trans h6
        _ ≤ _ := by rw [add_mul]; exact le_add_of_nonneg_left w2
    · show ‖Yv - (u + dt • b.accAt b.g tau fext true o.gravity (b.qv B, u))‖ ≤ _
      rw [← sub_sub]
      calc _ ≤ C2 * (o.epsV + dt ^ 2) := r2'
        _ ≤ _ := by rw [add_mul]; exact le_add_of_nonneg_left w2
  · calc _ ≤ C2 * (o.epsV + dt) := r1'
      _ ≤ _ := by rw [add_mul]; exact le_add_of_nonneg_left w1
  · have h5 := (hpos i (lt_of_lt_of_eq i.2 hn.symm)).2
    rw [h5]
    show (X i - B.before p dt i) / (2 * dt) =
      (dt⁻¹ * (X i - B.pos i) + dt⁻¹ * (B.pos i - B.before p dt i)) / 2
    have := h0.ne'
    field_simp
    ring

end Body
end SpatialDyn
