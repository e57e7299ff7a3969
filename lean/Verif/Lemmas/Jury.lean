import Mathlib.Analysis.SpecificLimits.Normed
import Mathlib.Analysis.SpecialFunctions.Pow.Real
import Mathlib.Tactic.Linarith
import Mathlib.Tactic.FieldSimp

/-!
# Second-order recursions that tend to zero

`x (n+2) = t x (n+1) - d x n` tends to zero from every start if and only if both roots of
`z² - t z + d` are inside the unit circle (Jury's conditions).
-/

namespace SpatialDyn
open Filter Topology

/-- `x (n+2) = t x (n+1) - d x n`. -/
def Rec2 (t d : ℝ) (x : ℕ → ℝ) : Prop := ∀ n, x (n + 2) = t * x (n + 1) - d * x n

theorem Rec2.complex {t d : ℝ} {x : ℕ → ℝ} (h : Rec2 t d x) (hd : d < 1) (hc : t ^ 2 < 4 * d) :
    Tendsto x atTop (𝓝 0) := by
  have hd0 : 0 ≤ d := by nlinarith [sq_nonneg t]
  set V : ℕ → ℝ := fun n => x (n + 1) ^ 2 - t * x (n + 1) * x n + d * x n ^ 2 with hV
  have hstep : ∀ n, V (n + 1) = d * V n := by
    intro n
    simp only [hV]
    rw [show n + 1 + 1 = n + 2 from rfl, h n]
    ring
  have hpow : ∀ n, V n = d ^ n * V 0 := by
    intro n
    induction n with
    | zero => simp
    | succ n ih => rw [hstep, ih, pow_succ]; ring
  have hc' : 0 < d - t ^ 2 / 4 := by linarith
  have hb : ∀ n, x n ^ 2 ≤ d ^ n * (V 0 / (d - t ^ 2 / 4)) := by
    intro n
    have h1 : (d - t ^ 2 / 4) * x n ^ 2 ≤ V n := by
      simp only [hV]
      nlinarith [sq_nonneg (x (n + 1) - t / 2 * x n)]
    rw [← mul_div_assoc, ← hpow, le_div_iff₀ hc']
    linarith
  have hz : Tendsto (fun n => d ^ n * (V 0 / (d - t ^ 2 / 4))) atTop (𝓝 0) := by
    have := (tendsto_pow_atTop_nhds_zero_of_lt_one hd0 hd).mul_const (V 0 / (d - t ^ 2 / 4))
    simpa using this
  have hsq : Tendsto (fun n => x n ^ 2) atTop (𝓝 0) :=
    squeeze_zero (fun n => sq_nonneg _) hb hz
  have := (Real.continuous_sqrt.tendsto 0).comp hsq
  rw [Real.sqrt_zero] at this
  refine (tendsto_zero_iff_abs_tendsto_zero x).2 (this.congr fun n => ?_)
  exact Real.sqrt_sq_eq_abs _

theorem Rec2.real {p m : ℝ} {x : ℕ → ℝ} (h : Rec2 (p + m) (p * m) x) (hp : |p| < 1) (hm : |m| < 1) :
    Tendsto x atTop (𝓝 0) := by
  obtain ⟨ρ, h1, h2⟩ := exists_between (max_lt hp hm)
  have hρ : 0 < ρ := lt_of_le_of_lt (le_max_of_le_left (abs_nonneg p)) h1
  have hp' : |p| ≤ ρ := (le_max_left _ _).trans h1.le
  have hm' : |m| ≤ ρ := (le_max_right _ _).trans h1.le
  set u : ℕ → ℝ := fun n => x (n + 1) - p * x n with hu
  have hstep : ∀ n, u (n + 1) = m * u n := by
    intro n
    simp only [hu]
    rw [show n + 1 + 1 = n + 2 from rfl, h n]
    ring
  have hub : ∀ n, |u n| ≤ ρ ^ n * |u 0| := by
    intro n
    induction n with
    | zero => simp
    | succ n ih =>
      rw [hstep, abs_mul, pow_succ, mul_comm (ρ ^ n), mul_assoc]
      exact mul_le_mul hm' ih (abs_nonneg _) hρ.le
  have hxb : ∀ n : ℕ, |x n| ≤ ρ ^ n * (|x 0| + n * (|u 0| / ρ)) := by
    intro n
    induction n with
    | zero => simp
    | succ n ih =>
      have e : x (n + 1) = p * x n + u n := by simp only [hu]; ring
      rw [e]
      refine (abs_add_le _ _).trans ?_
      rw [abs_mul]
      have g1 : |p| * |x n| ≤ ρ * (ρ ^ n * (|x 0| + n * (|u 0| / ρ))) :=
        mul_le_mul hp' ih (abs_nonneg _) hρ.le
      have g2 : ρ ^ n * |u 0| = ρ ^ (n + 1) * (|u 0| / ρ) := by
        rw [pow_succ]; field_simp
      refine (add_le_add g1 ((hub n).trans_eq g2)).trans_eq ?_
      push_cast
      ring
  have z1 := tendsto_pow_atTop_nhds_zero_of_lt_one hρ.le h2
  have z2 := tendsto_self_mul_const_pow_of_lt_one hρ.le h2
  have z : Tendsto (fun n : ℕ => ρ ^ n * (|x 0| + n * (|u 0| / ρ))) atTop (𝓝 0) := by
    have := (z1.mul_const |x 0|).add (z2.mul_const (|u 0| / ρ))
    simp only [zero_mul, add_zero] at this
    refine this.congr fun n => ?_
    ring
  exact (tendsto_zero_iff_abs_tendsto_zero x).2 (squeeze_zero (fun _ => abs_nonneg _) hxb z)

/-- Jury's conditions suffice. -/
theorem Rec2.tendsto {t d : ℝ} {x : ℕ → ℝ} (h : Rec2 t d x) (hd : d < 1) (h1 : 0 < 1 - t + d)
    (h2 : 0 < 1 + t + d) : Tendsto x atTop (𝓝 0) := by
  rcases lt_or_ge (t ^ 2) (4 * d) with hc | hc
  · exact h.complex hd hc
  · have hs : 0 ≤ t ^ 2 - 4 * d := by linarith
    set s := Real.sqrt (t ^ 2 - 4 * d) with hsdef
    have hss : s ^ 2 = t ^ 2 - 4 * d := Real.sq_sqrt hs
    have hs0 : 0 ≤ s := Real.sqrt_nonneg _
    have k1 : s < 2 - t := by
      rw [hsdef, Real.sqrt_lt' (by linarith)]
      nlinarith
    have k2 : s < 2 + t := by
      rw [hsdef, Real.sqrt_lt' (by linarith)]
      nlinarith
    refine Rec2.real (p := (t + s) / 2) (m := (t - s) / 2) ?_ ?_ ?_
    · intro n
      rw [h n]
      have e1 : (t + s) / 2 + (t - s) / 2 = t := by ring
      have e2 : (t + s) / 2 * ((t - s) / 2) = d := by nlinarith
      rw [e1, e2]
    · rw [abs_lt]; constructor <;> linarith
    · rw [abs_lt]; constructor <;> linarith

/-- A quantity multiplied by `l` at every step, `1 ≤ |l|`, tends to zero only if it is zero. -/
theorem geom_zero {l : ℝ} (hl : 1 ≤ |l|) {u : ℕ → ℝ} (hu : ∀ n, u (n + 1) = l * u n)
    (hz : Tendsto u atTop (𝓝 0)) : u 0 = 0 := by
  have hb : ∀ n, |u 0| ≤ |u n| := by
    intro n
    induction n with
    | zero => exact le_rfl
    | succ n ih =>
      rw [hu, abs_mul]
      exact ih.trans (le_mul_of_one_le_left (abs_nonneg _) hl)
  have := ge_of_tendsto ((tendsto_zero_iff_abs_tendsto_zero u).1 hz) (Eventually.of_forall hb)
  exact abs_nonpos_iff.1 this

/-- Error and rate of a joint under accelerations `-kp e - kv v` held over steps of length `dt`. -/
def PdRec (kp kv dt : ℝ) (e v : ℕ → ℝ) : Prop := ∀ n,
  e (n + 1) = e n + dt * v n + dt ^ 2 / 2 * (-kp * e n - kv * v n) ∧
  v (n + 1) = v n + dt * (-kp * e n - kv * v n)

variable {kp kv dt : ℝ} {e v : ℕ → ℝ}

theorem PdRec.rec2 (h : PdRec kp kv dt e v) :
    Rec2 (2 - kv * dt - kp * dt ^ 2 / 2) (1 - kv * dt + kp * dt ^ 2 / 2) e ∧
    Rec2 (2 - kv * dt - kp * dt ^ 2 / 2) (1 - kv * dt + kp * dt ^ 2 / 2) v := by
  constructor <;> intro n <;> obtain ⟨h1, h2⟩ := h n <;> obtain ⟨h3, h4⟩ := h (n + 1)
  · rw [show n + 2 = n + 1 + 1 from rfl, h3, h1, h2]; ring
  · rw [show n + 2 = n + 1 + 1 from rfl, h4, h1, h2]; ring

theorem PdRec.tendsto (h : PdRec kp kv dt e v) (hdt : 0 < dt) (h1 : 0 < kp) (h2 : kp * dt < 2 * kv)
    (h3 : kv * dt < 2) : Tendsto e atTop (𝓝 0) ∧ Tendsto v atTop (𝓝 0) := by
  have k1 : 0 < dt * (2 * kv - kp * dt) := mul_pos hdt (by linarith)
  have k2 : 0 < kp * dt ^ 2 := by positivity
  obtain ⟨r1, r2⟩ := h.rec2
  exact ⟨r1.tendsto (by nlinarith) (by nlinarith) (by nlinarith),
    r2.tendsto (by nlinarith) (by nlinarith) (by nlinarith)⟩

/-- The solution from a start. -/
noncomputable def pdSol (kp kv dt : ℝ) (z : ℝ × ℝ) : ℕ → ℝ × ℝ
  | 0 => z
  | n + 1 =>
    let w := pdSol kp kv dt z n
    (w.1 + dt * w.2 + dt ^ 2 / 2 * (-kp * w.1 - kv * w.2), w.2 + dt * (-kp * w.1 - kv * w.2))

theorem pdSol_rec (z : ℝ × ℝ) : PdRec kp kv dt (fun n => (pdSol kp kv dt z n).1)
    (fun n => (pdSol kp kv dt z n).2) := fun _ => ⟨rfl, rfl⟩

/-- A factor of the characteristic polynomial on or outside the unit circle. -/
theorem pd_root {p m : ℝ} (hdt : 0 < dt) (hs : p + m = 2 - kv * dt - kp * dt ^ 2 / 2)
    (hp : p * m = 1 - kv * dt + kp * dt ^ 2 / 2) (hl : 1 ≤ |p|)
    (h : ∀ z, Tendsto (fun n => (pdSol kp kv dt z n).1) atTop (𝓝 0) ∧
      Tendsto (fun n => (pdSol kp kv dt z n).2) atTop (𝓝 0)) : False := by
  have key : ∀ x : ℕ → ℝ, Rec2 (2 - kv * dt - kp * dt ^ 2 / 2) (1 - kv * dt + kp * dt ^ 2 / 2) x →
      Tendsto x atTop (𝓝 0) → x 1 = m * x 0 := by
    intro x hx hz
    have hu : ∀ n, (fun n => x (n + 1) - m * x n) (n + 1) = p * (fun n => x (n + 1) - m * x n) n := by
      intro n
      simp only
      rw [show n + 1 + 1 = n + 2 from rfl, hx n, ← hs, ← hp]
      ring
    have ht : Tendsto (fun n => x (n + 1) - m * x n) atTop (𝓝 0) := by
      have := ((tendsto_add_atTop_iff_nat 1).2 hz).sub (hz.const_mul m)
      simpa using this
    have : x 1 - m * x 0 = 0 := geom_zero hl hu ht
    linarith
  have g := fun z : ℝ × ℝ => key _ (pdSol_rec z).rec2.1 (h z).1
  have g' := fun z : ℝ × ℝ => key _ (pdSol_rec z).rec2.2 (h z).2
  have a1 := g (1, 0)
  have a2 := g' (1, 0)
  have a3 := g (0, 1)
  have a4 := g' (0, 1)
  simp only [pdSol] at a1 a2 a3 a4
  have b1 : kp = 0 := by
    have : dt * kp = 0 := by linarith
    rcases mul_eq_zero.1 this with h | h
    · exact absurd h hdt.ne'
    · exact h
  subst b1
  have b2 : kv * dt = 2 := by
    have : dt * (2 - kv * dt) = 0 := by linarith
    rcases mul_eq_zero.1 this with h | h
    · exact absurd h hdt.ne'
    · linarith
  nlinarith

/-- Exactly when every solution tends to zero. -/
theorem pd_iff (hdt : 0 < dt) :
    (∀ z, Tendsto (fun n => (pdSol kp kv dt z n).1) atTop (𝓝 0) ∧
      Tendsto (fun n => (pdSol kp kv dt z n).2) atTop (𝓝 0)) ↔
    0 < kp ∧ kp * dt < 2 * kv ∧ kv * dt < 2 := by
  refine ⟨fun h => ?_, fun h z => (pdSol_rec z).tendsto hdt h.1 h.2.1 h.2.2⟩
  set t := 2 - kv * dt - kp * dt ^ 2 / 2 with ht
  set d := 1 - kv * dt + kp * dt ^ 2 / 2 with hd
  have hdet : d < 1 := by
    by_contra hc
    have hu := geom_zero (l := d) (u := fun n =>
      (pdSol kp kv dt (1, 0) n).1 * (pdSol kp kv dt (0, 1) n).2 -
      (pdSol kp kv dt (0, 1) n).1 * (pdSol kp kv dt (1, 0) n).2)
      ((not_lt.1 hc).trans (le_abs_self d)) (fun n => by simp only [pdSol, hd]; ring)
      (by simpa using ((h (1, 0)).1.mul (h (0, 1)).2).sub ((h (0, 1)).1.mul (h (1, 0)).2))
    simp [pdSol] at hu
  have hroot : ∀ s : ℝ, s ^ 2 = t ^ 2 - 4 * d → 1 ≤ |(t + s) / 2| → False := fun s hs hl =>
    pd_root (p := (t + s) / 2) (m := (t - s) / 2) hdt (by rw [← ht]; ring)
      (by rw [← hd]; nlinarith) hl h
  refine ⟨?_, ?_, ?_⟩
  · by_contra hc
    have hk : kp * dt ^ 2 ≤ 0 := mul_nonpos_of_nonpos_of_nonneg (not_lt.1 hc) (sq_nonneg dt)
    have hp1 : 1 - t + d ≤ 0 := by rw [ht, hd]; linarith
    have hs : 0 ≤ t ^ 2 - 4 * d := by nlinarith [sq_nonneg (t - 2)]
    refine hroot (Real.sqrt (t ^ 2 - 4 * d)) (Real.sq_sqrt hs) ?_
    have : 2 - t ≤ Real.sqrt (t ^ 2 - 4 * d) := Real.le_sqrt_of_sq_le (by nlinarith)
    exact le_trans (by linarith) (le_abs_self _)
  · rw [hd] at hdet
    have : dt * (kp * dt) < dt * (2 * kv) := by nlinarith
    exact lt_of_mul_lt_mul_left this hdt.le
  · by_contra hc
    have hp1 : 1 + t + d ≤ 0 := by rw [ht, hd]; linarith
    have hs : 0 ≤ t ^ 2 - 4 * d := by nlinarith [sq_nonneg (t + 2)]
    refine hroot (-Real.sqrt (t ^ 2 - 4 * d)) (by rw [neg_sq, Real.sq_sqrt hs]) ?_
    have : 2 + t ≤ Real.sqrt (t ^ 2 - 4 * d) := Real.le_sqrt_of_sq_le (by nlinarith)
    exact le_trans (by linarith) (neg_le_abs _)

end SpatialDyn
