import Verif.Lemmas.OneStep
import Verif.Spec.Scheme

/-!
# Order of the methods of `Integrate`

Local errors of Heun's method (third power of the step) and of the classical Runge-Kutta method
(fifth power).
-/

namespace SpatialDyn.OneStep

open Set
open scoped ContDiff

variable {V : Type*} [NormedAddCommGroup V] [NormedSpace ℝ V] {F : V → V} {T : ℝ} {Y : ℝ → V}

theorem Ladder.expand {Z : ℕ → ℝ → V} (hZ : Ladder T Z) (k m : ℕ) {c : ℝ} (h0 : 0 ≤ c) (h1 : c ≤ 1) :
    O T (m + 1) fun p => Z k (p.1 + c * p.2) - ∑ j ∈ Finset.range (m + 1),
      ((c * p.2) ^ j / j.factorial : ℝ) • Z (k + j) p.1 := by
  obtain ⟨M, hM, hb⟩ := hZ.taylor m k
  refine ⟨M, hM, fun p hp => (hb p.1 p.2 hp.1 hp.2.2.2 (c * p.2)
    ⟨mul_nonneg h0 hp.2.1, mul_le_of_le_one_left hp.2.1 h1⟩).trans ?_⟩
  refine mul_le_mul_of_nonneg_left ?_ hM
  exact pow_le_pow_left₀ (mul_nonneg h0 hp.2.1) (mul_le_of_le_one_left hp.2.1 h1) _

theorem Ladder.bounded {Z : ℕ → ℝ → V} (hZ : Ladder T Z) (k : ℕ) {c : ℝ} (h0 : 0 ≤ c)
    (h1 : c ≤ 1) : O T 0 fun p => Z k (p.1 + c * p.2) := by
  obtain ⟨M, hM, hb⟩ := hZ.bound k
  refine ⟨M, hM, fun p hp => ?_⟩
  rw [pow_zero, mul_one]
  have e1 := mul_nonneg h0 hp.2.1
  have e2 := mul_le_of_le_one_left hp.2.1 h1
  exact hb _ ⟨by linarith [hp.1], by linarith [hp.2.2.2]⟩

theorem heun_eq (h : ℝ) (y : V) : heun F id h y =
    y + h • ((1 / 2 : ℝ) • F y + (1 / 2 : ℝ) • F (y + h • F y)) := by
  simp [heun, rkStep, rkSlopes, lin]

theorem rk4_eq (h : ℝ) (y : V) : rk4 F id h y =
    let k1 := F y
    let k2 := F (y + (h / 2) • k1)
    let k3 := F (y + (h / 2) • k2)
    let k4 := F (y + h • k3)
    y + (h / 6) • (k1 + (2 : ℝ) • k2 + (2 : ℝ) • k3 + k4) := by
  simp only [rk4, rkStep, rkSlopes, lin, id, List.cons_append, List.nil_append, add_zero, zero_smul,
    zero_add, one_smul, smul_smul]
  simp only [show h * (1 / 2) = h / 2 by ring]
  module

section Order
variable [ProperSpace V] (hF : ContDiff ℝ ∞ F) (hY : Solves F T Y)
include hF hY

theorem heun_local : O T 3 fun p => Y (p.1 + p.2) - heun F id p.2 (Y p.1) := by
  have hZ := hY.ladder hF
  -- Taylor expansions of the solution and of its velocity
  have t0 := hZ.expand 0 2 (c := 1) zero_le_one le_rfl
  have t1 := hZ.expand 0 1 (c := 1) zero_le_one le_rfl
  have t2 := hZ.expand 1 1 (c := 1) zero_le_one le_rfl
  simp only [Finset.sum_range_succ, Finset.sum_range_zero, Nat.factorial, one_mul, zero_add,
    lie_one, lie, id, pow_zero, pow_one, Nat.cast_one, div_one, one_smul] at t0 t1 t2
  have hQ := hZ.bounded 0 (c := 1) zero_le_one le_rfl
  simp only [one_mul, lie, id] at hQ
  -- the second slope
  have k2 : O T 2 fun p => F (Y p.1 + p.2 • F (Y p.1)) - F (Y (p.1 + p.2)) :=
    O.lip (hF.of_le (by simp)) hQ (t1.neg.congr fun p _ => by simp [lie_one])
  have e := (t0.sub ((((k2.add t2).smul (1 / 2)).step 1)))
  refine e.congr fun p _ => ?_
  rw [heun_eq]
  simp only [Nat.reduceAdd, Nat.cast_ofNat, Nat.reduceMul, pow_one, lie_one]
  simp [lie, lie_one]
  module

theorem simpson : O T 5 fun p => Y (p.1 + p.2) - (Y p.1 + (p.2 / 6) • (F (Y p.1) +
    (4 : ℝ) • F (Y (p.1 + 1 / 2 * p.2)) + F (Y (p.1 + p.2)))) := by
  have hZ := hY.ladder hF
  have t0 := hZ.expand 0 4 (c := 1) zero_le_one le_rfl
  have t1 := hZ.expand 1 3 (c := 1 / 2) (by norm_num) (by norm_num)
  have t2 := hZ.expand 1 3 (c := 1) zero_le_one le_rfl
  refine (t0.sub ((((t1.smul 4).add t2).smul (1 / 6)).step 1)).congr fun p _ => ?_
  simp only [Finset.sum_range_succ, Finset.sum_range_zero, Nat.factorial, one_mul, zero_add,
    lie_one, pow_zero, pow_one, Nat.cast_one, div_one, one_smul, Nat.reduceAdd]
  simp only [show lie F 0 = id from rfl, id]
  push_cast
  module

theorem rk4_local : O T 5 fun p => Y (p.1 + p.2) - rk4 F id p.2 (Y p.1) := by
  have hZ := hY.ladder hF
  have hF2 : ContDiff ℝ 2 F := contDiff_infty.1 hF 2
  have hF1 : ContDiff ℝ 1 (fderiv ℝ F) := hF2.fderiv_right (by norm_num)
  -- the solution at the middle and at the end of the step
  set P : ℝ × ℝ → V := fun p => Y (p.1 + 1 / 2 * p.2) with hP
  set Q : ℝ × ℝ → V := fun p => Y (p.1 + p.2) with hQ
  set y : ℝ × ℝ → V := fun p => Y p.1 with hy
  set y1 : ℝ × ℝ → V := fun p => F (Y p.1) with hy1
  set y2 : ℝ × ℝ → V := fun p => lie F 2 (Y p.1) with hy2
  set y3 : ℝ × ℝ → V := fun p => lie F 3 (Y p.1) with hy3
  set A : ℝ × ℝ → V →L[ℝ] V := fun p => fderiv ℝ F (P p) with hA
  have bP : O T 0 P := hZ.bounded 0 (c := 1 / 2) (by norm_num) (by norm_num)
  have bQ : O T 0 Q := (hZ.bounded 0 (c := 1) zero_le_one le_rfl).congr fun p _ => by
    simp [hQ, lie]
  have b2 : O T 0 y2 := (hZ.bounded 2 (c := 0) le_rfl zero_le_one).congr fun p _ => by
    simp [hy2]
  have b3 : O T 0 y3 := (hZ.bounded 3 (c := 0) le_rfl zero_le_one).congr fun p _ => by
    simp [hy3]
  have bA : O T 0 A := O.bdd hF1.continuous bP
  -- Taylor expansions
  have tP : O T 4 fun p => P p - (y p + (p.2 / 2) • y1 p + (p.2 ^ 2 / 8) • y2 p +
      (p.2 ^ 3 / 48) • y3 p) := by
    refine (hZ.expand 0 3 (c := 1 / 2) (by norm_num) (by norm_num)).congr fun p _ => ?_
    simp only [Finset.sum_range_succ, Finset.sum_range_zero, Nat.factorial, zero_add, lie_one,
      pow_zero, Nat.cast_one, Nat.reduceAdd, hP, hy, hy1, hy2, hy3]
    simp only [show lie F 0 = id from rfl, id]
    push_cast
    module
  have tQ : O T 4 fun p => Q p - (y p + p.2 • y1 p + (p.2 ^ 2 / 2) • y2 p +
      (p.2 ^ 3 / 6) • y3 p) := by
    refine (hZ.expand 0 3 (c := 1) zero_le_one le_rfl).congr fun p _ => ?_
    simp only [Finset.sum_range_succ, Finset.sum_range_zero, Nat.factorial, zero_add, lie_one,
      pow_zero, Nat.cast_one, Nat.reduceAdd, one_mul, hQ, hy, hy1, hy2, hy3]
    simp only [show lie F 0 = id from rfl, id]
    push_cast
    module
  have tF : O T 3 fun p => F (P p) - (y1 p + (p.2 / 2) • y2 p + (p.2 ^ 2 / 8) • y3 p) := by
    refine (hZ.expand 1 2 (c := 1 / 2) (by norm_num) (by norm_num)).congr fun p _ => ?_
    simp only [Finset.sum_range_succ, Finset.sum_range_zero, Nat.factorial, zero_add, lie_one,
      pow_zero, Nat.cast_one, Nat.reduceAdd, hP, hy1, hy2, hy3]
    push_cast
    module
  have tPQ : O T 1 fun p => Q p - P p := by
    have e1 := (hZ.expand 0 0 (c := 1) zero_le_one le_rfl)
    have e2 := (hZ.expand 0 0 (c := 1 / 2) (by norm_num) (by norm_num))
    refine (e1.sub e2).congr fun p _ => ?_
    simp [hP, hQ, lie]
  have tA : O T 1 fun p => fderiv ℝ F (Q p) - A p := O.lip hF1 bP tPQ
  -- second slope
  set s2 : ℝ × ℝ → V := fun p => y p + (p.2 / 2) • y1 p with hs2
  have d2 : O T 4 fun p => s2 p - P p + ((p.2 ^ 2 / 8) • y2 p + (p.2 ^ 3 / 48) • y3 p) :=
    tP.neg.congr fun p _ => by simp only [hs2]; module
  have m2 : O T 2 fun p => s2 p - P p := by
    refine (((d2.mono (by norm_num)).sub ((b2.step 2).smul (1 / 8))).sub
      (((b3.step 3).smul (1 / 48)).mono (by norm_num))).congr fun p _ => ?_
    module
  have k2 : O T 4 fun p => F (s2 p) - (F (P p) - (p.2 ^ 2 / 8) • A p (y2 p) -
      (p.2 ^ 3 / 48) • A p (y3 p)) := by
    refine ((O.quad hF2 bP m2).add ((bA.app d2).mono (by norm_num))).congr fun p _ => ?_
    simp only [map_add, map_smul, hA]
    module
  -- third slope
  set s3 : ℝ × ℝ → V := fun p => y p + (p.2 / 2) • F (s2 p) with hs3
  have d3 : O T 4 fun p => s3 p - P p - ((p.2 ^ 2 / 8) • y2 p + (p.2 ^ 3 / 24) • y3 p -
      (p.2 ^ 3 / 16) • A p (y2 p)) := by
    have e1 := (k2.step 1).smul (1 / 2)
    have e2 := (tF.step 1).smul (1 / 2)
    have e3 := ((bA.app b3).step 4).smul (1 / 96)
    refine ((((e1.mono (by norm_num)).add e2).sub e3).sub tP).congr fun p _ => ?_
    simp only [hs3]
    module
  have m3 : O T 2 fun p => s3 p - P p := by
    refine ((((d3.mono (by norm_num)).add ((b2.step 2).smul (1 / 8))).add
      (((b3.step 3).smul (1 / 24)).mono (by norm_num))).sub
      ((((bA.app b2).step 3).smul (1 / 16)).mono (by norm_num))).congr fun p _ => ?_
    module
  have k3 : O T 4 fun p => F (s3 p) - (F (P p) + (p.2 ^ 2 / 8) • A p (y2 p) +
      (p.2 ^ 3 / 24) • A p (y3 p) - (p.2 ^ 3 / 16) • A p (A p (y2 p))) := by
    refine ((O.quad hF2 bP m3).add ((bA.app d3).mono (by norm_num))).congr fun p _ => ?_
    simp only [map_add, map_sub, map_smul, hA]
    module
  -- fourth slope
  set s4 : ℝ × ℝ → V := fun p => y p + p.2 • F (s3 p) with hs4
  have d4 : O T 4 fun p => s4 p - Q p - ((p.2 ^ 3 / 8) • A p (y2 p) - (p.2 ^ 3 / 24) • y3 p) := by
    have e1 := k3.step 1
    have e2 := tF.step 1
    have e3 := ((bA.app b3).step 4).smul (1 / 24)
    have e4 := ((bA.app (bA.app b2)).step 4).smul (1 / 16)
    refine (((((e1.mono (by norm_num)).add e2).add e3).sub e4).sub tQ).congr fun p _ => ?_
    simp only [hs4]
    module
  have m4 : O T 3 fun p => s4 p - Q p := by
    refine (((d4.mono (by norm_num)).add (((bA.app b2).step 3).smul (1 / 8))).sub
      ((b3.step 3).smul (1 / 24))).congr fun p _ => ?_
    module
  have k4 : O T 4 fun p => F (s4 p) - (F (Q p) + (p.2 ^ 3 / 8) • A p (A p (y2 p)) -
      (p.2 ^ 3 / 24) • A p (y3 p)) := by
    have e1 := (O.quad hF2 bQ m4).mono (show 4 ≤ 3 + 3 by norm_num)
    have e2 := tA.app m4
    have e3 := bA.app d4
    refine ((e1.add e2).add (e3.mono (by norm_num))).congr fun p _ => ?_
    simp only [map_sub, map_smul, sub_apply]
    module
  -- the step
  have hS := simpson hF hY
  have e := ((((k2.smul 2).add (k3.smul 2)).add k4).step 1).smul (1 / 6)
  refine (hS.sub e).congr fun p _ => ?_
  have er : rk4 F id p.2 (Y p.1) = y p + (p.2 / 6) • (y1 p + (2 : ℝ) • F (s2 p) +
      (2 : ℝ) • F (s3 p) + F (s4 p)) := rk4_eq p.2 (Y p.1)
  rw [er]
  simp only [hP, hQ, hy, hy1]
  module

end Order

end SpatialDyn.OneStep
