import Verif.Spec.RoundDynamics
import Verif.Lemmas.Loops
import Verif.Lemmas.Spatial
import Mathlib.Analysis.SpecialFunctions.Trigonometric.Bounds

/-!
# Numbers computed with a small error

`Acc f x`: the numbers `f F p`, computed with the arithmetic `F` from the data `p`, are right up to a
constant times the error of one operation, for all data `p` at once.
-/

namespace SpatialDyn

variable {P : Type*}

/-- The computed `f` is `x` up to `K u`, where `K` depends neither on the arithmetic nor on the data; `x`
is bounded. -/
def Acc (f : Fl → P → ℝ) (x : P → ℝ) : Prop :=
  ∃ B K u0 : ℝ, 0 ≤ B ∧ 0 ≤ K ∧ 0 < u0 ∧ ∀ p, |x p| ≤ B ∧
    ∀ (F : Fl) (u l : ℝ), F.Within u l → u ≤ u0 → |f F p - x p| ≤ K * u

namespace Acc
variable {f g : Fl → P → ℝ} {x y : P → ℝ}

theorem const (c : ℝ) : Acc (fun (_ : Fl) (_ : P) => c) fun _ => c :=
  ⟨|c|, 0, 1, abs_nonneg c, le_rfl, one_pos, fun _ => ⟨le_rfl, fun F u l _ _ => by simp⟩⟩

/-- Data that is not computed. -/
theorem data {x : P → ℝ} {B : ℝ} (h : ∀ p, |x p| ≤ B) : Acc (fun _ p => x p) x :=
  ⟨|B|, 0, 1, abs_nonneg B, le_rfl, one_pos, fun p => ⟨(h p).trans (le_abs_self B),
    fun F u l _ _ => by simp⟩⟩

theorem neg (h : Acc f x) : Acc (fun F p => -f F p) fun p => -x p := by
  obtain ⟨B, K, u0, hB, hK, hu, h⟩ := h
  refine ⟨B, K, u0, hB, hK, hu, fun p => ⟨by rw [abs_neg]; exact (h p).1, fun F u l hF h0 => ?_⟩⟩
  have := (h p).2 F u l hF h0
  rwa [← abs_neg, show -(-f F p - -x p) = f F p - x p by ring]

theorem congr (h : Acc f x) (he : ∀ p, x p = y p) : Acc f y := by
  have : x = y := funext he
  rwa [← this]

/-- Replacing the computed numbers by close ones. -/
theorem close (h : Acc f x) {M u1 : ℝ} (hM : 0 ≤ M) (h1 : 0 < u1)
    (hc : ∀ p (F : Fl) (u l : ℝ), F.Within u l → u ≤ u1 → |g F p - f F p| ≤ M * u) : Acc g x := by
  obtain ⟨B, K, u0, hB, hK, hu, h⟩ := h
  refine ⟨B, K + M, min u0 u1, hB, by linarith, lt_min hu h1, fun p => ⟨(h p).1, fun F u l hF h0 => ?_⟩⟩
  have e1 := (h p).2 F u l hF (h0.trans (min_le_left _ _))
  have e2 := hc p F u l hF (h0.trans (min_le_right _ _))
  calc |g F p - x p| = |(g F p - f F p) + (f F p - x p)| := by ring_nf
    _ ≤ _ := abs_add_le _ _
    _ ≤ _ := by linarith

theorem bound (h : Acc f x) : ∃ M u1 : ℝ, 0 ≤ M ∧ 0 < u1 ∧ ∀ p (F : Fl) (u l : ℝ), F.Within u l → u ≤ u1 →
    |f F p| ≤ M := by
  obtain ⟨B, K, u0, hB, hK, hu, h⟩ := h
  refine ⟨B + K, u0, by linarith, hu, fun p F u l hF h0 => ?_⟩
  have e1 := (h p).2 F u l hF h0
  have e2 := hF.nonneg
  have : K * u ≤ K * 1 := mul_le_mul_of_nonneg_left (by linarith) hK
  calc |f F p| = |(f F p - x p) + x p| := by ring_nf
    _ ≤ _ := abs_add_le _ _
    _ ≤ _ := by linarith [(h p).1]

/-- Exact sums. -/
theorem add' (h : Acc f x) (h' : Acc g y) : Acc (fun F p => f F p + g F p) fun p => x p + y p := by
  obtain ⟨B, K, u0, hB, hK, hu, h⟩ := h
  obtain ⟨B', K', u0', hB', hK', hu', h'⟩ := h'
  refine ⟨B + B', K + K', min u0 u0', by linarith, by linarith, lt_min hu hu', fun p =>
    ⟨(abs_add_le _ _).trans (add_le_add (h p).1 (h' p).1), fun F u l hF h0 => ?_⟩⟩
  have e1 := (h p).2 F u l hF (h0.trans (min_le_left _ _))
  have e2 := (h' p).2 F u l hF (h0.trans (min_le_right _ _))
  calc _ = |(f F p - x p) + (g F p - y p)| := by ring_nf
    _ ≤ _ := abs_add_le _ _
    _ ≤ _ := by linarith

/-- Exact products. -/
theorem mul' (h : Acc f x) (h' : Acc g y) : Acc (fun F p => f F p * g F p) fun p => x p * y p := by
  obtain ⟨M, u1, hM, h1, hb⟩ := h.bound
  obtain ⟨B, K, u0, hB, hK, hu, h⟩ := h
  obtain ⟨B', K', u0', hB', hK', hu', h'⟩ := h'
  refine ⟨B * B', M * K' + K * B', min (min u0 u0') u1, by positivity, by positivity,
    lt_min (lt_min hu hu') h1, fun p =>
    ⟨by rw [abs_mul]; exact mul_le_mul (h p).1 (h' p).1 (abs_nonneg _) hB, fun F u l hF h0 => ?_⟩⟩
  have e0 := h0.trans (min_le_left _ _)
  have e1 := (h p).2 F u l hF (e0.trans (min_le_left _ _))
  have e2 := (h' p).2 F u l hF (e0.trans (min_le_right _ _))
  have e3 := hb p F u l hF (h0.trans (min_le_right _ _))
  have e4 := hF.nonneg.1
  calc |f F p * g F p - x p * y p| = |f F p * (g F p - y p) + (f F p - x p) * y p| := by ring_nf
    _ ≤ |f F p| * |g F p - y p| + |f F p - x p| * |y p| := by
        rw [← abs_mul, ← abs_mul]; exact abs_add_le _ _
    _ ≤ M * (K' * u) + K * u * B' :=
        add_le_add (mul_le_mul e3 e2 (abs_nonneg _) hM) (mul_le_mul e1 (h' p).1 (abs_nonneg _) (by positivity))
    _ = _ := by ring

theorem sub' (h : Acc f x) (h' : Acc g y) : Acc (fun F p => f F p - g F p) fun p => x p - y p := by
  simpa [sub_eq_add_neg] using h.add' h'.neg

theorem abs' (h : Acc f x) : Acc (fun F p => |f F p|) fun p => |x p| := by
  obtain ⟨B, K, u0, hB, hK, hu, h⟩ := h
  refine ⟨B, K, u0, hB, hK, hu, fun p => ⟨by rw [abs_abs]; exact (h p).1, fun F u l hF h0 => ?_⟩⟩
  exact (abs_abs_sub_abs_le_abs_sub _ _).trans ((h p).2 F u l hF h0)

/-- Replacing the computed numbers by numbers right up to `u` times a bounded number. -/
theorem rounded (h : Acc f x) {s : Fl → P → ℝ} {z : P → ℝ} (hs : Acc s z)
    (hc : ∀ p (F : Fl) (u l : ℝ), F.Within u l → |g F p - f F p| ≤ u * (s F p + 1)) : Acc g x := by
  obtain ⟨M, u1, hM, h1, hb⟩ := hs.bound
  refine h.close (M := M + 1) (by linarith) h1 fun p F u l hF h0 => (hc p F u l hF).trans ?_
  have e1 := hb p F u l hF h0
  have e2 := hF.nonneg.1
  rw [mul_comm]
  exact mul_le_mul_of_nonneg_right (by linarith [le_abs_self (s F p)]) e2

theorem add (h : Acc f x) (h' : Acc g y) :
    Acc (fun F p => F.add (f F p) (g F p)) fun p => x p + y p :=
  (h.add' h').rounded (h.add' h').abs' fun p F u l hF => (hF.add _ _).trans
    (mul_le_mul_of_nonneg_left (by linarith) hF.nonneg.1)

theorem sub (h : Acc f x) (h' : Acc g y) :
    Acc (fun F p => F.sub (f F p) (g F p)) fun p => x p - y p :=
  (h.sub' h').rounded (h.sub' h').abs' fun p F u l hF => (hF.sub _ _).trans
    (mul_le_mul_of_nonneg_left (by linarith) hF.nonneg.1)

theorem mul (h : Acc f x) (h' : Acc g y) :
    Acc (fun F p => F.mul (f F p) (g F p)) fun p => x p * y p :=
  (h.mul' h').rounded (h.mul' h').abs' fun p F u l hF => (hF.mul _ _).trans
    (mul_le_mul_of_nonneg_left (by linarith [hF.tiny.2]) hF.nonneg.1)

theorem lip (h : Acc f x) {φ : ℝ → ℝ} (hl : ∀ a b, |φ a - φ b| ≤ |a - b|) (hb : ∀ a, |φ a| ≤ 1) :
    Acc (fun F p => φ (f F p)) fun p => φ (x p) := by
  obtain ⟨B, K, u0, hB, hK, hu, h⟩ := h
  exact ⟨1, K, u0, zero_le_one, hK, hu, fun p => ⟨hb _, fun F u l hF h0 =>
    (hl _ _).trans ((h p).2 F u l hF h0)⟩⟩

theorem sin (h : Acc f x) : Acc (fun F p => F.sin (f F p)) fun p => Real.sin (x p) :=
  (h.lip Real.abs_sin_sub_sin_le Real.abs_sin_le_one).close (M := 1) (u1 := 1) zero_le_one one_pos
    fun p F u l hF _ => by simpa using hF.sin (f F p)

theorem cos (h : Acc f x) : Acc (fun F p => F.cos (f F p)) fun p => Real.cos (x p) :=
  (h.lip Real.abs_cos_sub_cos_le Real.abs_cos_le_one).close (M := 1) (u1 := 1) zero_le_one one_pos
    fun p F u l hF _ => by simpa using hF.cos (f F p)

/-- Exact reciprocals of numbers away from zero. -/
theorem inv' (h : Acc f x) {c : ℝ} (hc : 0 < c) (hx : ∀ p, c ≤ |x p|) :
    Acc (fun F p => (f F p)⁻¹) (fun p => (x p)⁻¹) ∧
      ∃ u1 : ℝ, 0 < u1 ∧ ∀ p (F : Fl) (u l : ℝ), F.Within u l → u ≤ u1 → f F p ≠ 0 := by
  obtain ⟨B, K, u0, hB, hK, hu, h⟩ := h
  have hK1 : 0 < K + 1 := by linarith
  have far : ∀ p (F : Fl) (u l : ℝ), F.Within u l → u ≤ min u0 (c / (2 * (K + 1))) →
      c / 2 ≤ |f F p| := by
    intro p F u l hF h0
    have e1 := (h p).2 F u l hF (h0.trans (min_le_left _ _))
    have e2 := h0.trans (min_le_right _ _)
    have e3 : K * u ≤ c / 2 := by
      have : (K + 1) * u ≤ c / 2 := by
        rw [le_div_iff₀ (by positivity)] at e2
        linarith
      nlinarith [hF.nonneg.1]
    have e4 := abs_sub_abs_le_abs_sub (x p) (f F p)
    rw [abs_sub_comm] at e4
    linarith [hx p]
  have hpos : 0 < min u0 (c / (2 * (K + 1))) := lt_min hu (by positivity)
  have nz : ∀ p (F : Fl) (u l : ℝ), F.Within u l → u ≤ min u0 (c / (2 * (K + 1))) → f F p ≠ 0 :=
    fun p F u l hF h0 => abs_pos.1 (lt_of_lt_of_le (by positivity) (far p F u l hF h0))
  refine ⟨⟨1 / c, 2 * K / c ^ 2, min u0 (c / (2 * (K + 1))), by positivity, by positivity, hpos,
    fun p => ⟨?_, fun F u l hF h0 => ?_⟩⟩, _, hpos, nz⟩
  · rw [abs_inv, ← one_div]
    exact one_div_le_one_div_of_le hc (hx p)
  · have n1 := nz p F u l hF h0
    have n2 : x p ≠ 0 := abs_pos.1 (lt_of_lt_of_le hc (hx p))
    have e1 := (h p).2 F u l hF (h0.trans (min_le_left _ _))
    have e2 := far p F u l hF h0
    rw [inv_sub_inv n1 n2, abs_div, abs_mul, abs_sub_comm]
    have e3 : c ^ 2 / 2 ≤ |f F p| * |x p| := by
      calc c ^ 2 / 2 = c / 2 * c := by ring
        _ ≤ _ := mul_le_mul e2 (hx p) hc.le (abs_nonneg _)
    calc |f F p - x p| / (|f F p| * |x p|) ≤ K * u / (c ^ 2 / 2) :=
          div_le_div₀ (mul_nonneg hK hF.nonneg.1) e1 (by positivity) e3
      _ = _ := by field_simp

theorem div (h : Acc f x) (h' : Acc g y) {c : ℝ} (hc : 0 < c) (hy : ∀ p, c ≤ |y p|) :
    Acc (fun F p => F.div (f F p) (g F p)) fun p => x p / y p := by
  obtain ⟨hi, u1, h1, hn⟩ := h'.inv' hc hy
  have hq : Acc (fun F p => f F p / g F p) fun p => x p / y p := by
    simpa [div_eq_mul_inv] using h.mul' hi
  obtain ⟨M, u2, hM, h2, hb⟩ := hq.bound
  refine hq.close (M := M + 1) (by linarith) (lt_min h1 h2) fun p F u l hF h0 => ?_
  refine (hF.div _ _ (hn p F u l hF (h0.trans (min_le_left _ _)))).trans ?_
  rw [mul_comm]
  have := hb p F u l hF (h0.trans (min_le_right _ _))
  exact mul_le_mul_of_nonneg_right (by linarith [hF.tiny.2]) hF.nonneg.1

end Acc

/-! ## Vectors -/

/-- Every entry of the vector. -/
structure AccV (f : Fl → P → Vec3) (w : P → Vec3) : Prop where
  x : Acc (fun F p => (f F p).x) fun p => (w p).x
  y : Acc (fun F p => (f F p).y) fun p => (w p).y
  z : Acc (fun F p => (f F p).z) fun p => (w p).z

/-- Every entry of the matrix, by rows. -/
structure AccA (f : Fl → P → Mat3) (x : P → Mat3) : Prop where
  r0 : AccV (fun F p => (f F p).row0) fun p => (x p).row0
  r1 : AccV (fun F p => (f F p).row1) fun p => (x p).row1
  r2 : AccV (fun F p => (f F p).row2) fun p => (x p).row2

structure AccM (f : Fl → P → Motion) (x : P → Motion) : Prop where
  lin : AccV (fun F p => (f F p).lin) fun p => (x p).lin
  ang : AccV (fun F p => (f F p).ang) fun p => (x p).ang

structure AccF (f : Fl → P → Force) (x : P → Force) : Prop where
  lin : AccV (fun F p => (f F p).lin) fun p => (x p).lin
  ang : AccV (fun F p => (f F p).ang) fun p => (x p).ang

structure AccT (f : Fl → P → Iso) (x : P → Iso) : Prop where
  R : AccA (fun F p => (f F p).R) fun p => (x p).R
  t : AccV (fun F p => (f F p).t) fun p => (x p).t

structure AccI (f : Fl → P → Inertia) (x : P → Inertia) : Prop where
  mass : Acc (fun F p => (f F p).mass) fun p => (x p).mass
  com : AccV (fun F p => (f F p).com) fun p => (x p).com
  Icom : AccA (fun F p => (f F p).Icom) fun p => (x p).Icom

/-- The mass stays away from zero. -/
def Heavy (x : P → Inertia) : Prop := ∃ c, 0 < c ∧ ∀ p, c ≤ (x p).mass

structure AccS (f : Fl → P → Mat6) (x : P → Mat6) : Prop where
  ll : AccA (fun F p => (f F p).ll) fun p => (x p).ll
  la : AccA (fun F p => (f F p).la) fun p => (x p).la
  al : AccA (fun F p => (f F p).al) fun p => (x p).al
  aa : AccA (fun F p => (f F p).aa) fun p => (x p).aa

theorem AccV.const (v : Vec3) : AccV (fun (_ : Fl) (_ : P) => v) fun _ => v :=
  ⟨.const _, .const _, .const _⟩
theorem AccA.const (v : Mat3) : AccA (fun (_ : Fl) (_ : P) => v) fun _ => v :=
  ⟨.const v.row0, .const v.row1, .const v.row2⟩
theorem AccM.const (v : Motion) : AccM (fun (_ : Fl) (_ : P) => v) fun _ => v :=
  ⟨.const _, .const _⟩
theorem AccF.const (v : Force) : AccF (fun (_ : Fl) (_ : P) => v) fun _ => v :=
  ⟨.const _, .const _⟩
theorem AccT.const (v : Iso) : AccT (fun (_ : Fl) (_ : P) => v) fun _ => v :=
  ⟨.const _, .const _⟩
theorem AccI.const (v : Inertia) : AccI (fun (_ : Fl) (_ : P) => v) fun _ => v :=
  ⟨.const _, .const _, .const _⟩

section vectors
variable {f g : Fl → P → Vec3} {x y : P → Vec3}

theorem Acc.dot (h : AccV f x) (h' : AccV g y) :
    Acc (fun F p => F.dot (f F p) (g F p)) fun p => (x p).dot (y p) :=
  (((h.x.mul' h'.x).add' (h.y.mul' h'.y)).add' (h.z.mul' h'.z)).rounded
    (((h.x.mul' h'.x).abs'.add' (h.y.mul' h'.y).abs').add' (h.z.mul' h'.z).abs')
    fun p F u l hF => (hF.dot _ _).trans
      (mul_le_mul_of_nonneg_left (by linarith [hF.tiny.2]) hF.nonneg.1)

theorem AccV.add (h : AccV f x) (h' : AccV g y) :
    AccV (fun F p => F.addVec (f F p) (g F p)) fun p => x p + y p :=
  ⟨h.x.add h'.x, h.y.add h'.y, h.z.add h'.z⟩

theorem AccV.sub (h : AccV f x) (h' : AccV g y) :
    AccV (fun F p => F.subVec (f F p) (g F p)) fun p => x p - y p :=
  ⟨h.x.sub h'.x, h.y.sub h'.y, h.z.sub h'.z⟩

theorem AccV.neg (h : AccV f x) : AccV (fun F p => -(f F p)) fun p => -(x p) :=
  ⟨h.x.neg, h.y.neg, h.z.neg⟩

theorem AccV.smul {c : Fl → P → ℝ} {a : P → ℝ} (hc : Acc c a) (h : AccV f x) :
    AccV (fun F p => F.smulVec (c F p) (f F p)) fun p => a p • x p :=
  ⟨hc.mul h.x, hc.mul h.y, hc.mul h.z⟩

theorem AccV.cross (h : AccV f x) (h' : AccV g y) :
    AccV (fun F p => F.cross (f F p) (g F p)) fun p => (x p).cross (y p) :=
  ⟨(h.y.mul h'.z).sub (h.z.mul h'.y), (h.z.mul h'.x).sub (h.x.mul h'.z),
    (h.x.mul h'.y).sub (h.y.mul h'.x)⟩

end vectors

section matrices
variable {f g : Fl → P → Mat3} {x y : P → Mat3} {v : Fl → P → Vec3} {w : P → Vec3}

theorem AccA.T (h : AccA f x) : AccA (fun F p => (f F p).T) fun p => (x p).T :=
  ⟨⟨h.r0.x, h.r1.x, h.r2.x⟩, ⟨h.r0.y, h.r1.y, h.r2.y⟩, ⟨h.r0.z, h.r1.z, h.r2.z⟩⟩

theorem AccA.mulVec (h : AccA f x) (h' : AccV v w) :
    AccV (fun F p => F.mulVec (f F p) (v F p)) fun p => (x p).mulVec (w p) :=
  ⟨Acc.dot h.r0 h', Acc.dot h.r1 h', Acc.dot h.r2 h'⟩

theorem AccA.mul (h : AccA f x) (h' : AccA g y) :
    AccA (fun F p => F.mulMat (f F p) (g F p)) fun p => x p * y p :=
  ⟨⟨Acc.dot h.r0 h'.T.r0, Acc.dot h.r0 h'.T.r1, Acc.dot h.r0 h'.T.r2⟩,
   ⟨Acc.dot h.r1 h'.T.r0, Acc.dot h.r1 h'.T.r1, Acc.dot h.r1 h'.T.r2⟩,
   ⟨Acc.dot h.r2 h'.T.r0, Acc.dot h.r2 h'.T.r1, Acc.dot h.r2 h'.T.r2⟩⟩

theorem AccA.add (h : AccA f x) (h' : AccA g y) :
    AccA (fun F p => F.addMat (f F p) (g F p)) fun p => x p + y p :=
  ⟨h.r0.add h'.r0, h.r1.add h'.r1, h.r2.add h'.r2⟩

theorem AccA.sub (h : AccA f x) (h' : AccA g y) :
    AccA (fun F p => F.subMat (f F p) (g F p)) fun p => x p - y p :=
  ⟨h.r0.sub h'.r0, h.r1.sub h'.r1, h.r2.sub h'.r2⟩

theorem AccA.smul {c : Fl → P → ℝ} {a : P → ℝ} (hc : Acc c a) (h : AccA f x) :
    AccA (fun F p => F.smulMat (c F p) (f F p)) fun p => a p • x p :=
  ⟨h.r0.smul hc, h.r1.smul hc, h.r2.smul hc⟩

theorem AccA.rowCross (h : AccA f x) (h' : AccV v w) :
    AccA (fun F p => F.rowCross (f F p) (v F p)) fun p => (x p).rowCross (w p) :=
  ⟨h.r0.cross h', h.r1.cross h', h.r2.cross h'⟩

theorem AccA.colCross (h : AccA f x) (h' : AccV v w) :
    AccA (fun F p => F.colCross (f F p) (v F p)) fun p => (x p).colCross (w p) :=
  have h0 := h.T.r0.cross h'
  have h1 := h.T.r1.cross h'
  have h2 := h.T.r2.cross h'
  ⟨⟨h0.x, h1.x, h2.x⟩, ⟨h0.y, h1.y, h2.y⟩, ⟨h0.z, h1.z, h2.z⟩⟩

theorem AccA.doubleCross (h : AccV v w) :
    AccA (fun F p => F.doubleCross (v F p)) fun p => SpatialDyn.doubleCross (w p) :=
  ⟨⟨(h.y.mul h.y).neg.sub (h.z.mul h.z), h.x.mul h.y, h.x.mul h.z⟩,
   ⟨h.x.mul h.y, (h.x.mul h.x).neg.sub (h.z.mul h.z), h.y.mul h.z⟩,
   ⟨h.x.mul h.z, h.y.mul h.z, (h.x.mul h.x).neg.sub (h.y.mul h.y)⟩⟩

end matrices

section spatial
variable {T S : Fl → P → Iso} {X Y : P → Iso} {m n : Fl → P → Motion} {x y : P → Motion}
  {f g : Fl → P → Force} {w z : P → Force} {I J : Fl → P → Inertia} {A B : P → Inertia}
  {c : Fl → P → ℝ} {a : P → ℝ}

theorem AccT.mul (h : AccT T X) (h' : AccT S Y) :
    AccT (fun F p => F.mulIso (T F p) (S F p)) fun p => X p * Y p :=
  ⟨h.R.mul h'.R, (h.R.mulVec h'.t).add h.t⟩

theorem AccT.inv (h : AccT T X) : AccT (fun F p => F.inv (T F p)) fun p => (X p).inv :=
  ⟨h.R.T, (h.R.T.mulVec h.t).neg⟩

theorem AccT.app {v : Fl → P → Vec3} {r : P → Vec3} (h : AccT T X) (h' : AccV v r) :
    AccV (fun F p => F.app (T F p) (v F p)) fun p => (X p).app (r p) :=
  (h.R.mulVec h').add h.t

theorem AccT.actM (h : AccT T X) (h' : AccM m x) :
    AccM (fun F p => F.actM (T F p) (m F p)) fun p => (X p).actM (x p) :=
  ⟨(h.R.mulVec h'.lin).sub ((h.R.mulVec h'.ang).cross h.t), h.R.mulVec h'.ang⟩

theorem AccT.actF (h : AccT T X) (h' : AccF f w) :
    AccF (fun F p => F.actF (T F p) (f F p)) fun p => (X p).actF (w p) :=
  ⟨h.R.mulVec h'.lin, (h.R.mulVec h'.ang).sub ((h.R.mulVec h'.lin).cross h.t)⟩

theorem AccM.add (h : AccM m x) (h' : AccM n y) :
    AccM (fun F p => F.addM (m F p) (n F p)) fun p => x p + y p :=
  ⟨h.lin.add h'.lin, h.ang.add h'.ang⟩

theorem AccM.sub (h : AccM m x) (h' : AccM n y) :
    AccM (fun F p => F.subM (m F p) (n F p)) fun p => x p - y p :=
  ⟨h.lin.sub h'.lin, h.ang.sub h'.ang⟩

theorem AccM.smul (hc : Acc c a) (h : AccM m x) :
    AccM (fun F p => F.smulM (c F p) (m F p)) fun p => a p • x p :=
  ⟨h.lin.smul hc, h.ang.smul hc⟩

theorem AccF.add (h : AccF f w) (h' : AccF g z) :
    AccF (fun F p => F.addF (f F p) (g F p)) fun p => w p + z p :=
  ⟨h.lin.add h'.lin, h.ang.add h'.ang⟩

theorem AccF.sub (h : AccF f w) (h' : AccF g z) :
    AccF (fun F p => F.subF (f F p) (g F p)) fun p => w p - z p :=
  ⟨h.lin.sub h'.lin, h.ang.sub h'.ang⟩

theorem AccF.smul (hc : Acc c a) (h : AccF f w) :
    AccF (fun F p => F.smulF (c F p) (f F p)) fun p => a p • w p :=
  ⟨h.lin.smul hc, h.ang.smul hc⟩

theorem Acc.four {c1 c2 c3 c4 c5 c6 c7 c8 : Fl → P → ℝ} {a1 a2 a3 a4 a5 a6 a7 a8 : P → ℝ}
    (h1 : Acc c1 a1) (h2 : Acc c2 a2) (h3 : Acc c3 a3) (h4 : Acc c4 a4) (h5 : Acc c5 a5)
    (h6 : Acc c6 a6) (h7 : Acc c7 a7) (h8 : Acc c8 a8) :
    Acc (fun F p => F.four (c1 F p) (c2 F p) (c3 F p) (c4 F p) (c5 F p) (c6 F p) (c7 F p) (c8 F p))
      fun p => a1 p * a2 p - a3 p * a4 p + a5 p * a6 p - a7 p * a8 p :=
  (((h1.mul h2).sub (h3.mul h4)).add (h5.mul h6)).sub (h7.mul h8)

theorem AccM.cross (h : AccM m x) (h' : AccM n y) :
    AccM (fun F p => F.crossM (m F p) (n F p)) fun p => (x p).crossM (y p) :=
  ⟨⟨.four h.lin.y h'.ang.z h.lin.z h'.ang.y h.ang.y h'.lin.z h.ang.z h'.lin.y,
    .four h.lin.z h'.ang.x h.lin.x h'.ang.z h.ang.z h'.lin.x h.ang.x h'.lin.z,
    .four h.lin.x h'.ang.y h.lin.y h'.ang.x h.ang.x h'.lin.y h.ang.y h'.lin.x⟩, h.ang.cross h'.ang⟩

theorem AccF.cross (h : AccM m x) (h' : AccF f w) :
    AccF (fun F p => F.crossF (m F p) (f F p)) fun p => (x p).crossF (w p) :=
  ⟨h.ang.cross h'.lin,
   ⟨.four h.lin.y h'.lin.z h.lin.z h'.lin.y h.ang.y h'.ang.z h.ang.z h'.ang.y,
    .four h.lin.z h'.lin.x h.lin.x h'.lin.z h.ang.z h'.ang.x h.ang.x h'.ang.z,
    .four h.lin.x h'.lin.y h.lin.y h'.lin.x h.ang.x h'.ang.y h.ang.y h'.ang.x⟩⟩

theorem Acc.dot6 (h : AccM m x) (h' : AccF f w) :
    Acc (fun F p => F.dot6 (m F p) (f F p)) fun p => (x p).dot (w p) := by
  have e := (((((h.lin.x.mul' h'.lin.x).add' (h.lin.y.mul' h'.lin.y)).add'
    (h.lin.z.mul' h'.lin.z)).add' (h.ang.x.mul' h'.ang.x)).add' (h.ang.y.mul' h'.ang.y)).add'
    (h.ang.z.mul' h'.ang.z)
  refine Acc.rounded e
    ((((((h.lin.x.mul' h'.lin.x).abs'.add' (h.lin.y.mul' h'.lin.y).abs').add'
    (h.lin.z.mul' h'.lin.z).abs').add' (h.ang.x.mul' h'.ang.x).abs').add' (h.ang.y.mul' h'.ang.y).abs').add'
    (h.ang.z.mul' h'.ang.z).abs') fun p F u l hF => ?_
  have h1 := hF.dot6 (m F p) (f F p)
  refine le_trans (le_of_eq ?_) (h1.trans (mul_le_mul_of_nonneg_left (by linarith [hF.tiny.2]) hF.nonneg.1))
  unfold Vec3.dot
  ring_nf

theorem AccI.app (h : AccI I A) (h' : AccM m x) :
    AccF (fun F p => F.appI (I F p) (m F p)) fun p => (A p).app (x p) :=
  ⟨(h'.lin.smul h.mass).add (h'.ang.cross (h.com.smul h.mass)),
   ((h.Icom.mulVec h'.ang).sub (h'.lin.cross (h.com.smul h.mass))).sub
    ((h'.ang.cross h.com).cross (h.com.smul h.mass))⟩

theorem AccI.act (h : AccT T X) (h' : AccI I A) :
    AccI (fun F p => F.actI (T F p) (I F p)) fun p => (X p).actI (A p) :=
  ⟨h'.mass, h.app h'.com, (h.R.mul h'.Icom).mul h.R.T⟩

theorem AccV.div {v : Fl → P → Vec3} {r : P → Vec3} (h : AccV v r) (hc : Acc c a) {e : ℝ} (he : 0 < e)
    (ha : ∀ p, e ≤ |a p|) :
    AccV (fun F p => F.divVec (v F p) (c F p)) fun p => (1 / a p) • r p :=
  ⟨(h.x.div hc he ha).congr fun p => by simp [div_eq_inv_mul],
   (h.y.div hc he ha).congr fun p => by simp [div_eq_inv_mul],
   (h.z.div hc he ha).congr fun p => by simp [div_eq_inv_mul]⟩

theorem Heavy.add (h : Heavy A) (h' : Heavy B) : Heavy fun p => (A p).add (B p) := by
  obtain ⟨c, hc, h⟩ := h
  obtain ⟨e, he, h'⟩ := h'
  exact ⟨c + e, by linarith, fun p => add_le_add (h p) (h' p)⟩

theorem Heavy.act (h : Heavy A) (X : P → Iso) : Heavy fun p => (X p).actI (A p) := h

theorem AccI.add_com (h : AccI I A) (h' : AccI J B) (hs : Heavy fun p => (A p).add (B p)) :
    AccV (fun F p => F.divVec (F.addVec (F.smulVec (I F p).mass (I F p).com)
      (F.smulVec (J F p).mass (J F p).com)) (F.add (I F p).mass (J F p).mass))
      fun p => ((A p).add (B p)).com := by
  obtain ⟨c, hc, hl⟩ := hs
  exact ((h.com.smul h.mass).add (h'.com.smul h'.mass)).div (h.mass.add h'.mass) hc
    fun p => (hl p).trans (le_abs_self _)

theorem AccI.add (h : AccI I A) (h' : AccI J B) (hs : Heavy fun p => (A p).add (B p)) :
    AccI (fun F p => F.addI (I F p) (J F p)) fun p => (A p).add (B p) :=
  have hc := h.add_com h' hs
  ⟨h.mass.add h'.mass, hc, ((h.Icom.add h'.Icom).sub (AccA.smul h.mass (.doubleCross (hc.sub h.com)))).sub
    (AccA.smul h'.mass (.doubleCross (hc.sub h'.com)))⟩

theorem AccA.congr {f : Fl → P → Mat3} {x y : P → Mat3} (h : AccA f x) (he : ∀ p, x p = y p) :
    AccA f y := by
  have : x = y := funext he
  rwa [← this]

theorem Mat3.add_sub_sub (a b c d : Mat3) : a + (b - c - d) = a + b - c - d := by
  ext <;> simp <;> ring

theorem AccI.addTo (h : AccI I A) (h' : AccI J B) (hs : Heavy fun p => (A p).add (B p)) :
    AccI (fun F p => F.addToI (I F p) (J F p)) fun p => (A p).add (B p) :=
  have hc := h.add_com h' hs
  ⟨h.mass.add h'.mass, hc, (h.Icom.add ((h'.Icom.sub (AccA.smul h.mass (.doubleCross (hc.sub h.com)))).sub
    (AccA.smul h'.mass (.doubleCross (hc.sub h'.com))))).congr fun p => by
      show _ = (A p).Icom + (B p).Icom - _ - _
      exact Mat3.add_sub_sub _ _ _ _⟩

end spatial

section six
variable {M N : Fl → P → Mat6} {A B : P → Mat6} {T : Fl → P → Iso} {X : P → Iso}
  {m : Fl → P → Motion} {x : P → Motion} {f : Fl → P → Force} {w : P → Force}

theorem AccF.congr {y : P → Force} (h : AccF f w) (he : ∀ p, w p = y p) : AccF f y := by
  have : w = y := funext he
  rwa [← this]

theorem AccI.matrix {I : Fl → P → Inertia} {J : P → Inertia} (h : AccI I J) :
    AccS (fun F p => F.matrixI (I F p)) fun p => (J p).matrix :=
  have z : Acc (fun (_ : Fl) (_ : P) => (0 : ℝ)) fun _ => 0 := .const 0
  have cx := h.mass.mul h.com.x
  have cy := h.mass.mul h.com.y
  have cz := h.mass.mul h.com.z
  have xx := h.com.x.mul h.com.x
  have yy := h.com.y.mul h.com.y
  have zz := h.com.z.mul h.com.z
  have xy := h.Icom.r0.y.sub (cx.mul h.com.y)
  have xz := h.Icom.r0.z.sub (cx.mul h.com.z)
  have yz := h.Icom.r1.z.sub (cy.mul h.com.z)
  ⟨⟨⟨h.mass, z, z⟩, ⟨z, h.mass, z⟩, ⟨z, z, h.mass⟩⟩,
   ⟨⟨z, cz, cy.neg⟩, ⟨cz.neg, z, cx⟩, ⟨cy, cx.neg, z⟩⟩,
   ⟨⟨z, cz.neg, cy⟩, ⟨cz, z, cx.neg⟩, ⟨cy.neg, cx, z⟩⟩,
   ⟨⟨h.Icom.r0.x.add (h.mass.mul (yy.add zz)), xy, xz⟩,
    ⟨xy, h.Icom.r1.y.add (h.mass.mul (xx.add zz)), yz⟩,
    ⟨xz, yz, h.Icom.r2.z.add (h.mass.mul (xx.add yy))⟩⟩⟩

theorem AccS.app (h : AccS M A) (h' : AccM m x) :
    AccF (fun F p => F.app6 (M F p) (m F p)) fun p => (A p).app (x p) :=
  have d (v w : P → Vec3) (a b : Fl → P → Vec3) (h1 : AccV a v) (h2 : AccV b w) :
      Acc (fun F p => F.dot6 (m F p) ⟨a F p, b F p⟩) fun p => (x p).dot ⟨v p, w p⟩ :=
    Acc.dot6 (f := fun F p => ⟨a F p, b F p⟩) (w := fun p => ⟨v p, w p⟩) h' ⟨h1, h2⟩
  AccF.congr (w := fun p => ⟨⟨(x p).dot ⟨(A p).ll.row0, (A p).la.row0⟩,
      (x p).dot ⟨(A p).ll.row1, (A p).la.row1⟩, (x p).dot ⟨(A p).ll.row2, (A p).la.row2⟩⟩,
      ⟨(x p).dot ⟨(A p).al.row0, (A p).aa.row0⟩,
      (x p).dot ⟨(A p).al.row1, (A p).aa.row1⟩, (x p).dot ⟨(A p).al.row2, (A p).aa.row2⟩⟩⟩)
    ⟨⟨d _ _ _ _ h.ll.r0 h.la.r0, d _ _ _ _ h.ll.r1 h.la.r1, d _ _ _ _ h.ll.r2 h.la.r2⟩,
     ⟨d _ _ _ _ h.al.r0 h.aa.r0, d _ _ _ _ h.al.r1 h.aa.r1, d _ _ _ _ h.al.r2 h.aa.r2⟩⟩
    fun p => by
      ext <;> simp [Mat6.app, Mat3.mulVec, Motion.dot, Mat3.row0, Mat3.row1, Mat3.row2] <;> ring

theorem AccS.add (h : AccS M A) (h' : AccS N B) :
    AccS (fun F p => F.add6 (M F p) (N F p)) fun p => A p + B p :=
  ⟨h.ll.add h'.ll, h.la.add h'.la, h.al.add h'.al, h.aa.add h'.aa⟩

theorem AccS.sub (h : AccS M A) (h' : AccS N B) :
    AccS (fun F p => F.sub6 (M F p) (N F p)) fun p => A p - B p :=
  ⟨h.ll.sub h'.ll, h.la.sub h'.la, h.al.sub h'.al, h.aa.sub h'.aa⟩

theorem AccS.act (h : AccT T X) (h' : AccS M A) :
    AccS (fun F p => F.actMat (T F p) (M F p)) fun p => (X p).actMat (A p) :=
  have ll := h'.ll.mul h.R.T
  have al := h'.al.mul h.R.T
  have la := (h'.la.mul h.R.T).sub (ll.rowCross h.t)
  have aa := (h'.aa.mul h.R.T).sub (al.rowCross h.t)
  have ll' := h.R.mul ll
  have la' := h.R.mul la
  ⟨ll', la', (h.R.mul al).sub (ll'.colCross h.t), (h.R.mul aa).sub (la'.colCross h.t)⟩

theorem Acc.outer_entry {a b d : Fl → P → ℝ} {x y e : P → ℝ} (ha : Acc a x) (hb : Acc b y)
    (hd : Acc d e) {c : ℝ} (hc : 0 < c) (he : ∀ p, c ≤ |e p|) :
    Acc (fun F p => F.mul (F.div (a F p) (d F p)) (b F p)) fun p => x p * y p / e p :=
  ((ha.div hd hc he).mul hb).congr fun p => by ring

theorem AccS.outerDiv {d : Fl → P → ℝ} {e : P → ℝ} (h : AccF f w) (hd : Acc d e) {c : ℝ} (hc : 0 < c)
    (he : ∀ p, c ≤ |e p|) :
    AccS (fun F p => F.outerDiv (f F p) (d F p)) fun p => Mat6.outerDiv (w p) (e p) :=
  have o (a b : Fl → P → Vec3) (x y : P → Vec3) (h1 : AccV a x) (h2 : AccV b y) :
      AccA (fun F p => F.outer (F.divVec (a F p) (d F p)) (b F p)) fun p =>
        ⟨(x p).x * (y p).x / e p, (x p).x * (y p).y / e p, (x p).x * (y p).z / e p,
         (x p).y * (y p).x / e p, (x p).y * (y p).y / e p, (x p).y * (y p).z / e p,
         (x p).z * (y p).x / e p, (x p).z * (y p).y / e p, (x p).z * (y p).z / e p⟩ :=
    ⟨⟨.outer_entry h1.x h2.x hd hc he, .outer_entry h1.x h2.y hd hc he, .outer_entry h1.x h2.z hd hc he⟩,
     ⟨.outer_entry h1.y h2.x hd hc he, .outer_entry h1.y h2.y hd hc he, .outer_entry h1.y h2.z hd hc he⟩,
     ⟨.outer_entry h1.z h2.x hd hc he, .outer_entry h1.z h2.y hd hc he, .outer_entry h1.z h2.z hd hc he⟩⟩
  ⟨o _ _ _ _ h.lin h.lin, o _ _ _ _ h.lin h.ang, o _ _ _ _ h.ang h.lin, o _ _ _ _ h.ang h.ang⟩

end six

/-! ## Choices and loops -/

section loops
variable {α : Type*}

theorem rel_ite (R : (Fl → P → α) → (P → α) → Prop) (b : Bool) {f g : Fl → P → α} {x y : P → α}
    (h1 : b = true → R f x) (h2 : b = false → R g y) :
    R (fun F p => if b then f F p else g F p) fun p => if b then x p else y p := by
  cases b
  · exact h2 rfl
  · exact h1 rfl

/-- Forward loops keep relations between computed and exact entries. -/
theorem fwd_rel (R : (Fl → P → α) → (P → α) → Prop) {N : ℕ}
    {f : Fl → P → (ℕ → α) → ℕ → α → α} {g : P → (ℕ → α) → ℕ → α → α}
    (hs : ∀ (a : Fl → P → ℕ → α) (c : P → ℕ → α),
      (∀ i < N, R (fun F p => a F p i) fun p => c p i) → ∀ i < N,
      R (fun F p => f F p (a F p) i (a F p i)) fun p => g p (c p) i (c p i))
    (n : ℕ) (hn : n ≤ N) {a0 : Fl → P → ℕ → α} {c0 : P → ℕ → α}
    (h0 : ∀ i < N, R (fun F p => a0 F p i) fun p => c0 p i) :
    ∀ i < N, R (fun F p => fwdLoop n (f F p) (a0 F p) i) fun p => fwdLoop n (g p) (c0 p) i := by
  induction n with
  | zero => exact h0
  | succ n ih =>
    have ih := ih (by omega)
    intro i hi
    simp only [fwdLoop_succ]
    by_cases h : i = n
    · subst h
      simp only [Function.update_self]
      exact hs _ _ ih i hi
    · simp only [Function.update_of_ne h]
      exact ih i hi

/-- Accumulation towards the root keeps relations; `good` holds of the exact entries. -/
theorem acc_rel (R : (Fl → P → α) → (P → α) → Prop) {par : ℕ → Option ℕ} {op' : Fl → α → α → α}
    {op : α → α → α} (hop : ∀ a b x y, R a x → R b y →
      R (fun F p => op' F (a F p) (b F p)) fun p => op (x p) (y p))
    {N : ℕ} (hN : ParLt N par) {f : Fl → P → ℕ → α → α} {g : P → ℕ → α → α} (good : ℕ → (P → α) → Prop)
    (hs : ∀ i < N, ∀ a x, R a x → good i x → R (fun F p => f F p i (a F p)) fun p => g p i (x p))
    (n : ℕ) (hn : n ≤ N) {a0 : Fl → P → ℕ → α} {c0 : P → ℕ → α}
    (h0 : ∀ i < N, R (fun F p => a0 F p i) fun p => c0 p i)
    (hg : ∀ i < n, good i fun p => accLoop op n par (g p) (c0 p) i) :
    ∀ i < N, R (fun F p => accLoop (op' F) n par (f F p) (a0 F p) i)
      fun p => accLoop op n par (g p) (c0 p) i := by
  have hmono : ∀ m ≤ N, ParLt m par := fun m hm i hi p hp => hN i (by omega) p hp
  induction n generalizing a0 c0 with
  | zero => exact h0
  | succ n ih =>
    have hlast : (fun p => accLoop op (n + 1) par (g p) (c0 p) n) = fun p => c0 p n :=
      funext fun p => accLoop_ge op (hmono _ hn) _ _ _ le_rfl
    have h1 := hg n (by omega)
    rw [hlast] at h1
    intro i hi
    simp only [accLoop_succ] at hg ⊢
    cases hp : par n with
    | none =>
      simp only [hp] at hg ⊢
      exact ih (by omega) h0 (fun i hi => hg i (by omega)) i hi
    | some q =>
      simp only [hp] at hg ⊢
      refine ih (by omega) (a0 := fun F p => accum (op' F) (a0 F p) q (f F p n (a0 F p n)))
        (c0 := fun p => accum op (c0 p) q (g p n (c0 p n))) (fun j hj => ?_)
        (fun i hi => hg i (by omega)) i hi
      simp only [accum]
      by_cases h : j = q
      · subst h
        simp only [Function.update_self]
        exact hop _ _ _ _ (h0 j hj) (hs n (by omega) _ _ (h0 n (by omega)) h1)
      · simp only [Function.update_of_ne h]
        exact h0 j hj

end loops
end SpatialDyn
