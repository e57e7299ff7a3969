import Verif.Spec.NearLog
import Verif.Lemmas.Smooth
import Mathlib.Analysis.Calculus.FDeriv.Add
import Mathlib.Analysis.Calculus.FDeriv.Mul
import Mathlib.Analysis.Calculus.ContDiff.RCLike

/-! Discrete momenta are strictly differentiable where the displacement is the identity. -/

namespace SpatialDyn

open Finset Filter Asymptotics Topology
open scoped ContDiff

/-! ## Sizes -/

section Size

theorem Vec3.size_nonneg (v : Vec3) : 0 ≤ v.size := by unfold Vec3.size; positivity
theorem Motion.size_nonneg (m : Motion) : 0 ≤ m.size :=
  add_nonneg m.lin.size_nonneg m.ang.size_nonneg
theorem Force.size_nonneg (f : Force) : 0 ≤ f.size :=
  add_nonneg f.lin.size_nonneg f.ang.size_nonneg
theorem Mat3.size_nonneg (A : Mat3) : 0 ≤ A.size := by unfold Mat3.size; positivity
theorem Iso.gap_nonneg (T U : Iso) : 0 ≤ T.gap U :=
  add_nonneg (Mat3.size_nonneg _) (Vec3.size_nonneg _)

theorem Vec3.size_add (u v : Vec3) : (u + v).size ≤ u.size + v.size := by
  unfold Vec3.size
  have h1 := abs_add_le u.x v.x
  have h2 := abs_add_le u.y v.y
  have h3 := abs_add_le u.z v.z
  simp only [Vec3.add_x, Vec3.add_y, Vec3.add_z]
  linarith

theorem Motion.size_add (m k : Motion) : (m + k).size ≤ m.size + k.size := by
  have h1 := Vec3.size_add m.lin k.lin
  have h2 := Vec3.size_add m.ang k.ang
  unfold Motion.size
  simp only [Motion.add_lin, Motion.add_ang]
  linarith

theorem Force.size_add (f g : Force) : (f + g).size ≤ f.size + g.size := by
  have h1 := Vec3.size_add f.lin g.lin
  have h2 := Vec3.size_add f.ang g.ang
  unfold Force.size
  simp only [Force.add_lin, Force.add_ang]
  linarith

theorem Vec3.size_smul (c : ℝ) (v : Vec3) : (c • v).size = |c| * v.size := by
  unfold Vec3.size
  simp only [Vec3.smul_x, Vec3.smul_y, Vec3.smul_z, abs_mul]
  ring

theorem Motion.size_smul (c : ℝ) (m : Motion) : (c • m).size = |c| * m.size := by
  unfold Motion.size
  simp only [Motion.smul_lin, Motion.smul_ang, Vec3.size_smul]
  ring

theorem Force.size_smul (c : ℝ) (f : Force) : (c • f).size = |c| * f.size := by
  unfold Force.size
  simp only [Force.smul_lin, Force.smul_ang, Vec3.size_smul]
  ring

theorem Vec3.abs_dot (u v : Vec3) : |u.dot v| ≤ u.size * v.size := by
  unfold Vec3.dot Vec3.size
  have h1 := abs_add_le (u.x * v.x + u.y * v.y) (u.z * v.z)
  have h2 := abs_add_le (u.x * v.x) (u.y * v.y)
  rw [abs_mul, abs_mul] at h2
  rw [abs_mul] at h1
  nlinarith [abs_nonneg u.x, abs_nonneg u.y, abs_nonneg u.z, abs_nonneg v.x, abs_nonneg v.y,
    abs_nonneg v.z, mul_nonneg (abs_nonneg u.x) (abs_nonneg v.y),
    mul_nonneg (abs_nonneg u.x) (abs_nonneg v.z), mul_nonneg (abs_nonneg u.y) (abs_nonneg v.x),
    mul_nonneg (abs_nonneg u.y) (abs_nonneg v.z), mul_nonneg (abs_nonneg u.z) (abs_nonneg v.x),
    mul_nonneg (abs_nonneg u.z) (abs_nonneg v.y)]

theorem Motion.abs_dot (m : Motion) (f : Force) : |m.dot f| ≤ m.size * f.size := by
  rw [Motion.dot_eq]
  have h1 := Vec3.abs_dot m.lin f.lin
  have h2 := Vec3.abs_dot m.ang f.ang
  have h3 := abs_add_le (m.lin.dot f.lin) (m.ang.dot f.ang)
  unfold Motion.size Force.size
  nlinarith [mul_nonneg m.lin.size_nonneg f.ang.size_nonneg,
    mul_nonneg m.ang.size_nonneg f.lin.size_nonneg]

/-- Momentum is bounded by velocity. -/
theorem Inertia.size_app (I : Inertia) : ∃ C, 0 ≤ C ∧ ∀ m, (I.app m).size ≤ C * m.size := by
  let e1 : Motion := ⟨⟨1, 0, 0⟩, 0⟩
  let e2 : Motion := ⟨⟨0, 1, 0⟩, 0⟩
  let e3 : Motion := ⟨⟨0, 0, 1⟩, 0⟩
  let e4 : Motion := ⟨0, ⟨1, 0, 0⟩⟩
  let e5 : Motion := ⟨0, ⟨0, 1, 0⟩⟩
  let e6 : Motion := ⟨0, ⟨0, 0, 1⟩⟩
  have hn := fun m => (I.app m).size_nonneg
  refine ⟨(I.app e1).size + (I.app e2).size + (I.app e3).size + (I.app e4).size + (I.app e5).size +
    (I.app e6).size, by have := hn e1; have := hn e2; have := hn e3; have := hn e4; have := hn e5
                        have := hn e6; linarith, fun m => ?_⟩
  have e : I.app m = m.lin.x • I.app e1 + m.lin.y • I.app e2 + m.lin.z • I.app e3 +
      m.ang.x • I.app e4 + m.ang.y • I.app e5 + m.ang.z • I.app e6 := by
    ext <;> simp [Inertia.app, Vec3.cross, Mat3.mulVec, e1, e2, e3, e4, e5, e6] <;> ring
  rw [e]
  have a5 := Force.size_add (m.lin.x • I.app e1 + m.lin.y • I.app e2 + m.lin.z • I.app e3 +
      m.ang.x • I.app e4 + m.ang.y • I.app e5) (m.ang.z • I.app e6)
  have a4 := Force.size_add (m.lin.x • I.app e1 + m.lin.y • I.app e2 + m.lin.z • I.app e3 +
      m.ang.x • I.app e4) (m.ang.y • I.app e5)
  have a3 := Force.size_add (m.lin.x • I.app e1 + m.lin.y • I.app e2 + m.lin.z • I.app e3)
    (m.ang.x • I.app e4)
  have a2 := Force.size_add (m.lin.x • I.app e1 + m.lin.y • I.app e2) (m.lin.z • I.app e3)
  have a1 := Force.size_add (m.lin.x • I.app e1) (m.lin.y • I.app e2)
  simp only [Force.size_smul] at a1 a2 a3 a4 a5
  have k : ∀ {x y : ℝ}, |x| ≤ m.size → 0 ≤ y → |x| * y ≤ y * m.size := fun {x y} h1 h2 => by
    rw [mul_comm]; exact mul_le_mul_of_nonneg_left h1 h2
  have b1 := abs_nonneg m.lin.x
  have b2 := abs_nonneg m.lin.y
  have b3 := abs_nonneg m.lin.z
  have b4 := abs_nonneg m.ang.x
  have b5 := abs_nonneg m.ang.y
  have b6 := abs_nonneg m.ang.z
  have k1 := k (x := m.lin.x) (by unfold Motion.size Vec3.size; linarith) (hn e1)
  have k2 := k (x := m.lin.y) (by unfold Motion.size Vec3.size; linarith) (hn e2)
  have k3 := k (x := m.lin.z) (by unfold Motion.size Vec3.size; linarith) (hn e3)
  have k4 := k (x := m.ang.x) (by unfold Motion.size Vec3.size; linarith) (hn e4)
  have k5 := k (x := m.ang.y) (by unfold Motion.size Vec3.size; linarith) (hn e5)
  have k6 := k (x := m.ang.z) (by unfold Motion.size Vec3.size; linarith) (hn e6)
  linarith

theorem Iso.gap_eq (T U : Iso) : T.gap U =
    |T.R.m00 - U.R.m00| + |T.R.m01 - U.R.m01| + |T.R.m02 - U.R.m02| + |T.R.m10 - U.R.m10| +
      |T.R.m11 - U.R.m11| + |T.R.m12 - U.R.m12| + |T.R.m20 - U.R.m20| + |T.R.m21 - U.R.m21| +
      |T.R.m22 - U.R.m22| + (|T.t.x - U.t.x| + |T.t.y - U.t.y| + |T.t.z - U.t.z|) := rfl

theorem Iso.gap_self (T : Iso) : T.gap T = 0 := by rw [Iso.gap_eq]; simp

theorem Iso.twist_size (T U : Iso) : (T.twist - U.twist).size ≤ T.gap U := by
  have k : ∀ a b c d : ℝ, |(a - b) / 2 - (c - d) / 2| ≤ |a - c| + |b - d| := by
    intro a b c d
    rw [show (a - b) / 2 - (c - d) / 2 = ((a - c) + -(b - d)) / 2 by ring, abs_div]
    have := abs_add_le (a - c) (-(b - d))
    rw [abs_neg] at this
    rw [show |(2 : ℝ)| = 2 by norm_num]
    have := abs_nonneg (a - c)
    have := abs_nonneg (b - d)
    linarith
  have h1 := k T.R.m21 T.R.m12 U.R.m21 U.R.m12
  have h2 := k T.R.m02 T.R.m20 U.R.m02 U.R.m20
  have h3 := k T.R.m10 T.R.m01 U.R.m10 U.R.m01
  have d0 := abs_nonneg (T.R.m00 - U.R.m00)
  have d1 := abs_nonneg (T.R.m11 - U.R.m11)
  have d2 := abs_nonneg (T.R.m22 - U.R.m22)
  rw [Iso.gap_eq]
  unfold Motion.size Vec3.size Iso.twist
  simp only [Motion.sub_lin, Motion.sub_ang, Vec3.sub_x, Vec3.sub_y, Vec3.sub_z]
  linarith

theorem Iso.twist_one : (1 : Iso).twist = 0 := by
  ext <;> simp [Iso.twist]

end Size

/-- How far the momentum of a displacement is from the inertia times the displacement. -/
theorem mom_le {E : Ext} (hE : E.NearLog) {δ C K : ℝ} {I : Inertia} {A B : Iso}
    (hC : ∀ T U : Iso, T.Valid → U.Valid → T.gap 1 < δ → U.gap 1 < δ → ∀ f,
      (E.dlogT T f - E.dlogT U f).size ≤ C * T.gap U * f.size)
    (hK : 0 ≤ K) (hI : ∀ m, (I.app m).size ≤ K * m.size) (hA : A.Valid) (hB : B.Valid)
    (hδ : 0 < δ) (gA : A.gap 1 < δ) (gB : B.gap 1 < δ) :
    (E.dlogT A (I.app (E.log A)) - I.app A.twist - (E.dlogT B (I.app (E.log B)) - I.app B.twist)).size
      ≤ |C| * K * (A.gap 1 * (E.log A - E.log B).size) +
        |C| * K * ((E.log B).size * A.gap B) +
        K * (E.log A - E.log B - (A.twist - B.twist)).size := by
  have hs : ∀ T f g, E.dlogT T (f - g) = E.dlogT T f - E.dlogT T g := fun T f g => by
    rw [sub_eq_add_neg, show -g = (-1 : ℝ) • g by rw [neg_one_smul], hE.dlogT_add, hE.dlogT_smul,
      neg_one_smul, ← sub_eq_add_neg]
  have e : E.dlogT A (I.app (E.log A)) - I.app A.twist -
      (E.dlogT B (I.app (E.log B)) - I.app B.twist) =
      (E.dlogT A (I.app (E.log A - E.log B)) - E.dlogT 1 (I.app (E.log A - E.log B))) +
      (E.dlogT A (I.app (E.log B)) - E.dlogT B (I.app (E.log B))) +
      I.app (E.log A - E.log B - (A.twist - B.twist)) := by
    rw [hE.dlogT_one]
    simp only [Inertia.app_sub, hs]
    abel
  rw [e]
  have g1 : (1 : Iso).gap 1 < δ := by rw [Iso.gap_self]; exact hδ
  have b1 := hC A 1 hA Iso.valid_one gA g1 (I.app (E.log A - E.log B))
  have b2 := hC A B hA hB gA gB (I.app (E.log B))
  have b3 := hI (E.log A - E.log B - (A.twist - B.twist))
  have c1 := hI (E.log A - E.log B)
  have c2 := hI (E.log B)
  have a1 := Force.size_add
    ((E.dlogT A (I.app (E.log A - E.log B)) - E.dlogT 1 (I.app (E.log A - E.log B))) +
      (E.dlogT A (I.app (E.log B)) - E.dlogT B (I.app (E.log B))))
    (I.app (E.log A - E.log B - (A.twist - B.twist)))
  have a2 := Force.size_add
    (E.dlogT A (I.app (E.log A - E.log B)) - E.dlogT 1 (I.app (E.log A - E.log B)))
    (E.dlogT A (I.app (E.log B)) - E.dlogT B (I.app (E.log B)))
  have k : ∀ x y : ℝ, 0 ≤ x → 0 ≤ y → C * x * y ≤ |C| * x * y := fun x y hx hy =>
    mul_le_mul_of_nonneg_right (mul_le_mul_of_nonneg_right (le_abs_self C) hx) hy
  have k1 := k (A.gap 1) _ (Iso.gap_nonneg _ _) (Force.size_nonneg (I.app (E.log A - E.log B)))
  have k2 := k (A.gap B) _ (Iso.gap_nonneg _ _) (Force.size_nonneg (I.app (E.log B)))
  have l1 := mul_le_mul_of_nonneg_left c1 (mul_nonneg (abs_nonneg C) (Iso.gap_nonneg A 1))
  have l2 := mul_le_mul_of_nonneg_left c2 (mul_nonneg (abs_nonneg C) (Iso.gap_nonneg A B))
  have r1 : |C| * K * (A.gap 1 * (E.log A - E.log B).size) =
    |C| * A.gap 1 * (K * (E.log A - E.log B).size) := by ring
  have r2 : |C| * K * ((E.log B).size * A.gap B) = |C| * A.gap B * (K * (E.log B).size) := by ring
  rw [r1, r2]
  linarith

/-! ## Strict differentiability -/

variable {X : Type*} [NormedAddCommGroup X] [NormedSpace ℝ X] {p0 : X}

/-- Differences are bounded by the distance of the points. -/
theorem Sm.sub_O {f : X → ℝ} (hf : Sm f) :
    (fun p : X × X => |f p.1 - f p.2|) =O[𝓝 (p0, p0)] fun p => p.1 - p.2 := by
  have := (hf.contDiffAt.hasStrictFDerivAt (x := p0) (by simp)).isBigO_sub
  simpa only [Real.norm_eq_abs] using this.norm_left

theorem SmVec.sub_O {f : X → Vec3} (hf : SmVec f) :
    (fun p : X × X => (f p.1 - f p.2).size) =O[𝓝 (p0, p0)] fun p => p.1 - p.2 :=
  (hf.x.sub_O.add hf.y.sub_O).add hf.z.sub_O

theorem SmMotion.sub_O {f : X → Motion} (hf : SmMotion f) :
    (fun p : X × X => (f p.1 - f p.2).size) =O[𝓝 (p0, p0)] fun p => p.1 - p.2 :=
  hf.lin.sub_O.add hf.ang.sub_O

theorem SmForce.sub_O {f : X → Force} (hf : SmForce f) :
    (fun p : X × X => (f p.1 - f p.2).size) =O[𝓝 (p0, p0)] fun p => p.1 - p.2 :=
  hf.lin.sub_O.add hf.ang.sub_O

theorem SmIso.twist {F : X → Iso} (hF : SmIso F) : SmMotion fun p => (F p).twist :=
  ⟨hF.t, ⟨(hF.R.m21.sub hF.R.m12).div_const 2, (hF.R.m02.sub hF.R.m20).div_const 2,
    (hF.R.m10.sub hF.R.m01).div_const 2⟩⟩

theorem SmIso.gap_O {F : X → Iso} (hF : SmIso F) :
    (fun p : X × X => (F p.1).gap (F p.2)) =O[𝓝 (p0, p0)] fun p => p.1 - p.2 := by
  have hR := hF.R
  exact ((((((((hR.m00.sub_O.add hR.m01.sub_O).add hR.m02.sub_O).add hR.m10.sub_O).add
    hR.m11.sub_O).add hR.m12.sub_O).add hR.m20.sub_O).add hR.m21.sub_O).add hR.m22.sub_O).add
    hF.t.sub_O

/-- Differences that are bounded by the distance vanish in the limit. -/
theorem tendsto_of_O {f : X × X → ℝ} (h : f =O[𝓝 (p0, p0)] fun p => p.1 - p.2) :
    Tendsto (fun p => f (p, p0)) (𝓝 p0) (𝓝 0) := by
  have h1 : Tendsto (fun p : X => (p, p0)) (𝓝 p0) (𝓝 (p0, p0)) :=
    (continuous_id.prodMk continuous_const).tendsto' _ _ rfl
  have h2 := h.comp_tendsto h1
  refine h2.trans_tendsto ?_
  show Tendsto (fun p : X => p - p0) (𝓝 p0) (𝓝 0)
  have : Tendsto (fun p : X => p - p0) (𝓝 p0) (𝓝 (p0 - p0)) :=
    (continuous_id.sub continuous_const).tendsto p0
  simpa using this

/-- A product of two quantities that vanish has derivative zero. -/
theorem dot_strict {u : X → Motion} {e : X → Force} (hu : SmMotion u) (he : SmForce e)
    (u0 : u p0 = 0) (e0 : e p0 = 0) :
    HasStrictFDerivAt (fun p => (u p).dot (e p)) (0 : X →L[ℝ] ℝ) p0 := by
  have tu : Tendsto (fun p : X × X => (u p.1).size) (𝓝 (p0, p0)) (𝓝 0) := by
    have := tendsto_of_O (hu.sub_O (p0 := p0))
    simp only [u0, sub_zero] at this
    exact this.comp (continuous_fst.tendsto (p0, p0))
  have te : Tendsto (fun p : X × X => (e p.2).size) (𝓝 (p0, p0)) (𝓝 0) := by
    have := tendsto_of_O (he.sub_O (p0 := p0))
    simp only [e0, sub_zero] at this
    exact this.comp (continuous_snd.tendsto (p0, p0))
  have o1 : (fun p : X × X => (u p.1).size * (e p.1 - e p.2).size)
      =o[𝓝 (p0, p0)] fun p => p.1 - p.2 := by
    have := ((isLittleO_one_iff ℝ).2 tu).mul_isBigO (he.sub_O (p0 := p0)).norm_right
    simpa using this.norm_right
  have o2 : (fun p : X × X => (e p.2).size * (u p.1 - u p.2).size)
      =o[𝓝 (p0, p0)] fun p => p.1 - p.2 := by
    have := ((isLittleO_one_iff ℝ).2 te).mul_isBigO (hu.sub_O (p0 := p0)).norm_right
    simpa using this.norm_right
  refine .of_isLittleO (IsBigO.trans_isLittleO (IsBigO.of_bound 1 (Eventually.of_forall fun p => ?_))
    (o1.add o2))
  simp only [ContinuousLinearMap.zero_apply, sub_zero, one_mul]
  have e1 : (u p.1).dot (e p.1) - (u p.2).dot (e p.2) =
      (u p.1).dot (e p.1 - e p.2) + (u p.1 - u p.2).dot (e p.2) := by
    rw [Motion.dot_sub, Motion.sub_dot]; ring
  rw [e1, Real.norm_eq_abs, Real.norm_eq_abs]
  have a1 := abs_add_le ((u p.1).dot (e p.1 - e p.2)) ((u p.1 - u p.2).dot (e p.2))
  have a2 := Motion.abs_dot (u p.1) (e p.1 - e p.2)
  have a3 := Motion.abs_dot (u p.1 - u p.2) (e p.2)
  refine le_trans ?_ (le_abs_self _)
  rw [mul_comm] at a3
  linarith

section
variable {E : Ext} {F : X → Iso} (hE : E.NearLog) (hF : SmIso F) (hv : ∀ p, (F p).Valid)
  (h1 : F p0 = 1)
include hF h1

theorem gap_small {δ : ℝ} (hδ : 0 < δ) : ∀ᶠ p in 𝓝 p0, (F p).gap 1 < δ := by
  have := tendsto_of_O (hF.gap_O (p0 := p0))
  simp only [h1] at this
  exact this.eventually (gt_mem_nhds hδ)

theorem gap_small2 {δ : ℝ} (hδ : 0 < δ) :
    ∀ᶠ p in 𝓝 (p0, p0), (F p.1).gap 1 < δ ∧ (F p.2).gap 1 < δ := by
  have := gap_small hF h1 hδ
  rw [nhds_prod_eq]
  exact this.prod_mk this

include hE hv

theorem log_o : (fun p : X × X =>
    (E.log (F p.1) - E.log (F p.2) - ((F p.1).twist - (F p.2).twist)).size)
      =o[𝓝 (p0, p0)] fun p => p.1 - p.2 := by
  refine IsLittleO.trans_isBigO (isLittleO_iff.2 fun ε hε => ?_) (hF.gap_O (p0 := p0))
  obtain ⟨δ, hδ, h⟩ := hE.log_near ε hε
  filter_upwards [gap_small2 hF h1 hδ] with p hp
  rw [Real.norm_of_nonneg (Motion.size_nonneg _), Real.norm_of_nonneg (Iso.gap_nonneg _ _)]
  exact h _ _ (hv _) (hv _) hp.1 hp.2

theorem log_O : (fun p : X × X => (E.log (F p.1) - E.log (F p.2)).size)
    =O[𝓝 (p0, p0)] fun p => p.1 - p.2 := by
  refine IsBigO.trans (IsBigO.of_bound 1 (Eventually.of_forall fun p => ?_))
    ((log_o hE hF hv h1).isBigO.add (hF.gap_O (p0 := p0)))
  have h2 := Motion.size_add (E.log (F p.1) - E.log (F p.2) - ((F p.1).twist - (F p.2).twist))
    ((F p.1).twist - (F p.2).twist)
  rw [sub_add_cancel] at h2
  have h3 := Iso.twist_size (F p.1) (F p.2)
  rw [Real.norm_of_nonneg (Motion.size_nonneg _), Real.norm_of_nonneg
    (add_nonneg (Motion.size_nonneg _) (Iso.gap_nonneg _ _))]
  linarith

theorem log_tendsto : Tendsto (fun p => (E.log (F p)).size) (𝓝 p0) (𝓝 0) := by
  have := tendsto_of_O (log_O hE hF hv h1)
  simpa [h1, hE.log_one] using this

/-- The momentum of the displacement, less the inertia times the displacement. -/
theorem mom_o (I : Inertia) : (fun p : X × X =>
    (E.dlogT (F p.1) (I.app (E.log (F p.1))) - I.app (F p.1).twist -
      (E.dlogT (F p.2) (I.app (E.log (F p.2))) - I.app (F p.2).twist)).size)
      =o[𝓝 (p0, p0)] fun p => p.1 - p.2 := by
  obtain ⟨δ, hδ, C, hC⟩ := hE.dlogT_lip
  obtain ⟨K, hK, hI⟩ := I.size_app
  have g0 : Tendsto (fun p : X × X => (F p.1).gap 1) (𝓝 (p0, p0)) (𝓝 0) := by
    have := tendsto_of_O (hF.gap_O (p0 := p0))
    simp only [h1] at this
    exact this.comp (continuous_fst.tendsto (p0, p0))
  have l0 : Tendsto (fun p : X × X => (E.log (F p.2)).size) (𝓝 (p0, p0)) (𝓝 0) :=
    (log_tendsto hE hF hv h1).comp (continuous_snd.tendsto (p0, p0))
  have o1 : (fun p : X × X => |C| * K * ((F p.1).gap 1 * (E.log (F p.1) - E.log (F p.2)).size))
      =o[𝓝 (p0, p0)] fun p => p.1 - p.2 := by
    refine IsLittleO.const_mul_left ?_ _
    have := ((isLittleO_one_iff ℝ).2 g0).mul_isBigO (log_O hE hF hv h1).norm_right
    simpa using this.norm_right
  have o2 : (fun p : X × X => |C| * K * ((E.log (F p.2)).size * (F p.1).gap (F p.2)))
      =o[𝓝 (p0, p0)] fun p => p.1 - p.2 := by
    refine IsLittleO.const_mul_left ?_ _
    have := ((isLittleO_one_iff ℝ).2 l0).mul_isBigO (hF.gap_O (p0 := p0)).norm_right
    simpa using this.norm_right
  have o3 := (log_o hE hF hv h1).const_mul_left K
  refine IsBigO.trans_isLittleO (IsBigO.of_bound 1 ?_) ((o1.add o2).add o3)
  filter_upwards [gap_small2 hF h1 hδ] with p hp
  rw [Real.norm_of_nonneg (Force.size_nonneg _), one_mul]
  refine (mom_le hE hC hK hI (hv _) (hv _) hδ hp.1 hp.2).trans ?_
  exact le_abs_self _

/-- A discrete generalised momentum has, where the displacement is the identity, the strict
derivative of the momentum of the infinitesimal displacement. -/
theorem mom_strict {m : X → Motion} (hm : SmMotion m) (I : Inertia) : HasStrictFDerivAt (fun p =>
    (m p).dot (E.dlogT (F p) (I.app (E.log (F p)))) - (m p).dot (I.app (F p).twist))
      (0 : X →L[ℝ] ℝ) p0 := by
  set e : X → Force := fun p => E.dlogT (F p) (I.app (E.log (F p))) - I.app (F p).twist with he
  have oe := mom_o hE hF hv h1 I
  have e0 : e p0 = 0 := by
    simp only [he, h1, hE.log_one, Inertia.app_zero, hE.dlogT_one, Iso.twist_one, sub_zero]
  have te : Tendsto (fun p : X × X => (e p.2).size) (𝓝 (p0, p0)) (𝓝 0) := by
    have := tendsto_of_O oe.isBigO
    have h2 : Tendsto (fun p => (e p).size) (𝓝 p0) (𝓝 0) := by
      refine this.congr fun p => ?_
      show (e p - e p0).size = _
      rw [e0, sub_zero]
    exact h2.comp (continuous_snd.tendsto (p0, p0))
  have bm : (fun p : X × X => (m p.1).size) =O[𝓝 (p0, p0)] fun _ => (1 : ℝ) := by
    have hc : Tendsto (fun p : X × X => (m p.1 - m p0).size) (𝓝 (p0, p0)) (𝓝 0) :=
      (tendsto_of_O (hm.sub_O (p0 := p0))).comp (continuous_fst.tendsto (p0, p0))
    refine IsBigO.of_bound (1 + (m p0).size) ?_
    filter_upwards [hc.eventually (gt_mem_nhds one_pos)] with p hp
    have := Motion.size_add (m p.1 - m p0) (m p0)
    rw [sub_add_cancel] at this
    rw [Real.norm_of_nonneg (Motion.size_nonneg _), norm_one, mul_one]
    linarith
  have o1 : (fun p : X × X => (m p.1).size * (e p.1 - e p.2).size)
      =o[𝓝 (p0, p0)] fun p => p.1 - p.2 := by
    have := bm.mul_isLittleO oe.norm_right
    simpa using this.norm_right
  have o2 : (fun p : X × X => (e p.2).size * (m p.1 - m p.2).size)
      =o[𝓝 (p0, p0)] fun p => p.1 - p.2 := by
    have := ((isLittleO_one_iff ℝ).2 te).mul_isBigO (hm.sub_O (p0 := p0)).norm_right
    simpa using this.norm_right
  refine .of_isLittleO (IsBigO.trans_isLittleO (IsBigO.of_bound 1 (Eventually.of_forall fun p => ?_))
    (o1.add o2))
  have k : ∀ p, (m p).dot (E.dlogT (F p) (I.app (E.log (F p)))) - (m p).dot (I.app (F p).twist) =
      (m p).dot (e p) := fun p => (Motion.dot_sub ..).symm
  simp only [k, ContinuousLinearMap.zero_apply, sub_zero, one_mul]
  have e1 : (m p.1).dot (e p.1) - (m p.2).dot (e p.2) =
      (m p.1).dot (e p.1 - e p.2) + (m p.1 - m p.2).dot (e p.2) := by
    generalize e p.1 = x, e p.2 = y
    rw [Motion.dot_sub, Motion.sub_dot]; ring
  rw [e1, Real.norm_eq_abs, Real.norm_eq_abs]
  have a1 := abs_add_le ((m p.1).dot (e p.1 - e p.2)) ((m p.1 - m p.2).dot (e p.2))
  have a2 := Motion.abs_dot (m p.1) (e p.1 - e p.2)
  have a3 := Motion.abs_dot (m p.1 - m p.2) (e p.2)
  refine le_trans ?_ (le_abs_self _)
  rw [mul_comm] at a3
  linarith

end

end SpatialDyn
