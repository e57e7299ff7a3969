import Verif.Lemmas.Quaternion
import Verif.Lemmas.Kin
import Verif.Lemmas.Calculus
import Mathlib.Analysis.SpecialFunctions.Trigonometric.Basic

/-!
# A joint that turns round once
-/

namespace SpatialDyn
open Body

/-- Quaternion of a turn about a coordinate axis. -/
noncomputable def JType.half : JType → ℝ → Quat
  | .rx, s => ⟨Real.cos (s / 2), Real.sin (s / 2), 0, 0⟩
  | .ry, s => ⟨Real.cos (s / 2), 0, Real.sin (s / 2), 0⟩
  | .rz, s => ⟨Real.cos (s / 2), 0, 0, Real.sin (s / 2)⟩
  | _, _ => ⟨1, 0, 0, 0⟩

theorem JType.half_unit (t : JType) (s : ℝ) : (t.half s).Unit := by
  have := Real.sin_sq_add_cos_sq (s / 2)
  cases t <;> simp only [JType.half, Quat.Unit] <;> linarith

theorem JType.half_rot (t : JType) (s : ℝ) : (t.half s).toRot = (t.Tjoint s).R := by
  have h1 : Real.cos s = 1 - 2 * Real.sin (s / 2) ^ 2 := by
    have := Real.cos_two_mul' (s / 2)
    have h2 := Real.sin_sq_add_cos_sq (s / 2)
    rw [mul_div_cancel₀ s two_ne_zero] at this
    linarith
  have h2 : Real.sin s = 2 * Real.sin (s / 2) * Real.cos (s / 2) := by
    have := Real.sin_two_mul (s / 2)
    rwa [mul_div_cancel₀ s two_ne_zero] at this
  cases t <;> ext <;> simp [JType.half, JType.Tjoint, Quat.toRot, h1, h2] <;> ring

theorem JType.half_opp {t : JType} (ht : t.Turns) (s : ℝ) :
    t.half (s + 2 * Real.pi) = (t.half s).opp := by
  have e : (s + 2 * Real.pi) / 2 = s / 2 + Real.pi := by ring
  cases t <;> first | exact ht.elim | simp [JType.half, Quat.opp, e, Real.cos_add_pi, Real.sin_add_pi]

theorem JType.half_cont (t : JType) (S : Set ℝ) : Quat.ContOn t.half S := by
  have h1 : Continuous fun s : ℝ => Real.cos (s / 2) := Real.continuous_cos.comp (continuous_id.div_const 2)
  have h2 : Continuous fun s : ℝ => Real.sin (s / 2) := Real.continuous_sin.comp (continuous_id.div_const 2)
  cases t <;> constructor <;> simp only [JType.half] <;>
    first | exact h1.continuousOn | exact h2.continuousOn | exact continuousOn_const

theorem Quat.ContOn.const (q : Quat) (S : Set ℝ) : Quat.ContOn (fun _ => q) S :=
  ⟨continuousOn_const, continuousOn_const, continuousOn_const, continuousOn_const⟩

theorem Quat.ContOn.mul {f g : ℝ → Quat} {S : Set ℝ} (hf : ContOn f S) (hg : ContOn g S) :
    ContOn (fun s => (f s).mul (g s)) S where
  w := (((hf.w.mul hg.w).sub (hf.x.mul hg.x)).sub (hf.y.mul hg.y)).sub (hf.z.mul hg.z)
  x := (((hf.w.mul hg.x).add (hf.x.mul hg.w)).add (hf.y.mul hg.z)).sub (hf.z.mul hg.y)
  y := (((hf.w.mul hg.y).add (hf.y.mul hg.w)).add (hf.z.mul hg.x)).sub (hf.x.mul hg.z)
  z := (((hf.w.mul hg.z).add (hf.z.mul hg.w)).add (hf.x.mul hg.y)).sub (hf.y.mul hg.x)

theorem Quat.ContOn.dot {f g : ℝ → Quat} {S : Set ℝ} (hf : ContOn f S) (hg : ContOn g S) :
    ContinuousOn (fun s => (f s).dot (g s)) S :=
  (((hf.w.mul hg.w).add (hf.x.mul hg.x)).add (hf.y.mul hg.y)).add (hf.z.mul hg.z)

/-- No continuous choice of quaternions for a rotation that turns round once comes back. -/
theorem no_lift {A B : Mat3} (hA : A.IsRot) (hB : B.IsRot) {t : JType} (ht : t.Turns) {a : ℝ}
    {f : ℝ → Quat} (hu : ∀ s, (f s).Unit) (hf : ∀ s, (f s).toRot = A * (t.Tjoint s).R * B)
    (hc : Quat.ContOn f (Set.Icc a (a + 2 * Real.pi))) : f (a + 2 * Real.pi) ≠ f a := by
  intro he
  set S := Set.Icc a (a + 2 * Real.pi)
  let p := Quat.ofRot A
  let r := Quat.ofRot B
  have tp := Quat.ofRot_table hA
  have tr := Quat.ofRot_table hB
  let g : ℝ → Quat := fun s => (p.mul (t.half s)).mul r
  have gu : ∀ s, (g s).Unit := fun s => (tp.unit.mul (t.half_unit s)).mul tr.unit
  have gr : ∀ s, (g s).toRot = A * (t.Tjoint s).R * B := fun s => by
    show ((p.mul (t.half s)).mul r).toRot = _
    rw [(tp.unit.mul (t.half_unit s)).toRot_mul tr.unit, tp.unit.toRot_mul (t.half_unit s), tp.toRot,
      tr.toRot, t.half_rot]
  have gc : Quat.ContOn g S := ((Quat.ContOn.const p S).mul (t.half_cont S)).mul (Quat.ContOn.const r S)
  have go : g (a + 2 * Real.pi) = (g a).opp := by
    show (p.mul (t.half (a + 2 * Real.pi))).mul r = ((p.mul (t.half a)).mul r).opp
    rw [t.half_opp ht]
    ext <;> simp [Quat.mul, Quat.opp] <;> ring
  have dd : ∀ s, (f s).dot (g s) ^ 2 = 1 := fun s => by
    have h := gu s
    unfold Quat.Unit at h
    rcases Quat.eq_or_opp (hu s) (gu s) ((hf s).trans (gr s).symm) with e | e
    · rw [e]
      unfold Quat.dot
      linear_combination ((g s).w ^ 2 + (g s).x ^ 2 + (g s).y ^ 2 + (g s).z ^ 2 + 1) * h
    · rw [e]
      unfold Quat.dot Quat.opp
      linear_combination ((g s).w ^ 2 + (g s).x ^ 2 + (g s).y ^ 2 + (g s).z ^ 2 + 1) * h
  have hp := Real.pi_pos
  have hS : IsPreconnected S := isPreconnected_Icc
  have ha : a ∈ S := ⟨le_rfl, by linarith⟩
  have hb : a + 2 * Real.pi ∈ S := ⟨by linarith, le_rfl⟩
  have h1 : (f (a + 2 * Real.pi)).dot (g (a + 2 * Real.pi)) = -(f a).dot (g a) := by
    rw [he, go]; unfold Quat.dot Quat.opp; ring
  have h2 := hS.eq_or_eq_neg_of_sq_eq (f := fun s => (f s).dot (g s)) (g := fun _ => (1 : ℝ))
    (hc.dot gc) continuousOn_const (fun s _ => by simpa using dd s) (fun _ => one_ne_zero)
  rcases h2 with h2 | h2
  · have e1 := h2 ha
    have e2 := h2 hb
    simp only at e1 e2
    linarith
  · have e1 := h2 ha
    have e2 := h2 hb
    simp only [Pi.neg_apply] at e1 e2
    linarith

theorem pose_valid {b : Body} (hR : ∀ i < b.dof, (b.rb i).T.Valid) (ht : b.Tree) {u : ℕ → ℝ} {k : ℕ}
    {X : Iso} (h : b.LinkPose u k X) (hk : k < b.dof) : X.Valid := by
  induction h with
  | root => exact (hR _ hk).mul (JType.Tjoint_valid _ _)
  | link hp _ ih =>
    exact (ih ((ht.parLt _ hk _ (par_eq_some.2 hp)).trans hk)).mul ((hR _ hk).mul (JType.Tjoint_valid _ _))

theorem pose_congr {b : Body} (ht : b.Tree) {u v : ℕ → ℝ} {k : ℕ} {X : Iso} (h : b.LinkPose u k X)
    (hk : k < b.dof) (e : ∀ m ≤ k, v m = u m) : b.LinkPose v k X := by
  induction h with
  | root hr => rw [← e _ le_rfl]; exact .root hr
  | link hp _ ih =>
    have hlt := ht.parLt _ hk _ (par_eq_some.2 hp)
    rw [← e _ le_rfl]
    exact .link hp (ih (hlt.trans hk) fun m hm => e m (hm.trans hlt.le))

theorem anc_le {b : Body} (ht : b.Tree) {j k : ℕ} (ha : Anc b.par j k) (hk : k < b.dof) : j ≤ k := by
  induction ha with
  | refl => exact le_rfl
  | step hp _ ih =>
    have hlt := ht.parLt _ hk _ hp
    exact (ih (hlt.trans hk)).trans hlt.le

/-- The pose of a link as one joint of its path moves. -/
theorem pose_update {b : Body} (hR : ∀ i < b.dof, (b.rb i).T.Valid) (ht : b.Tree) {u : ℕ → ℝ} {j : ℕ}
    {k : ℕ} (ha : Anc b.par j k) (hk : k < b.dof) : ∃ A B : Iso, A.Valid ∧ B.Valid ∧
      ∀ s, b.LinkPose (Function.update u j s) k (A * (b.rb j).joint.type.Tjoint s * B) := by
  induction ha with
  | refl =>
    obtain ⟨X, hX⟩ := linkPose_exists ht u j hk
    cases hX with
    | root hr =>
      refine ⟨(b.rb j).T, 1, hR j hk, Mat3.isRot_one, fun s => ?_⟩
      have := LinkPose.root (b := b) (u := Function.update u j s) hr
      rwa [Function.update_self, ← mul_one ((b.rb j).T * _)] at this
    | @link _ p Y hp hY =>
      have hlt := ht.parLt _ hk _ (par_eq_some.2 hp)
      have hY' := pose_valid hR ht hY (hlt.trans hk)
      refine ⟨Y * (b.rb j).T, 1, hY'.mul (hR j hk), Mat3.isRot_one, fun s => ?_⟩
      have hc := pose_congr ht (v := Function.update u j s) hY (hlt.trans hk)
        fun m hm => Function.update_of_ne (by omega) _ _
      have := LinkPose.link hp hc
      rwa [Function.update_self, ← mul_assoc, ← mul_one (Y * (b.rb j).T * _)] at this
  | @step i p hp ha ih =>
    have hlt := ht.parLt _ hk _ hp
    have hj := anc_le ht ha (hlt.trans hk)
    obtain ⟨A, B, hA, hB, hs⟩ := ih (hlt.trans hk)
    refine ⟨A, B * ((b.rb i).T * (b.rb i).joint.type.Tjoint (u i)), hA,
      hB.mul ((hR i hk).mul (JType.Tjoint_valid _ _)), fun s => ?_⟩
    have := LinkPose.link (par_eq_some.1 hp) (hs s)
    rwa [Function.update_of_ne (show i ≠ j by omega), mul_assoc _ B] at this

end SpatialDyn
