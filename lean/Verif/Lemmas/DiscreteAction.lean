import Verif.Spec.TrueLog
import Verif.Lemmas.TrueLog
import Verif.Lemmas.Discrete
import Verif.Lemmas.Lagrange

/-! Derivatives of the kinetic part of the action of a discrete step. -/

namespace SpatialDyn

open Finset Body

/-- A frame moving with twist `V` sees the world move the other way. -/
theorem HasTwist.inverse {T : ℝ → Iso} {V : Motion} {s : ℝ} (h : HasTwist T V s) (hv : (T s).Valid) :
    HasTwist (fun s => (T s).inv) (-(T s).inv.actM V) s := by
  have hT : ∀ a b : Vec3, (T s).R.T.mulVec (a.cross b) =
      ((T s).R.T.mulVec a).cross ((T s).R.T.mulVec b) := fun a b =>
    (Mat3.IsRot.cross hv.T a b).symm
  constructor
  · refine h.rot.transpose.congr_deriv ?_
    show (skew V.ang * (T s).R).T = skew (-(T s).R.T.mulVec V.ang) * (T s).R.T
    rw [Mat3.T_mul, skew_T, ← Mat3.mulVec_neg]
    exact (skew_rot hv.T (-V.ang)).symm
  · have := (h.rot.transpose.mulVec h.trans).neg
    refine this.congr_deriv ?_
    have e : ∀ v : Vec3, (skew V.ang * (T s).R).T.mulVec v = -(((T s).R.T.mulVec V.ang).cross
        ((T s).R.T.mulVec v)) := by
      intro v
      rw [Mat3.T_mul, ← Mat3.mulVec_mulVec, skew_T, skew_mulVec, Vec3.neg_cross, Mat3.mulVec_neg, hT]
    simp only [e, Iso.actM, Iso.inv_R, Iso.inv_t, Mat3.mulVec_add, hT]
    generalize (T s).R.T.mulVec V.ang = a
    generalize (T s).R.T.mulVec V.lin = c
    generalize (T s).R.T.mulVec (T s).t = t
    ext <;> simp [Vec3.cross] <;> ring

theorem HasTwist.shift {T : ℝ → Iso} {V : Motion} {s : ℝ} (h : HasTwist T V s) :
    HasTwist (fun r => T (s + r)) V 0 := by
  have hu : HasDerivAt (fun r : ℝ => s + r) 1 0 := (hasDerivAt_id (0 : ℝ)).const_add s
  have h' : HasTwist T V (s + 0) := by rwa [add_zero]
  have := HasTwist.comp (u := fun r => s + r) h' hu
  rwa [one_smul] at this

namespace Ext.TrueLog
variable {E : Ext}

/-- The kinetic energy of a small displacement, and its derivative while the displacement changes. -/
theorem kinetic_deriv (hE : E.TrueLog) : ∃ δ > 0, ∀ (P : ℝ → Iso) (V : Motion) (s : ℝ) (I : Inertia)
    (dt : ℝ), (∀ r, (P r).Valid) → (P s).gap 1 < δ → HasTwist P V s → I.Icom.IsSymm → dt ≠ 0 →
    HasDerivAt (fun r => dt * (1 / 2 * ((1 / dt) • E.log (P r)).dot (I.app ((1 / dt) • E.log (P r)))))
      (V.dot (E.dlogT (P s) (I.app ((1 / dt) • E.log (P s))))) s := by
  obtain ⟨δ, hδ, H⟩ := hE.log_rate
  refine ⟨δ, hδ, fun P V s I dt hv hg ht hI h0 => ?_⟩
  have key : ∀ f, HasDerivAt (fun r => (E.log (P r)).dot f) (V.dot (E.dlogT (P s) f)) s := by
    intro f
    have := H (P s) (hv s) hg (fun r => P (s + r)) V (by rw [add_zero]) (fun r => hv _) ht.shift f
    have h1 : HasDerivAt (fun r => (E.log (P (s + r))).dot f) (V.dot (E.dlogT (P s) f)) (s - s) := by
      rwa [sub_self]
    have h2 := h1.comp_sub_const s s
    refine h2.congr_of_eventuallyEq (Filter.Eventually.of_forall fun r => ?_)
    simp
  set m' : Motion := ⟨⟨V.dot (E.dlogT (P s) ⟨⟨1, 0, 0⟩, 0⟩), V.dot (E.dlogT (P s) ⟨⟨0, 1, 0⟩, 0⟩),
    V.dot (E.dlogT (P s) ⟨⟨0, 0, 1⟩, 0⟩)⟩, ⟨V.dot (E.dlogT (P s) ⟨0, ⟨1, 0, 0⟩⟩),
    V.dot (E.dlogT (P s) ⟨0, ⟨0, 1, 0⟩⟩), V.dot (E.dlogT (P s) ⟨0, ⟨0, 0, 1⟩⟩)⟩⟩ with hm'
  have hd : HasDerivMotion (fun r => E.log (P r)) m' s := by
    refine ⟨⟨?_, ?_, ?_⟩, ⟨?_, ?_, ?_⟩⟩
    · exact (key ⟨⟨1, 0, 0⟩, 0⟩).congr_of_eventuallyEq (.of_forall fun r => by simp [Motion.dot, Vec3.dot])
    · exact (key ⟨⟨0, 1, 0⟩, 0⟩).congr_of_eventuallyEq (.of_forall fun r => by simp [Motion.dot, Vec3.dot])
    · exact (key ⟨⟨0, 0, 1⟩, 0⟩).congr_of_eventuallyEq (.of_forall fun r => by simp [Motion.dot, Vec3.dot])
    · exact (key ⟨0, ⟨1, 0, 0⟩⟩).congr_of_eventuallyEq (.of_forall fun r => by simp [Motion.dot, Vec3.dot])
    · exact (key ⟨0, ⟨0, 1, 0⟩⟩).congr_of_eventuallyEq (.of_forall fun r => by simp [Motion.dot, Vec3.dot])
    · exact (key ⟨0, ⟨0, 0, 1⟩⟩).congr_of_eventuallyEq (.of_forall fun r => by simp [Motion.dot, Vec3.dot])
  have hdot : ∀ f, m'.dot f = V.dot (E.dlogT (P s) f) := by
    intro f
    have h1 := (hd.lin.dot (HasDerivVec.const f.lin s)).add (hd.ang.dot (HasDerivVec.const f.ang s))
    have h2 := key f
    have e : (fun r => (E.log (P r)).dot f) = fun r => (E.log (P r)).lin.dot f.lin +
        (E.log (P r)).ang.dot f.ang := by funext r; rw [Motion.dot_eq]
    rw [e] at h2
    rw [← h1.unique h2, Motion.dot_eq]
    simp [Vec3.dot]
  have hs : HasDerivMotion (fun r => (1 / dt) • E.log (P r)) ((1 / dt) • m') s := by
    have := HasDerivMotion.smul (hasDerivAt_const s (1 / dt)) hd
    refine this.congr_deriv ?_
    ext <;> simp
  have h3 := ((hs.bilin hs I).const_mul (1 / 2)).const_mul dt
  refine h3.congr_deriv ?_
  rw [I.dot_app_symm hI ((1 / dt) • E.log (P s)) ((1 / dt) • m'), ← hdot, Motion.smul_dot]
  field_simp
  ring

end Ext.TrueLog

end SpatialDyn
