import Verif.Spec.Traj
import Verif.Lemmas.Pose
import Verif.Lemmas.Coherence

/-! Derivatives of poses, axes and velocities along trajectories. -/

namespace SpatialDyn

open Finset

/-- The derivative of a motion-valued function, component by component. -/
structure HasDerivMotion (f : ℝ → Motion) (f' : Motion) (s : ℝ) : Prop where
  lin : HasDerivVec (fun s => (f s).lin) f'.lin s
  ang : HasDerivVec (fun s => (f s).ang) f'.ang s

namespace HasDerivMotion
variable {f g : ℝ → Motion} {f' g' : Motion} {s : ℝ}

theorem congr_deriv (hf : HasDerivMotion f f' s) (h : f' = g') : HasDerivMotion f g' s := h ▸ hf
theorem const (m : Motion) (s : ℝ) : HasDerivMotion (fun _ => m) 0 s :=
  ⟨HasDerivVec.const _ _, HasDerivVec.const _ _⟩
theorem add (hf : HasDerivMotion f f' s) (hg : HasDerivMotion g g' s) :
    HasDerivMotion (fun s => f s + g s) (f' + g') s := ⟨hf.lin.add hg.lin, hf.ang.add hg.ang⟩
theorem smul {c : ℝ → ℝ} {c' : ℝ} (hc : HasDerivAt c c' s) (hf : HasDerivMotion f f' s) :
    HasDerivMotion (fun s => c s • f s) (c' • f s + c s • f') s :=
  ⟨hf.lin.smul hc, hf.ang.smul hc⟩
theorem sum {ι : Type*} (t : Finset ι) {f : ι → ℝ → Motion} {f' : ι → Motion}
    (h : ∀ i ∈ t, HasDerivMotion (f i) (f' i) s) :
    HasDerivMotion (fun s => ∑ i ∈ t, f i s) (∑ i ∈ t, f' i) s := by
  classical
  induction t using Finset.induction_on with
  | empty => exact const 0 s
  | insert a t ha ih =>
    have := (h a (mem_insert_self ..)).add (ih fun i hi => h i (mem_insert_of_mem hi))
    simp only [sum_insert ha]
    exact this
end HasDerivMotion

/-- A motion vector fixed in a moving frame. -/
theorem HasTwist.actM {T : ℝ → Iso} {V : Motion} {s : ℝ} (h : HasTwist T V s) (m : Motion) :
    HasDerivMotion (fun s => (T s).actM m) (V.crossM ((T s).actM m)) s := by
  constructor
  · refine ((h.rot.mulVec (HasDerivVec.const m.lin s)).sub
      ((h.rot.mulVec (HasDerivVec.const m.ang s)).cross h.trans)).congr_deriv ?_
    rw [Motion.crossM_lin]
    simp only [← Mat3.mulVec_mulVec, skew_mulVec, Mat3.mulVec_zero, Iso.actM]
    ext <;> simp [Vec3.cross] <;> ring
  · refine (h.rot.mulVec (HasDerivVec.const m.ang s)).congr_deriv ?_
    rw [Motion.crossM_ang]
    simp only [← Mat3.mulVec_mulVec, skew_mulVec, Mat3.mulVec_zero, Iso.actM]
    ext <;> simp

theorem HasDerivMat.transpose {M : ℝ → Mat3} {M' : Mat3} {s : ℝ} (h : HasDerivMat M M' s) :
    HasDerivMat (fun s => (M s).T) M'.T s :=
  ⟨h.d00, h.d10, h.d20, h.d01, h.d11, h.d21, h.d02, h.d12, h.d22⟩

theorem skew_T (w : Vec3) : (skew w).T = skew (-w) := by ext <;> simp [skew, Mat3.T]

/-- A moving motion vector seen from a moving frame. -/
theorem HasTwist.inv_actM {T : ℝ → Iso} {V : Motion} {s : ℝ} (h : HasTwist T V s)
    (hv : (T s).Valid) {m : ℝ → Motion} {m' : Motion} (hm : HasDerivMotion m m' s) :
    HasDerivMotion (fun s => (T s).inv.actM (m s))
      ((T s).inv.actM (m' - V.crossM (m s))) s := by
  have hR := h.rot.transpose
  have ht := (hR.mulVec h.trans).neg
  have hT : ∀ a b : Vec3, (T s).R.T.mulVec (a.cross b) =
      ((T s).R.T.mulVec a).cross ((T s).R.T.mulVec b) := fun a b => (Mat3.IsRot.cross hv.T a b).symm
  have e : ∀ v : Vec3, (skew V.ang * (T s).R).T.mulVec v = -((T s).R.T.mulVec (V.ang.cross v)) := by
    intro v
    rw [Mat3.T_mul, ← Mat3.mulVec_mulVec, skew_T, skew_mulVec, Vec3.neg_cross, Mat3.mulVec_neg]
  constructor
  · refine ((hR.mulVec hm.lin).sub ((hR.mulVec hm.ang).cross ht)).congr_deriv ?_
    simp only [e, Iso.actM, Iso.inv_R, Iso.inv_t, Motion.crossM_lin, Motion.crossM_ang,
      Motion.sub_lin, Motion.sub_ang, hT, Mat3.mulVec_add, Mat3.mulVec_sub]
    generalize (T s).R.T.mulVec V.ang = a
    generalize (T s).R.T.mulVec V.lin = c
    generalize (T s).R.T.mulVec (T s).t = t
    generalize (T s).R.T.mulVec (m s).lin = x
    generalize (T s).R.T.mulVec (m s).ang = y
    generalize (T s).R.T.mulVec m'.lin = x'
    generalize (T s).R.T.mulVec m'.ang = y'
    ext <;> simp [Vec3.cross] <;> ring
  · refine (hR.mulVec hm.ang).congr_deriv ?_
    simp only [e, Iso.actM, Iso.inv_R, Motion.crossM_ang, Motion.sub_ang, Mat3.mulVec_sub]
    ext <;> simp <;> ring

/-- The derivative of an inertia quadratic form. -/
theorem HasDerivMotion.quad {f : ℝ → Motion} {f' : Motion} {s : ℝ} (h : HasDerivMotion f f' s)
    {I : Inertia} (hI : I.Icom.IsSymm) :
    HasDerivAt (fun s => (f s).dot (I.app (f s))) (2 * (f s).dot (I.app f')) s := by
  have hc := HasDerivVec.const (I.mass • I.com) s
  have h1 := (h.lin.smul (hasDerivAt_const s I.mass)).add (h.ang.cross hc)
  have h2 := (((HasDerivMat.const I.Icom s).mulVec h.ang).sub (h.lin.cross hc)).sub
    ((h.ang.cross (HasDerivVec.const I.com s)).cross hc)
  have h3 := (h.lin.dot h1).add (h.ang.dot h2)
  have e1 : (fun s => (f s).dot (I.app (f s))) = fun s => (f s).lin.dot
      (I.mass • (f s).lin + (f s).ang.cross (I.mass • I.com)) + (f s).ang.dot
      (I.Icom.mulVec (f s).ang - (f s).lin.cross (I.mass • I.com) -
        ((f s).ang.cross I.com).cross (I.mass • I.com)) := by
    funext s; rw [Motion.dot_eq]; rfl
  rw [e1]
  refine h3.congr_deriv ?_
  have e2 := I.dot_app_symm hI f' (f s)
  have e3 : 2 * (f s).dot (I.app f') = f'.dot (I.app (f s)) + (f s).dot (I.app f') := by
    rw [e2]; ring
  rw [e3, Motion.dot_eq, Motion.dot_eq]
  simp [Inertia.app, Vec3.dot, Vec3.cross, Mat3.mulVec]
  ring

namespace Body
variable {b : Body} {E : Ext}

theorem fresh_eq_sysAt : b.fresh = b.sysAt b.pos b.vel := rfl

theorem sysAt_Tp {u w : ℕ → ℝ} {i : ℕ} (hi : i < b.dof) : (b.sysAt u w).Tp i = b.TpAt i (u i) :=
  if_pos hi

theorem sysAt_Tw {u w : ℕ → ℝ} {i : ℕ} (hi : i < b.dof) : (b.sysAt u w).Tw i = b.twAt u i :=
  if_pos hi

theorem twAt_rec (ht : b.Tree) (u : ℕ → ℝ) {i : ℕ} (hi : i < b.dof) : b.twAt u i =
    match b.par i with
      | none => b.T0 * b.TpAt i (u i)
      | some p => b.twAt u p * b.TpAt i (u i) :=
  worldLoop_spec ht.parLt _ _ _ i hi

theorem twAt_valid (ht : b.Tree) (hr : b.Rigid) (u : ℕ → ℝ) : ∀ i < b.dof, (b.twAt u i).Valid := by
  intro i
  induction i using Nat.strong_induction_on with
  | _ i ih =>
    intro hi
    rw [twAt_rec ht u hi]
    cases hpar : b.par i with
    | none => exact hr.base.mul (hr.TpAt hi _)
    | some p =>
      have := ht.parLt i hi p hpar
      exact (ih p this (by omega)).mul (hr.TpAt hi _)

theorem sysAt_wf (ht : b.Tree) (hr : b.Rigid) (u w : ℕ → ℝ) : (b.sysAt u w).WF := by
  refine ⟨ht.parLt, fun i hi => ?_, fun i hi => ?_, fun i hi p hpar => ?_⟩
  · rw [sysAt_Tp hi]; exact hr.TpAt hi _
  · rw [sysAt_Tw hi]; exact twAt_valid ht hr u i hi
  · have := ht.parLt i hi p hpar
    rw [sysAt_Tw hi, sysAt_Tw (lt_trans this hi), sysAt_Tp hi, twAt_rec ht u hi,
      show b.par i = some p from hpar]

theorem LinkPose.twAt (ht : b.Tree) {u : ℕ → ℝ} {i : ℕ} {X : Iso} (h : b.LinkPose u i X)
    (hi : i < b.dof) : b.twAt u i = b.T0 * X := h.worldLoop ht u b.T0 _ hi

/-- Along a trajectory every link moves with the twist given by the joint rates: the sum over its
ancestors of the joint rate times the joint axis. -/
theorem twAt_twist (ht : b.Tree) (hr : b.Rigid) (ha : b.AxesOK) {u : ℝ → ℕ → ℝ} {w : ℕ → ℝ}
    {s : ℝ} (hu : ∀ i < b.dof, HasDerivAt (fun s => u s i) (w i) s) (x : ℕ → ℝ) :
    ∀ i < b.dof, HasTwist (fun s => b.twAt (u s) i) ((b.sysAt (u s) x).V w i) s := by
  intro i
  induction i using Nat.strong_induction_on with
  | _ i ih =>
    intro hi
    have hw := sysAt_wf ht hr (u s) x
    have hT : HasTwist (fun s => b.TpAt i (u s i)) ((b.rb i).T.actM (w i • (b.rb i).joint.subspace)) s := by
      have h1 := (HasTwist.const (b.rb i).T s).mul
        (HasTwist.comp (u := fun s => u s i) ((b.rb i).joint.type.Tjoint_twist (u s i)) (hu i hi))
        (hr.link i hi)
      rw [zero_add, ← ha i hi] at h1
      exact h1
    have hax : (b.sysAt (u s) x).axis i = (b.twAt (u s) i).actM (b.rb i).joint.subspace := by
      unfold Sys.axis; rw [sysAt_Tw hi]; rfl
    have hsub : (b.rb i).T.actM (b.rb i).joint.subspace =
        (b.TpAt i (u s i)).actM (b.rb i).joint.subspace := by
      unfold TpAt
      rw [Iso.actM_mul _ _ (hr.link i hi), ha i hi, JType.Tjoint_subspace]
    cases hpar : b.par i with
    | none =>
      have hf : (fun s => b.twAt (u s) i) = fun s => b.T0 * b.TpAt i (u s i) := by
        funext s; rw [twAt_rec ht _ hi, hpar]
      have hV : (b.sysAt (u s) x).V w i = w i • (b.sysAt (u s) x).axis i := by
        rw [Sys.V_rec hw w hi, show (b.sysAt (u s) x).par i = none from hpar]
        first | rfl | simp
      rw [hf, hV, hax, twAt_rec ht _ hi, hpar]
      have h2 := (HasTwist.const b.T0 s).mul hT hr.base
      rw [zero_add, Iso.actM_smul, Iso.actM_smul, hsub, ← Iso.actM_mul _ _ hr.base] at h2
      exact h2
    | some p =>
      have hlt := ht.parLt i hi p hpar
      have hf : (fun s => b.twAt (u s) i) = fun s => b.twAt (u s) p * b.TpAt i (u s i) := by
        funext s; rw [twAt_rec ht _ hi, hpar]
      have hV : (b.sysAt (u s) x).V w i =
          (b.sysAt (u s) x).V w p + w i • (b.sysAt (u s) x).axis i := by
        rw [Sys.V_rec hw w hi, show (b.sysAt (u s) x).par i = some p from hpar]
      rw [hf, hV, hax, twAt_rec ht _ hi, hpar]
      have hvp := twAt_valid ht hr (u s) p (by omega)
      have h2 := (ih p hlt (by omega)).mul hT hvp
      rw [Iso.actM_smul, Iso.actM_smul, hsub, ← Iso.actM_mul _ _ hvp] at h2
      exact h2

/-- Derivative of a joint axis. -/
theorem axis_deriv (ht : b.Tree) (hr : b.Rigid) (ha : b.AxesOK) {u : ℝ → ℕ → ℝ} {w : ℕ → ℝ}
    {s : ℝ} (hu : ∀ i < b.dof, HasDerivAt (fun s => u s i) (w i) s) (x : ℝ → ℕ → ℝ) {i : ℕ}
    (hi : i < b.dof) : HasDerivMotion (fun s => (b.sysAt (u s) (x s)).axis i)
      (((b.sysAt (u s) (x s)).V w i).crossM ((b.sysAt (u s) (x s)).axis i)) s := by
  have h := (twAt_twist ht hr ha hu (x s) i hi).actM (b.rb i).joint.subspace
  have e : ∀ s, (b.sysAt (u s) (x s)).axis i = (b.twAt (u s) i).actM (b.rb i).joint.subspace := by
    intro s; unfold Sys.axis; rw [sysAt_Tw hi]; rfl
  simp only [e]
  exact h

/-- Derivative of the velocity of a link: the joint accelerations plus the velocity-product
acceleration. -/
theorem V_deriv (ht : b.Tree) (hr : b.Rigid) (ha : b.AxesOK) {u w : ℝ → ℕ → ℝ} {a : ℕ → ℝ}
    {s : ℝ} (hu : ∀ i < b.dof, HasDerivAt (fun s => u s i) (w s i) s)
    (hw : ∀ i < b.dof, HasDerivAt (fun s => w s i) (a i) s) (k : ℕ) :
    HasDerivMotion (fun s => (b.sysAt (u s) (w s)).V (w s) k)
      ((b.sysAt (u s) (w s)).V a k + (b.sysAt (u s) (w s)).bias k) s := by
  classical
  unfold Sys.V Sys.bias
  rw [← Finset.sum_add_distrib]
  refine HasDerivMotion.sum (range b.dof) fun j hj => ?_
  have hj' := mem_range.1 hj
  refine (HasDerivMotion.smul (f := fun s => (b.sysAt (u s) (w s)).Jw k j)
    (f' := ((b.sysAt (u s) (w s)).V (w s) j).crossM ((b.sysAt (u s) (w s)).Jw k j))
    (hw j hj') ?_).congr_deriv rfl
  unfold Sys.Jw
  by_cases h : Anc b.par j k
  · have : ∀ s, Anc (b.sysAt (u s) (w s)).par j k := fun _ => h
    simp only [this, if_true]
    exact axis_deriv ht hr ha hu w hj'
  · have : ∀ s, ¬ Anc (b.sysAt (u s) (w s)).par j k := fun _ => h
    simp only [this, if_false, Motion.crossM_zero]
    exact HasDerivMotion.const 0 s

end Body
end SpatialDyn
