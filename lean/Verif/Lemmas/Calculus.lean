import Verif.Lemmas.Spatial
import Verif.Model.Joint
import Mathlib.Analysis.Calculus.Deriv.Mul
import Mathlib.Analysis.Calculus.Deriv.Add

/-! Componentwise derivatives of vectors, matrices, transforms, motions and forces. -/

namespace SpatialDyn

/-- The derivative of a vector-valued function, component by component. -/
structure HasDerivVec (f : ℝ → Vec3) (f' : Vec3) (s : ℝ) : Prop where
  x : HasDerivAt (fun s => (f s).x) f'.x s
  y : HasDerivAt (fun s => (f s).y) f'.y s
  z : HasDerivAt (fun s => (f s).z) f'.z s

/-- The derivative of a matrix-valued function, entry by entry. -/
structure HasDerivMat (f : ℝ → Mat3) (f' : Mat3) (s : ℝ) : Prop where
  d00 : HasDerivAt (fun s => (f s).m00) f'.m00 s
  d01 : HasDerivAt (fun s => (f s).m01) f'.m01 s
  d02 : HasDerivAt (fun s => (f s).m02) f'.m02 s
  d10 : HasDerivAt (fun s => (f s).m10) f'.m10 s
  d11 : HasDerivAt (fun s => (f s).m11) f'.m11 s
  d12 : HasDerivAt (fun s => (f s).m12) f'.m12 s
  d20 : HasDerivAt (fun s => (f s).m20) f'.m20 s
  d21 : HasDerivAt (fun s => (f s).m21) f'.m21 s
  d22 : HasDerivAt (fun s => (f s).m22) f'.m22 s

/-- Cross product matrix: `(skew w) v = w × v`. -/
def skew (w : Vec3) : Mat3 := ⟨0, -w.z, w.y, w.z, 0, -w.x, -w.y, w.x, 0⟩

theorem skew_mulVec (w v : Vec3) : (skew w).mulVec v = w.cross v := by
  ext <;> simp [skew, Mat3.mulVec, Vec3.cross] <;> ring

/-- The rigid motion `T` moves with twist `V`, a spatial motion vector in the outer frame at its
origin: `R' = [ω]× R`, `t' = v + ω × t`. -/
structure HasTwist (T : ℝ → Iso) (V : Motion) (s : ℝ) : Prop where
  rot : HasDerivMat (fun s => (T s).R) (skew V.ang * (T s).R) s
  trans : HasDerivVec (fun s => (T s).t) (V.lin + V.ang.cross (T s).t) s

namespace HasDerivVec
variable {f g : ℝ → Vec3} {f' g' : Vec3} {s : ℝ}

theorem const (v : Vec3) (s : ℝ) : HasDerivVec (fun _ => v) 0 s :=
  ⟨hasDerivAt_const s _, hasDerivAt_const s _, hasDerivAt_const s _⟩
theorem add (hf : HasDerivVec f f' s) (hg : HasDerivVec g g' s) :
    HasDerivVec (fun s => f s + g s) (f' + g') s :=
  ⟨hf.x.add hg.x, hf.y.add hg.y, hf.z.add hg.z⟩
theorem sub (hf : HasDerivVec f f' s) (hg : HasDerivVec g g' s) :
    HasDerivVec (fun s => f s - g s) (f' - g') s :=
  ⟨hf.x.sub hg.x, hf.y.sub hg.y, hf.z.sub hg.z⟩
theorem neg (hf : HasDerivVec f f' s) : HasDerivVec (fun s => -f s) (-f') s :=
  ⟨hf.x.neg, hf.y.neg, hf.z.neg⟩
theorem congr_deriv (hf : HasDerivVec f f' s) (h : f' = g') : HasDerivVec f g' s := h ▸ hf
theorem smul {c : ℝ → ℝ} {c' : ℝ} (hc : HasDerivAt c c' s) (hf : HasDerivVec f f' s) :
    HasDerivVec (fun s => c s • f s) (c' • f s + c s • f') s :=
  ⟨hc.mul hf.x, hc.mul hf.y, hc.mul hf.z⟩
theorem cross (hf : HasDerivVec f f' s) (hg : HasDerivVec g g' s) :
    HasDerivVec (fun s => (f s).cross (g s)) (f'.cross (g s) + (f s).cross g') s := by
  refine ⟨((hf.y.mul hg.z).sub (hf.z.mul hg.y)).congr_deriv ?_,
    ((hf.z.mul hg.x).sub (hf.x.mul hg.z)).congr_deriv ?_,
    ((hf.x.mul hg.y).sub (hf.y.mul hg.x)).congr_deriv ?_⟩ <;> simp [Vec3.cross] <;> ring
theorem dot (hf : HasDerivVec f f' s) (hg : HasDerivVec g g' s) :
    HasDerivAt (fun s => (f s).dot (g s)) (f'.dot (g s) + (f s).dot g') s := by
  refine (((hf.x.mul hg.x).add (hf.y.mul hg.y)).add (hf.z.mul hg.z)).congr_deriv ?_
  simp [Vec3.dot]; ring
end HasDerivVec

theorem HasDerivMat.mulVec {M : ℝ → Mat3} {M' : Mat3} {f : ℝ → Vec3} {f' : Vec3} {s : ℝ}
    (hM : HasDerivMat M M' s) (hf : HasDerivVec f f' s) :
    HasDerivVec (fun s => (M s).mulVec (f s)) (M'.mulVec (f s) + (M s).mulVec f') s := by
  refine ⟨(((hM.d00.mul hf.x).add (hM.d01.mul hf.y)).add (hM.d02.mul hf.z)).congr_deriv ?_,
    (((hM.d10.mul hf.x).add (hM.d11.mul hf.y)).add (hM.d12.mul hf.z)).congr_deriv ?_,
    (((hM.d20.mul hf.x).add (hM.d21.mul hf.y)).add (hM.d22.mul hf.z)).congr_deriv ?_⟩ <;>
    simp [Mat3.mulVec] <;> ring

theorem HasDerivMat.congr_deriv {M : ℝ → Mat3} {M' N' : Mat3} {s : ℝ} (h : HasDerivMat M M' s)
    (e : M' = N') : HasDerivMat M N' s := e ▸ h

theorem HasDerivMat.const (M : Mat3) (s : ℝ) : HasDerivMat (fun _ => M) 0 s :=
  ⟨hasDerivAt_const s _, hasDerivAt_const s _, hasDerivAt_const s _, hasDerivAt_const s _,
   hasDerivAt_const s _, hasDerivAt_const s _, hasDerivAt_const s _, hasDerivAt_const s _,
   hasDerivAt_const s _⟩

theorem HasDerivMat.mul {M N : ℝ → Mat3} {M' N' : Mat3} {s : ℝ}
    (hM : HasDerivMat M M' s) (hN : HasDerivMat N N' s) :
    HasDerivMat (fun s => M s * N s) (M' * N s + M s * N') s := by
  refine ⟨(((hM.d00.mul hN.d00).add (hM.d01.mul hN.d10)).add (hM.d02.mul hN.d20)).congr_deriv ?_,
    (((hM.d00.mul hN.d01).add (hM.d01.mul hN.d11)).add (hM.d02.mul hN.d21)).congr_deriv ?_,
    (((hM.d00.mul hN.d02).add (hM.d01.mul hN.d12)).add (hM.d02.mul hN.d22)).congr_deriv ?_,
    (((hM.d10.mul hN.d00).add (hM.d11.mul hN.d10)).add (hM.d12.mul hN.d20)).congr_deriv ?_,
    (((hM.d10.mul hN.d01).add (hM.d11.mul hN.d11)).add (hM.d12.mul hN.d21)).congr_deriv ?_,
    (((hM.d10.mul hN.d02).add (hM.d11.mul hN.d12)).add (hM.d12.mul hN.d22)).congr_deriv ?_,
    (((hM.d20.mul hN.d00).add (hM.d21.mul hN.d10)).add (hM.d22.mul hN.d20)).congr_deriv ?_,
    (((hM.d20.mul hN.d01).add (hM.d21.mul hN.d11)).add (hM.d22.mul hN.d21)).congr_deriv ?_,
    (((hM.d20.mul hN.d02).add (hM.d21.mul hN.d12)).add (hM.d22.mul hN.d22)).congr_deriv ?_⟩ <;>
    simp <;> ring

theorem skew_rot {R : Mat3} (h : R.IsRot) (w : Vec3) : skew (R.mulVec w) * R = R * skew w := by
  have e : ∀ v : Vec3, (skew (R.mulVec w) * R).mulVec v = (R * skew w).mulVec v := by
    intro v
    rw [← Mat3.mulVec_mulVec, ← Mat3.mulVec_mulVec, skew_mulVec, skew_mulVec, h.cross]
  have h1 := e ⟨1, 0, 0⟩
  have h2 := e ⟨0, 1, 0⟩
  have h3 := e ⟨0, 0, 1⟩
  simp only [Mat3.mulVec, Vec3.ext_iff, mul_one, mul_zero, add_zero, zero_add] at h1 h2 h3
  exact Mat3.ext h1.1 h2.1 h3.1 h1.2.1 h2.2.1 h3.2.1 h1.2.2 h2.2.2 h3.2.2

theorem Mat3.add_mul' (a b c : Mat3) : (a + b) * c = a * c + b * c := by ext <;> simp <;> ring

theorem skew_add (a b : Vec3) : skew (a + b) = skew a + skew b := by
  ext <;> simp [skew] <;> ring

/-- Composition of moving frames: the twist of the product is the sum of the outer twist and the
inner twist carried to the outer frame. -/
theorem HasTwist.mul {A B : ℝ → Iso} {V W : Motion} {s : ℝ} (hA : HasTwist A V s)
    (hB : HasTwist B W s) (hv : (A s).Valid) :
    HasTwist (fun s => A s * B s) (V + (A s).actM W) s := by
  constructor
  · refine (hA.rot.mul hB.rot).congr_deriv ?_
    have : (V + (A s).actM W).ang = V.ang + (A s).R.mulVec W.ang := rfl
    rw [this, skew_add, Mat3.add_mul', Iso.mul_R, ← Mat3.mul_assoc' (A s).R, ← skew_rot hv,
      Mat3.mul_assoc', Mat3.mul_assoc']
  · refine ((hA.rot.mulVec hB.trans).add hA.trans).congr_deriv ?_
    simp only [← Mat3.mulVec_mulVec, skew_mulVec, Mat3.mulVec_add, ← hv.cross, Iso.actM,
      Motion.add_lin, Motion.add_ang, Iso.mul_t, Vec3.add_cross, Vec3.cross_add]
    rw [Vec3.cross_anti ((A s).R.mulVec W.ang) (A s).t]
    abel

theorem HasTwist.const (T : Iso) (s : ℝ) : HasTwist (fun _ => T) 0 s := by
  constructor
  · refine (HasDerivMat.const T.R s).congr_deriv ?_
    ext <;> simp [skew]
  · refine (HasDerivVec.const T.t s).congr_deriv ?_
    ext <;> simp

/-- Points carried by a moving frame. -/
theorem HasTwist.app {T : ℝ → Iso} {V : Motion} {s : ℝ} (h : HasTwist T V s) (p : Vec3) :
    HasDerivVec (fun s => (T s).app p) (V.lin + V.ang.cross ((T s).app p)) s := by
  refine ((h.rot.mulVec (HasDerivVec.const p s)).add h.trans).congr_deriv ?_
  simp only [← Mat3.mulVec_mulVec, skew_mulVec, Mat3.mulVec_zero, Iso.app, Vec3.cross_add]
  abel

/-- Chain rule for twists. -/
theorem HasTwist.comp {T : ℝ → Iso} {V : Motion} {s : ℝ} {u : ℝ → ℝ} {u' : ℝ}
    (h : HasTwist T V (u s)) (hu : HasDerivAt u u' s) : HasTwist (fun s => T (u s)) (u' • V) s := by
  have a := h.rot
  have b := h.trans
  refine ⟨⟨(a.d00.comp s hu).congr_deriv ?_, (a.d01.comp s hu).congr_deriv ?_,
    (a.d02.comp s hu).congr_deriv ?_, (a.d10.comp s hu).congr_deriv ?_,
    (a.d11.comp s hu).congr_deriv ?_, (a.d12.comp s hu).congr_deriv ?_,
    (a.d20.comp s hu).congr_deriv ?_, (a.d21.comp s hu).congr_deriv ?_,
    (a.d22.comp s hu).congr_deriv ?_⟩, ⟨(b.x.comp s hu).congr_deriv ?_,
    (b.y.comp s hu).congr_deriv ?_, (b.z.comp s hu).congr_deriv ?_⟩⟩ <;>
    simp [skew, Vec3.cross] <;> ring

theorem JType.Tjoint_valid (t : JType) (q : ℝ) : (t.Tjoint q).Valid := by
  have h := Real.sin_sq_add_cos_sq q
  cases t
  case undefined => exact Iso.valid_one
  case px => exact Mat3.isRot_one
  case py => exact Mat3.isRot_one
  case pz => exact Mat3.isRot_one
  all_goals
    constructor
    · ext <;> simp [JType.Tjoint, Mat3.T] <;> nlinarith
    · simp [JType.Tjoint, Mat3.det]; nlinarith

/-- The joint transform moves along its subspace: the twist per unit joint rate is the joint
subspace itself (which the transform leaves invariant). -/
theorem JType.Tjoint_twist (t : JType) (q : ℝ) : HasTwist t.Tjoint t.subspace q := by
  have hc : HasDerivAt (fun x => Real.cos x) (-Real.sin q) q := Real.hasDerivAt_cos q
  have hs : HasDerivAt (fun x => Real.sin x) (Real.cos q) q := Real.hasDerivAt_sin q
  have hns : HasDerivAt (fun x => -Real.sin x) (-Real.cos q) q := hs.neg
  have h0 : ∀ c : ℝ, HasDerivAt (fun _ : ℝ => c) 0 q := fun c => hasDerivAt_const q c
  have hi : ∀ c : ℝ, HasDerivAt (fun x : ℝ => x * c) c q := fun c => by
    simpa using (hasDerivAt_id q).mul_const c
  cases t
  case undefined =>
    exact HasTwist.const 1 q
  all_goals
    refine ⟨⟨?_, ?_, ?_, ?_, ?_, ?_, ?_, ?_, ?_⟩, ⟨?_, ?_, ?_⟩⟩ <;>
    simp [JType.Tjoint, JType.subspace, skew, Vec3.cross] <;>
    first | exact hc | exact hs | exact hns | exact h0 _ | exact hi _ | exact hasDerivAt_id q

theorem JType.Tjoint_subspace (t : JType) (q : ℝ) :
    (t.Tjoint q).actM t.subspace = t.subspace := by
  cases t <;> ext <;> simp [JType.Tjoint, JType.subspace, Iso.actM, Mat3.mulVec, Vec3.cross]

end SpatialDyn
