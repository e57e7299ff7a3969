import Verif.Lemmas.Peano
import Verif.Lemmas.Loop
import Verif.Lemmas.Newton

/-! Displacements of links and their momenta to second order in the step. -/

namespace SpatialDyn

open Finset Filter Asymptotics Topology
open scoped ContDiff

/-! ## Rules for motions and forces -/

/-- Expansion of a force. -/
structure P2F (f : ℝ → Force) (a b c : Force) : Prop where
  lin : P2V (fun s => (f s).lin) a.lin b.lin c.lin
  ang : P2V (fun s => (f s).ang) a.ang b.ang c.ang

theorem P2V.smul {f : ℝ → Vec3} {a b c : Vec3} (k : ℝ) (h : P2V f a b c) :
    P2V (fun s => k • f s) (k • a) (k • b) (k • c) :=
  ⟨h.x.smul k, h.y.smul k, h.z.smul k⟩

theorem P2V.sub {f g : ℝ → Vec3} {a b c a' b' c' : Vec3} (h : P2V f a b c) (h' : P2V g a' b' c') :
    P2V (fun s => f s - g s) (a - a') (b - b') (c - c') :=
  ⟨h.x.sub h'.x, h.y.sub h'.y, h.z.sub h'.z⟩

theorem P2M.congr {f : ℝ → Motion} {a b c a' b' c' : Motion} (h : P2M f a b c) (ha : a = a')
    (hb : b = b') (hc : c = c') : P2M f a' b' c' := by
  subst ha hb hc; exact h

theorem Mat3.zero_mulVec' (v : Vec3) : (0 : Mat3).mulVec v = 0 := by ext <;> simp [Mat3.mulVec]

theorem P2M.app {f : ℝ → Motion} {a b c : Motion} (h : P2M f a b c) (I : Inertia) :
    P2F (fun s => I.app (f s)) (I.app a) (I.app b) (I.app c) := by
  have hc := P2V.const (I.mass • I.com)
  have hd := P2V.const I.com
  constructor
  · exact ((h.lin.smul I.mass).add (h.ang.cross hc)).congr rfl (by simp [Inertia.app])
      (by simp [Inertia.app])
  · exact ((((P2Mat.const I.Icom).mulVec h.ang).sub (h.lin.cross hc)).sub
      ((h.ang.cross hd).cross hc)).congr rfl (by simp [Inertia.app, Mat3.zero_mulVec'])
      (by simp [Inertia.app, Mat3.zero_mulVec'])

theorem P2M.dot {f : ℝ → Motion} {g : ℝ → Force} {a b c : Motion} {a' b' c' : Force}
    (h : P2M f a b c) (h' : P2F g a' b' c') :
    P2 (fun s => (f s).dot (g s)) (a.dot a') (a.dot b' + b.dot a')
      (a.dot c' + b.dot b' + c.dot a') := by
  have := (h.lin.dot h'.lin).add (h.ang.dot h'.ang)
  have e : (fun s => (f s).dot (g s)) = fun s => (f s).lin.dot (g s).lin + (f s).ang.dot (g s).ang := by
    funext s; rw [Motion.dot_eq]
  rw [e]
  refine this.congr ?_ ?_ ?_ <;> simp only [Motion.dot_eq] <;> ring

theorem P2M.const (a : Motion) : P2M (fun _ => a) a 0 0 := ⟨P2V.const _, P2V.const _⟩

/-! ## Frames -/

section
variable {T : ℝ → Iso} {V : ℝ → Motion} {V' : Motion}

theorem HasDerivMotion.constActM {f : ℝ → Motion} {f' : Motion} {s : ℝ} (A : Iso)
    (h : HasDerivMotion f f' s) : HasDerivMotion (fun s => A.actM (f s)) (A.actM f') s := by
  have hR := HasDerivMat.const A.R s
  have ht := HasDerivVec.const A.t s
  have ha := hR.mulVec h.ang
  refine ⟨((hR.mulVec h.lin).sub (ha.cross ht)).congr_deriv ?_, ha.congr_deriv ?_⟩
  · simp [Iso.actM, Mat3.zero_mulVec']
  · simp [Iso.actM, Mat3.zero_mulVec']

theorem HasDerivVec.skew {f : ℝ → Vec3} {f' : Vec3} {s : ℝ} (h : HasDerivVec f f' s) :
    HasDerivMat (fun s => SpatialDyn.skew (f s)) (SpatialDyn.skew f') s :=
  ⟨hasDerivAt_const _ _, h.z.neg, h.y, h.z, hasDerivAt_const _ _, h.x.neg, h.y.neg, h.x,
    hasDerivAt_const _ _⟩

/-- A frame that starts at the identity, to second order. -/
theorem HasTwist.expand (h : ∀ s, HasTwist T (V s) s) (hV : HasDerivMotion V V' 0) (h1 : T 0 = 1) :
    P2Mat (fun s => (T s).R) 1 (skew (V 0).ang)
      ((1 / 2 : ℝ) • (skew V'.ang + skew (V 0).ang * skew (V 0).ang)) ∧
    P2V (fun s => (T s).t) 0 (V 0).lin ((1 / 2 : ℝ) • (V'.lin + (V 0).ang.cross (V 0).lin)) := by
  have e1 : (T 0).R = 1 := by rw [h1]; rfl
  have e2 : (T 0).t = 0 := by rw [h1]; rfl
  constructor
  · have hd : HasDerivMat (fun s => skew (V s).ang * (T s).R)
        (skew V'.ang + skew (V 0).ang * skew (V 0).ang) 0 := by
      refine (hV.ang.skew.mul (h 0).rot).congr_deriv ?_
      rw [e1]
      ext <;> simp
    refine (P2Mat.of_deriv (fun s => (h s).rot) hd).congr e1 ?_ rfl
    rw [e1]
    ext <;> simp
  · have hd : HasDerivVec (fun s => (V s).lin + (V s).ang.cross (T s).t)
        (V'.lin + (V 0).ang.cross (V 0).lin) 0 := by
      refine (hV.lin.add (hV.ang.cross (h 0).trans)).congr_deriv ?_
      rw [e2]
      simp
    refine (P2V.of_deriv (fun s => (h s).trans) hd).congr e2 ?_ rfl
    rw [e2]
    simp

theorem P2.half {f g : ℝ → ℝ} {a b c a' b' c' : ℝ} (h : P2 f a b c) (h' : P2 g a' b' c') :
    P2 (fun s => (f s - g s) / 2) ((a - a') / 2) ((b - b') / 2) ((c - c') / 2) := by
  have := ((h.sub h').smul (1 / 2)).congr (a' := (a - a') / 2) (b' := (b - b') / 2)
    (c' := (c - c') / 2) (by ring) (by ring) (by ring)
  have e : (fun s => (f s - g s) / 2) = fun s => 1 / 2 * (f s - g s) := by funext s; ring
  rw [e]
  exact this

/-- The displacement as a motion. -/
theorem P2Mat.twist {A B C : Mat3} {a b c : Vec3} (hR : P2Mat (fun s => (T s).R) A B C)
    (ht : P2V (fun s => (T s).t) a b c) : P2M (fun s => (T s).twist) (Iso.twist ⟨A, a⟩)
      (Iso.twist ⟨B, b⟩) (Iso.twist ⟨C, c⟩) :=
  ⟨ht, hR.m21.half hR.m12, hR.m02.half hR.m20, hR.m10.half hR.m01⟩

theorem HasTwist.expand_twist (h : ∀ s, HasTwist T (V s) s) (hV : HasDerivMotion V V' 0)
    (h1 : T 0 = 1) : P2M (fun s => (T s).twist) 0 (V 0)
      ((1 / 2 : ℝ) • (V' + ⟨(V 0).ang.cross (V 0).lin, 0⟩)) := by
  obtain ⟨hR, ht⟩ := HasTwist.expand h hV h1
  refine (hR.twist ht).congr ?_ ?_ ?_
  · ext <;> simp [Iso.twist]
  · ext <;> simp [Iso.twist, skew]
  · ext <;> simp [Iso.twist, skew] <;> ring

/-- The inverse of a frame that starts at the identity. -/
theorem HasTwist.expand_inv (h : ∀ s, HasTwist T (V s) s) (hV : HasDerivMotion V V' 0)
    (h1 : T 0 = 1) :
    P2Mat (fun s => (T s).inv.R) 1 (skew (-(V 0).ang))
      ((1 / 2 : ℝ) • (skew (-V'.ang) + skew (V 0).ang * skew (V 0).ang)) ∧
    P2V (fun s => (T s).inv.t) 0 (-(V 0).lin)
      ((1 / 2 : ℝ) • (-V'.lin + (V 0).ang.cross (V 0).lin)) := by
  obtain ⟨hR, ht⟩ := HasTwist.expand h hV h1
  constructor
  · refine hR.T.congr ?_ ?_ ?_
    · ext <;> simp [Mat3.T]
    · ext <;> simp [Mat3.T, skew]
    · ext <;> simp [Mat3.T, skew] <;> ring
  · refine (hR.T.mulVec ht).neg.congr ?_ ?_ ?_
    · simp
    · ext <;> simp [Mat3.T, Mat3.mulVec]
    · ext <;> simp [Mat3.T, skew, Mat3.mulVec, Vec3.cross] <;> ring

theorem HasTwist.expand_inv_twist (h : ∀ s, HasTwist T (V s) s) (hV : HasDerivMotion V V' 0)
    (h1 : T 0 = 1) : P2M (fun s => (T s).inv.twist) 0 (-V 0)
      ((1 / 2 : ℝ) • (-V' + ⟨(V 0).ang.cross (V 0).lin, 0⟩)) := by
  obtain ⟨hR, ht⟩ := HasTwist.expand_inv h hV h1
  refine (hR.twist ht).congr ?_ ?_ ?_
  · ext <;> simp [Iso.twist]
  · ext <;> simp [Iso.twist, skew] <;> ring
  · ext <;> simp [Iso.twist, skew] <;> ring

/-- A motion carried by the inverse of the frame. -/
theorem HasTwist.expand_inv_actM (h : ∀ s, HasTwist T (V s) s) (hV : HasDerivMotion V V' 0)
    (h1 : T 0 = 1) (a : Motion) : ∃ c, P2M (fun s => (T s).inv.actM a) a (-(V 0).crossM a) c := by
  obtain ⟨hR, ht⟩ := HasTwist.expand_inv h hV h1
  have h2 := hR.mulVec (P2V.const a.ang)
  have h3 := (hR.mulVec (P2V.const a.lin)).sub (h2.cross ht)
  refine ⟨⟨_, _⟩, ⟨h3.congr ?_ ?_ rfl, h2.congr ?_ ?_ rfl⟩⟩
  · ext <;> simp [Mat3.mulVec, Vec3.cross]
  · ext <;> simp [Mat3.mulVec, Vec3.cross, skew, Motion.crossM] <;> ring
  · ext <;> simp [Mat3.mulVec, Vec3.cross]
  · ext <;> simp [Mat3.mulVec, Vec3.cross, skew, Motion.crossM] <;> ring

end

end SpatialDyn
