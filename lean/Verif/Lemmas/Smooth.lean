import Verif.Lemmas.Motion
import Verif.Lemmas.Tasks
import Mathlib.Analysis.SpecialFunctions.Trigonometric.Deriv
import Mathlib.Analysis.Calculus.ContDiff.Operations
import Mathlib.LinearAlgebra.Matrix.Adjugate

/-!
# The quantities of `Verif.Spec.World` depend smoothly on positions and rates

Componentwise smoothness of functions with values in the types of the model.
-/

namespace SpatialDyn

open Finset

open scoped ContDiff

variable {X : Type*} [NormedAddCommGroup X] [NormedSpace ℝ X]

/-- Smooth real function. -/
abbrev Sm (f : X → ℝ) : Prop := ContDiff ℝ ∞ f

/-- Componentwise smooth vector. -/
structure SmVec (f : X → Vec3) : Prop where
  x : Sm fun p => (f p).x
  y : Sm fun p => (f p).y
  z : Sm fun p => (f p).z

/-- Componentwise smooth matrix. -/
structure SmMat (f : X → Mat3) : Prop where
  m00 : Sm fun p => (f p).m00
  m01 : Sm fun p => (f p).m01
  m02 : Sm fun p => (f p).m02
  m10 : Sm fun p => (f p).m10
  m11 : Sm fun p => (f p).m11
  m12 : Sm fun p => (f p).m12
  m20 : Sm fun p => (f p).m20
  m21 : Sm fun p => (f p).m21
  m22 : Sm fun p => (f p).m22

/-- Componentwise smooth motion. -/
structure SmMotion (f : X → Motion) : Prop where
  lin : SmVec fun p => (f p).lin
  ang : SmVec fun p => (f p).ang

/-- Componentwise smooth force. -/
structure SmForce (f : X → Force) : Prop where
  lin : SmVec fun p => (f p).lin
  ang : SmVec fun p => (f p).ang

/-- Componentwise smooth isometry. -/
structure SmIso (f : X → Iso) : Prop where
  R : SmMat fun p => (f p).R
  t : SmVec fun p => (f p).t

section Closure
variable {f g : X → Vec3} {A B : X → Mat3} {m k : X → Motion} {u v : X → Force} {T U : X → Iso}
  {a : X → ℝ}

theorem SmVec.const (c : Vec3) : SmVec fun _ : X => c :=
  ⟨contDiff_const, contDiff_const, contDiff_const⟩

theorem SmMat.const (c : Mat3) : SmMat fun _ : X => c :=
  ⟨contDiff_const, contDiff_const, contDiff_const, contDiff_const, contDiff_const, contDiff_const,
    contDiff_const, contDiff_const, contDiff_const⟩

theorem SmVec.add (hf : SmVec f) (hg : SmVec g) : SmVec fun p => f p + g p :=
  ⟨hf.x.add hg.x, hf.y.add hg.y, hf.z.add hg.z⟩

theorem SmVec.sub (hf : SmVec f) (hg : SmVec g) : SmVec fun p => f p - g p :=
  ⟨hf.x.sub hg.x, hf.y.sub hg.y, hf.z.sub hg.z⟩

theorem SmVec.neg (hf : SmVec f) : SmVec fun p => -f p := ⟨hf.x.neg, hf.y.neg, hf.z.neg⟩

theorem SmVec.smul (ha : Sm a) (hf : SmVec f) : SmVec fun p => a p • f p :=
  ⟨ha.mul hf.x, ha.mul hf.y, ha.mul hf.z⟩

theorem SmVec.cross (hf : SmVec f) (hg : SmVec g) : SmVec fun p => (f p).cross (g p) :=
  ⟨(hf.y.mul hg.z).sub (hf.z.mul hg.y), (hf.z.mul hg.x).sub (hf.x.mul hg.z),
    (hf.x.mul hg.y).sub (hf.y.mul hg.x)⟩

theorem SmVec.dot (hf : SmVec f) (hg : SmVec g) : Sm fun p => (f p).dot (g p) :=
  ((hf.x.mul hg.x).add (hf.y.mul hg.y)).add (hf.z.mul hg.z)

theorem SmMat.mulVec (hA : SmMat A) (hf : SmVec f) : SmVec fun p => (A p).mulVec (f p) :=
  ⟨((hA.m00.mul hf.x).add (hA.m01.mul hf.y)).add (hA.m02.mul hf.z),
    ((hA.m10.mul hf.x).add (hA.m11.mul hf.y)).add (hA.m12.mul hf.z),
    ((hA.m20.mul hf.x).add (hA.m21.mul hf.y)).add (hA.m22.mul hf.z)⟩

theorem SmMat.mul (hA : SmMat A) (hB : SmMat B) : SmMat fun p => A p * B p :=
  ⟨((hA.m00.mul hB.m00).add (hA.m01.mul hB.m10)).add (hA.m02.mul hB.m20),
    ((hA.m00.mul hB.m01).add (hA.m01.mul hB.m11)).add (hA.m02.mul hB.m21),
    ((hA.m00.mul hB.m02).add (hA.m01.mul hB.m12)).add (hA.m02.mul hB.m22),
    ((hA.m10.mul hB.m00).add (hA.m11.mul hB.m10)).add (hA.m12.mul hB.m20),
    ((hA.m10.mul hB.m01).add (hA.m11.mul hB.m11)).add (hA.m12.mul hB.m21),
    ((hA.m10.mul hB.m02).add (hA.m11.mul hB.m12)).add (hA.m12.mul hB.m22),
    ((hA.m20.mul hB.m00).add (hA.m21.mul hB.m10)).add (hA.m22.mul hB.m20),
    ((hA.m20.mul hB.m01).add (hA.m21.mul hB.m11)).add (hA.m22.mul hB.m21),
    ((hA.m20.mul hB.m02).add (hA.m21.mul hB.m12)).add (hA.m22.mul hB.m22)⟩

theorem SmMat.tr (hA : SmMat A) : SmMat fun p => (A p).T :=
  ⟨hA.m00, hA.m10, hA.m20, hA.m01, hA.m11, hA.m21, hA.m02, hA.m12, hA.m22⟩

theorem SmIso.const (c : Iso) : SmIso fun _ : X => c := ⟨SmMat.const _, SmVec.const _⟩

theorem SmIso.mul (hT : SmIso T) (hU : SmIso U) : SmIso fun p => T p * U p :=
  ⟨hT.R.mul hU.R, (hT.R.mulVec hU.t).add hT.t⟩

theorem SmIso.inv (hT : SmIso T) : SmIso fun p => (T p).inv := ⟨hT.R.tr, (hT.R.tr.mulVec hT.t).neg⟩

theorem SmMotion.const (c : Motion) : SmMotion fun _ : X => c := ⟨SmVec.const _, SmVec.const _⟩

theorem SmForce.const (c : Force) : SmForce fun _ : X => c := ⟨SmVec.const _, SmVec.const _⟩

theorem SmMotion.add (hm : SmMotion m) (hk : SmMotion k) : SmMotion fun p => m p + k p :=
  ⟨hm.lin.add hk.lin, hm.ang.add hk.ang⟩

theorem SmMotion.neg (hm : SmMotion m) : SmMotion fun p => -m p := ⟨hm.lin.neg, hm.ang.neg⟩

theorem SmMotion.smul (ha : Sm a) (hm : SmMotion m) : SmMotion fun p => a p • m p :=
  ⟨.smul ha hm.lin, .smul ha hm.ang⟩

theorem SmForce.add (hu : SmForce u) (hv : SmForce v) : SmForce fun p => u p + v p :=
  ⟨hu.lin.add hv.lin, hu.ang.add hv.ang⟩

theorem SmMotion.sum {ι : Type*} (s : Finset ι) {m : ι → X → Motion} (h : ∀ i ∈ s, SmMotion (m i)) :
    SmMotion fun p => ∑ i ∈ s, m i p := by
  classical
  induction s using Finset.induction_on with
  | empty => simpa using SmMotion.const (X := X) 0
  | insert i s hi ih =>
    simp only [sum_insert hi]
    exact (h i (mem_insert_self i s)).add (ih fun j hj => h j (mem_insert_of_mem hj))

theorem SmIso.actM (hT : SmIso T) (hm : SmMotion m) : SmMotion fun p => (T p).actM (m p) :=
  ⟨(hT.R.mulVec hm.lin).sub ((hT.R.mulVec hm.ang).cross hT.t), hT.R.mulVec hm.ang⟩

theorem SmIso.actF (hT : SmIso T) (hu : SmForce u) : SmForce fun p => (T p).actF (u p) :=
  ⟨hT.R.mulVec hu.lin, (hT.R.mulVec hu.ang).sub ((hT.R.mulVec hu.lin).cross hT.t)⟩

theorem SmMotion.dot (hm : SmMotion m) (hu : SmForce u) : Sm fun p => (m p).dot (u p) :=
  (((((hm.lin.x.mul hu.lin.x).add (hm.lin.y.mul hu.lin.y)).add (hm.lin.z.mul hu.lin.z)).add
    (hm.ang.x.mul hu.ang.x)).add (hm.ang.y.mul hu.ang.y)).add (hm.ang.z.mul hu.ang.z)

theorem SmMotion.crossM (hm : SmMotion m) (hk : SmMotion k) :
    SmMotion fun p => (m p).crossM (k p) := by
  simp only [show ∀ p, (m p).crossM (k p) = ⟨(m p).lin.cross (k p).ang + (m p).ang.cross (k p).lin,
    (m p).ang.cross (k p).ang⟩ from fun p => by
      ext <;> simp [Motion.crossM, Vec3.cross] <;> ring]
  exact ⟨(hm.lin.cross hk.ang).add (hm.ang.cross hk.lin), hm.ang.cross hk.ang⟩

theorem SmMotion.crossF (hm : SmMotion m) (hu : SmForce u) :
    SmForce fun p => (m p).crossF (u p) := by
  simp only [show ∀ p, (m p).crossF (u p) = ⟨(m p).ang.cross (u p).lin,
    (m p).lin.cross (u p).lin + (m p).ang.cross (u p).ang⟩ from fun p => by
      ext <;> simp [Motion.crossF, Vec3.cross] <;> ring]
  exact ⟨hm.ang.cross hu.lin, (hm.lin.cross hu.lin).add (hm.ang.cross hu.ang)⟩

theorem SmMotion.inertia (hm : SmMotion m) (I : Inertia) : SmForce fun p => I.app (m p) :=
  ⟨(SmVec.smul contDiff_const hm.lin).add (hm.ang.cross (SmVec.const _)),
    (((SmMat.const I.Icom).mulVec hm.ang).sub (hm.lin.cross (SmVec.const _))).sub
      ((hm.ang.cross (SmVec.const _)).cross (SmVec.const _))⟩

theorem JType.Tjoint_smooth (t : JType) (ha : Sm a) : SmIso fun p => t.Tjoint (a p) := by
  have hs := Real.contDiff_sin.comp ha
  have hc := Real.contDiff_cos.comp ha
  have h0 : Sm fun _ : X => (0 : ℝ) := contDiff_const
  have h1 : Sm fun _ : X => (1 : ℝ) := contDiff_const
  cases t
  · exact SmIso.const 1
  · exact ⟨⟨h1, h0, h0, h0, hc, hs.neg, h0, hs, hc⟩, SmVec.const 0⟩
  · exact ⟨⟨hc, h0, hs, h0, h1, h0, hs.neg, h0, hc⟩, SmVec.const 0⟩
  · exact ⟨⟨hc, hs.neg, h0, hs, hc, h0, h0, h0, h1⟩, SmVec.const 0⟩
  · exact ⟨SmMat.const 1, SmVec.smul ha (SmVec.const _)⟩
  · exact ⟨SmMat.const 1, SmVec.smul ha (SmVec.const _)⟩
  · exact ⟨SmMat.const 1, SmVec.smul ha (SmVec.const _)⟩

end Closure

namespace Body
variable {b : Body} {q w : X → ℕ → ℝ}

theorem twAt_smooth (ht : b.Tree) (hq : ∀ i < b.dof, Sm fun p => q p i) :
    ∀ i < b.dof, SmIso fun p => b.twAt (q p) i := by
  intro i
  induction i using Nat.strong_induction_on with
  | _ i ih =>
    intro hi
    have hT : SmIso fun p => b.TpAt i (q p i) :=
      (SmIso.const (b.rb i).T).mul ((b.rb i).joint.type.Tjoint_smooth (hq i hi))
    have e : (fun p => b.twAt (q p) i) = fun p => match b.par i with
        | none => b.T0 * b.TpAt i (q p i)
        | some k => b.twAt (q p) k * b.TpAt i (q p i) := by
      funext p; exact twAt_rec ht (q p) hi
    rw [e]
    cases hp : b.par i with
    | none => exact (SmIso.const b.T0).mul hT
    | some k =>
      have := ht.parLt i hi k hp
      exact (ih k this (this.trans hi)).mul hT

section
variable (ht : b.Tree) (hq : ∀ i < b.dof, Sm fun p => q p i)
include ht hq

theorem sysAt_Tw_smooth (i : ℕ) : SmIso fun p => (b.sysAt (q p) (w p)).Tw i := by
  by_cases hi : i < b.dof
  · simp only [sysAt_Tw hi]
    exact twAt_smooth ht hq i hi
  · have : (fun p => (b.sysAt (q p) (w p)).Tw i) = fun _ => 1 := by
      funext p
      exact if_neg hi
    rw [this]
    exact SmIso.const 1

theorem axis_smooth (i : ℕ) : SmMotion fun p => (b.sysAt (q p) (w p)).axis i :=
  (sysAt_Tw_smooth ht hq i).actM (SmMotion.const (b.rb i).joint.subspace)

theorem Jw_smooth (k j : ℕ) : SmMotion fun p => (b.sysAt (q p) (w p)).Jw k j := by
  classical
  by_cases h : Anc b.par j k
  · have : (fun p => (b.sysAt (q p) (w p)).Jw k j) = fun p => (b.sysAt (q p) (w p)).axis j := by
      funext p; exact if_pos h
    rw [this]; exact axis_smooth ht hq j
  · have : (fun p => (b.sysAt (q p) (w p)).Jw k j) = fun p => 0 := by
      funext p; exact if_neg h
    rw [this]; exact SmMotion.const 0

theorem V_smooth {r : X → ℕ → ℝ} (hr : ∀ i < b.dof, Sm fun p => r p i) (k : ℕ) :
    SmMotion fun p => (b.sysAt (q p) (w p)).V (r p) k :=
  SmMotion.sum _ fun j hj => .smul (hr j (mem_range.1 hj)) (Jw_smooth ht hq k j)

theorem Iw_smooth {m : X → Motion} (hm : SmMotion m) (k : ℕ) :
    SmForce fun p => (b.sysAt (q p) (w p)).Iw k (m p) :=
  (sysAt_Tw_smooth ht hq k).actF
    (((sysAt_Tw_smooth ht hq k).inv.actM hm).inertia ((b.sysAt (fun _ => 0) fun _ => 0).Itot k))

theorem genForce_smooth {F : X → ℕ → Force} (hF : ∀ k < b.dof, SmForce fun p => F p k) (i : ℕ) :
    Sm fun p => (b.sysAt (q p) (w p)).genForce (F p) i :=
  ContDiff.sum fun k hk => (Jw_smooth ht hq k i).dot (hF k (mem_range.1 hk))

theorem massSpec_smooth (i j : ℕ) : Sm fun p => (b.sysAt (q p) (w p)).massSpec i j :=
  genForce_smooth ht hq (fun k _ => Iw_smooth ht hq (Jw_smooth ht hq k j) k) i

theorem gravitySpec_smooth (i : ℕ) : Sm fun p => (b.sysAt (q p) (w p)).gravitySpec i :=
  genForce_smooth ht hq (fun k _ => Iw_smooth ht hq (SmMotion.const (-⟨b.g, 0⟩)) k) i

theorem extSpec_smooth (fext : FExt) (i : ℕ) : Sm fun p => (b.sysAt (q p) (w p)).extSpec fext i :=
  (genForce_smooth ht hq (fun k _ => SmForce.const ((fext k).getD 0)) i).neg

theorem coriolisSpec_smooth (hw : ∀ i < b.dof, Sm fun p => w p i) (i : ℕ) :
    Sm fun p => (b.sysAt (q p) (w p)).coriolisSpec i := by
  refine genForce_smooth ht hq (fun k _ => ?_) i
  have hV : ∀ k, SmMotion fun p => (b.sysAt (q p) (w p)).V (b.sysAt (q p) (w p)).dq k :=
    fun k => V_smooth ht hq hw k
  have hb : SmMotion fun p => (b.sysAt (q p) (w p)).bias k :=
    SmMotion.sum _ fun j hj => .smul (hw j (mem_range.1 hj)) ((hV j).crossM (Jw_smooth ht hq k j))
  exact (Iw_smooth ht hq hb k).add ((hV k).crossF (Iw_smooth ht hq (hV k) k))

theorem idSpec_smooth (hw : ∀ i < b.dof, Sm fun p => w p i) {a : X → ℕ → ℝ}
    (ha : ∀ i < b.dof, Sm fun p => a p i) (fext : FExt) (cc grav : Bool) (i : ℕ) :
    Sm fun p => (b.sysAt (q p) (w p)).idSpec (a p) fext cc grav i := by
  have h1 : Sm fun p => ∑ j ∈ range b.dof, (b.sysAt (q p) (w p)).massSpec i j * a p j :=
    ContDiff.sum fun j hj => (massSpec_smooth ht hq i j).mul (ha j (mem_range.1 hj))
  have h2 : Sm fun p => if cc then (b.sysAt (q p) (w p)).coriolisSpec i else 0 := by
    cases cc
    · exact contDiff_const
    · exact coriolisSpec_smooth ht hq hw i
  have h3 : Sm fun p => if grav then (b.sysAt (q p) (w p)).gravitySpec i else 0 := by
    cases grav
    · exact contDiff_const
    · exact gravitySpec_smooth ht hq i
  exact ((h1.add h2).add h3).add (extSpec_smooth ht hq fext i)

end

end Body

/-! Solutions of linear systems. -/

theorem Sm.det {n : ℕ} {A : X → Matrix (Fin n) (Fin n) ℝ} (hA : ∀ i j, Sm fun p => A p i j) :
    Sm fun p => (A p).det := by
  simp only [Matrix.det_apply']
  exact ContDiff.sum fun σ _ => contDiff_const.mul (contDiff_prod fun i _ => hA _ _)

theorem Sm.inv_mulVec {n : ℕ} {A : X → Matrix (Fin n) (Fin n) ℝ} {r : X → Fin n → ℝ}
    (hA : ∀ i j, Sm fun p => A p i j) (hr : ∀ i, Sm fun p => r p i) (hd : ∀ p, (A p).det ≠ 0)
    (i : Fin n) : Sm fun p => ((A p)⁻¹.mulVec (r p)) i := by
  have hadj : ∀ j, Sm fun p => (A p).adjugate i j := by
    intro j
    simp only [Matrix.adjugate_apply]
    refine Sm.det fun k l => ?_
    by_cases hk : k = j
    · subst hk
      simp only [Matrix.updateRow_self]
      exact contDiff_const
    · simp only [Matrix.updateRow_ne hk]
      exact hA k l
  have e : (fun p => ((A p)⁻¹.mulVec (r p)) i) =
      fun p => ∑ j, ((A p).det)⁻¹ * (A p).adjugate i j * r p j := by
    funext p
    simp [Matrix.mulVec, dotProduct, Matrix.inv_def, Ring.inverse_eq_inv']
  rw [e]
  exact ContDiff.sum fun j _ => (((Sm.det hA).inv hd).mul (hadj j)).mul (hr j)

end SpatialDyn
