import Verif.Lemmas.NearLog
import Verif.Lemmas.Field
import Verif.Lemmas.DMatrix
import Verif.Lemmas.DiscreteReach

/-! The root finding of `discrete::Integrate` is a contraction near the current position. -/

namespace SpatialDyn

open Finset Filter Asymptotics Topology Matrix
open scoped ContDiff

/-! ## Derivatives of displacements -/

theorem HasDerivMotion.app {f : ℝ → Motion} {f' : Motion} {s : ℝ} (h : HasDerivMotion f f' s)
    (a : Motion) (I : Inertia) :
    HasDerivAt (fun s => a.dot (I.app (f s))) (a.dot (I.app f')) s := by
  have hc := HasDerivVec.const (I.mass • I.com) s
  have h1 := (h.lin.smul (hasDerivAt_const s I.mass)).add (h.ang.cross hc)
  have h2 := (((HasDerivMat.const I.Icom s).mulVec h.ang).sub (h.lin.cross hc)).sub
    ((h.ang.cross (HasDerivVec.const I.com s)).cross hc)
  have h3 := ((HasDerivVec.const a.lin s).dot h1).add ((HasDerivVec.const a.ang s).dot h2)
  have e1 : (fun s => a.dot (I.app (f s))) = fun s => a.lin.dot
      (I.mass • (f s).lin + (f s).ang.cross (I.mass • I.com)) + a.ang.dot
      (I.Icom.mulVec (f s).ang - (f s).lin.cross (I.mass • I.com) -
        ((f s).ang.cross I.com).cross (I.mass • I.com)) := by
    funext s; rw [Motion.dot_eq]; rfl
  rw [e1]
  refine h3.congr_deriv ?_
  rw [Motion.dot_eq]
  simp [Inertia.app, Vec3.dot, Vec3.cross, Mat3.mulVec]

/-- The displacement as a motion moves with the displacement. -/
theorem HasDerivMat.twist {T : ℝ → Iso} {R' : Mat3} {t' : Vec3} {s : ℝ}
    (hR : HasDerivMat (fun s => (T s).R) R' s) (ht : HasDerivVec (fun s => (T s).t) t' s)
    {w : Vec3} (hw : R' = skew w) : HasDerivMotion (fun s => (T s).twist) ⟨t', w⟩ s := by
  subst hw
  refine ⟨ht, ⟨?_, ?_, ?_⟩⟩
  · exact ((hR.d21.sub hR.d12).div_const 2).congr_deriv (by simp [skew])
  · exact ((hR.d02.sub hR.d20).div_const 2).congr_deriv (by simp [skew])
  · exact ((hR.d10.sub hR.d01).div_const 2).congr_deriv (by simp [skew])

theorem skew_conj {R : Mat3} (h : R.IsRot) (w : Vec3) : R.T * (skew w * R) = skew (R.T.mulVec w) := by
  have : ∀ v, (R.T * (skew w * R)).mulVec v = (skew (R.T.mulVec w)).mulVec v := by
    intro v
    rw [← Mat3.mulVec_mulVec, ← Mat3.mulVec_mulVec, skew_mulVec, skew_mulVec,
      ← (Mat3.IsRot.cross h.T w (R.mulVec v)), Mat3.mulVec_mulVec, h.1, Mat3.one_mulVec]
  have h1 := this ⟨1, 0, 0⟩
  have h2 := this ⟨0, 1, 0⟩
  have h3 := this ⟨0, 0, 1⟩
  simp only [Mat3.mulVec, Vec3.mk.injEq, mul_one, mul_zero, add_zero, zero_add] at h1 h2 h3
  ext
  · exact h1.1
  · exact h2.1
  · exact h3.1
  · exact h1.2.1
  · exact h2.2.1
  · exact h3.2.1
  · exact h1.2.2
  · exact h2.2.2
  · exact h3.2.2

/-- Displacement towards a moving frame. -/
theorem HasTwist.ahead {T : ℝ → Iso} {V : Motion} (h : HasTwist T V 0) {A : Iso} (hA : T 0 = A)
    (hv : A.Valid) : HasDerivMotion (fun s => (A.inv * T s).twist) (A.inv.actM V) 0 := by
  have hR := (HasDerivMat.const A.R.T 0).mul h.rot
  have ht := ((HasDerivMat.const A.R.T 0).mulVec h.trans).add (HasDerivVec.const A.inv.t 0)
  have := HasDerivMat.twist (T := fun s => A.inv * T s) hR ht (w := A.R.T.mulVec V.ang) (by
    rw [hA, ← skew_conj hv]
    ext <;> simp)
  refine this.congr_deriv ?_
  rw [hA]
  have hT : ∀ a b : Vec3, A.R.T.mulVec (a.cross b) =
      (A.R.T.mulVec a).cross (A.R.T.mulVec b) := fun a b => (Mat3.IsRot.cross hv.T a b).symm
  simp only [Iso.actM, Iso.inv_R, Iso.inv_t, Mat3.mulVec_add, hT]
  congr 1
  generalize A.R.T.mulVec V.ang = a
  generalize A.R.T.mulVec V.lin = c
  generalize A.R.T.mulVec A.t = t
  ext <;> simp [Vec3.cross, Mat3.mulVec] <;> ring

/-- Displacement from a moving frame. -/
theorem HasTwist.behind {T : ℝ → Iso} {V : Motion} (h : HasTwist T V 0) {A : Iso} (hA : T 0 = A)
    (hv : A.Valid) : HasDerivMotion (fun s => ((T s).inv * A).twist) (-A.inv.actM V) 0 := by
  have hR := h.rot.transpose.mul (HasDerivMat.const A.R 0)
  have ht := (h.rot.transpose.mulVec (HasDerivVec.const A.t 0)).add
    (h.rot.transpose.mulVec h.trans).neg
  have := HasDerivMat.twist (T := fun s => (T s).inv * A) hR ht (w := -A.R.T.mulVec V.ang) (by
    rw [hA, ← Mat3.mulVec_neg, ← skew_conj hv, Mat3.T_mul, skew_T]
    ext <;> simp [Mat3.T] <;> ring)
  refine this.congr_deriv ?_
  rw [hA]
  have hT : ∀ a b : Vec3, A.R.T.mulVec (a.cross b) =
      (A.R.T.mulVec a).cross (A.R.T.mulVec b) := fun a b => (Mat3.IsRot.cross hv.T a b).symm
  have e : ∀ v : Vec3, (skew V.ang * A.R).T.mulVec v = -((A.R.T.mulVec V.ang).cross
      (A.R.T.mulVec v)) := by
    intro v
    rw [Mat3.T_mul, ← Mat3.mulVec_mulVec, skew_T, skew_mulVec, Vec3.neg_cross, Mat3.mulVec_neg, hT]
  simp only [e, Iso.actM, Iso.inv_R, Iso.inv_t, Mat3.mulVec_add, hT]
  generalize A.R.T.mulVec V.ang = a
  generalize A.R.T.mulVec V.lin = c
  generalize A.R.T.mulVec A.t = t
  have z : A.R.T.mulVec 0 = 0 := by ext <;> simp [Mat3.mulVec]
  rw [z]
  ext <;> simp [Vec3.cross] <;> ring

/-! ## Strict derivatives of the discrete momenta -/

namespace Body
variable {E : Ext} {b : Body} {d : Bool}

theorem padFin_at {n : ℕ} (v : Fin n → ℝ) (i : Fin n) : padFin v i = v i := by simp [padFin]

theorem _root_.SpatialDyn.Sys.V_neg (σ : Sys) (u : ℕ → ℝ) (k : ℕ) :
    σ.V (fun j => -u j) k = -σ.V u k := by
  unfold Sys.V
  simp only [neg_smul, sum_neg_distrib]

/-- Velocity of link `k`, in its own frame, caused by a unit rate of joint `i`. -/
noncomputable def bodyJ (b : Body) (u : ℕ → ℝ) (k i : ℕ) : Motion :=
  (b.twAt u k).inv.actM ((b.sysAt u fun _ => 0).Jw k i)

/-- A sum over the links of the work of discrete momenta. -/
noncomputable def momSum (b : Body) (E : Ext) (F : ℕ → State b.dof → Iso)
    (m : ℕ → State b.dof → Motion) (y : State b.dof) : ℝ :=
  ∑ k ∈ range b.dof, (m k y).dot (E.dlogT (F k y) ((b.rb k).inertia.app (E.log (F k y))))

/-- Joint-space inertia at a position. -/
noncomputable def massAt (b : Body) (q : Fin b.dof → ℝ) : Matrix (Fin b.dof) (Fin b.dof) ℝ :=
  toMat b.dof (b.sysAt (padFin q) fun _ => 0).massSpec

/-- The first-order motion of the displacements determines the derivative. -/
theorem momSum_strict (hE : E.NearLog) {F : ℕ → State b.dof → Iso} {m : ℕ → State b.dof → Motion}
    (hF : ∀ k < b.dof, SmIso (F k)) (hv : ∀ k < b.dof, ∀ y, (F k y).Valid)
    (h1 : ∀ k < b.dof, ∀ q, F k (q, 0) = 1) (hm : ∀ k < b.dof, SmMotion (m k))
    {q0 : Fin b.dof → ℝ} {r : Fin b.dof → ℝ}
    (hr : ∀ z : Fin b.dof → ℝ, ∃ w : ℕ → Motion,
      (∀ k < b.dof, HasDerivMotion (fun s : ℝ => (F k (q0, s • z)).twist) (w k) 0) ∧
      ∑ k ∈ range b.dof, (m k (q0, 0)).dot ((b.rb k).inertia.app (w k)) = ∑ j, r j * z j) :
    HasStrictFDerivAt (b.momSum E F m)
      (∑ j, r j • (ContinuousLinearMap.proj (R := ℝ) (φ := fun _ : Fin b.dof => ℝ) j).comp
        (ContinuousLinearMap.snd ℝ (Fin b.dof → ℝ) (Fin b.dof → ℝ))) (q0, 0) := by
  set p0 : State b.dof := (q0, 0) with hp0
  -- the linearised sum
  set ψ : State b.dof → ℝ := fun y =>
    ∑ k ∈ range b.dof, (m k p0).dot ((b.rb k).inertia.app (F k y).twist) with hψ
  have sψ : Sm ψ := ContDiff.sum fun k hk =>
    (SmMotion.const _).dot ((hF k (mem_range.1 hk)).twist.inertia _)
  have dψ := sψ.contDiffAt.hasStrictFDerivAt (x := p0) (by simp)
  have rest : HasStrictFDerivAt (fun y => ∑ k ∈ range b.dof,
      (((m k y).dot (E.dlogT (F k y) ((b.rb k).inertia.app (E.log (F k y)))) -
        (m k y).dot ((b.rb k).inertia.app (F k y).twist)) +
      (m k y - m k p0).dot ((b.rb k).inertia.app (F k y).twist)))
      (∑ k ∈ range b.dof, ((0 : State b.dof →L[ℝ] ℝ) + 0)) p0 := by
    refine HasStrictFDerivAt.fun_sum fun k hk => ?_
    have hk := mem_range.1 hk
    refine (mom_strict hE (hF k hk) (hv k hk) (h1 k hk q0) (hm k hk) _).add
      (dot_strict (u := fun y => m k y - m k p0) ?_ ((hF k hk).twist.inertia _) (sub_self _) ?_)
    · simpa only [sub_eq_add_neg] using (hm k hk).add (SmMotion.const (-m k p0))
    · rw [h1 k hk q0, Iso.twist_one, Inertia.app_zero]
  have all := dψ.add rest
  simp only [add_zero, sum_const_zero] at all
  have ef : b.momSum E F m = fun y => ψ y + ∑ k ∈ range b.dof,
      (((m k y).dot (E.dlogT (F k y) ((b.rb k).inertia.app (E.log (F k y)))) -
        (m k y).dot ((b.rb k).inertia.app (F k y).twist)) +
      (m k y - m k p0).dot ((b.rb k).inertia.app (F k y).twist)) := by
    funext y
    rw [hψ, ← sum_add_distrib]
    refine sum_congr rfl fun k _ => ?_
    rw [Motion.sub_dot]
    ring
  rw [ef]
  refine all.congr_fderiv (ContinuousLinearMap.ext fun v => ?_)
  have hd := dψ.hasFDerivAt
  have v1 : fderiv ℝ ψ p0 (v.1, 0) = 0 := by
    have hl : HasDerivAt (fun s : ℝ => (p0 + s • ((v.1, 0) : State b.dof))) (v.1, 0) 0 := by
      simpa using ((hasDerivAt_id (0 : ℝ)).smul_const ((v.1, 0) : State b.dof)).const_add p0
    have hd' : HasFDerivAt ψ (fderiv ℝ ψ p0) (p0 + (0 : ℝ) • ((v.1, 0) : State b.dof)) := by
      simpa using hd
    have := hd'.comp_hasDerivAt (0 : ℝ) hl
    have e0 : ψ ∘ (fun s : ℝ => (p0 + s • ((v.1, 0) : State b.dof))) = fun _ => 0 := by
      funext s
      refine sum_eq_zero fun k hk => ?_
      have : p0 + s • ((v.1, 0) : State b.dof) = (q0 + s • v.1, 0) := by
        rw [hp0]; ext <;> simp
      beta_reduce
      rw [this, h1 k (mem_range.1 hk), Iso.twist_one, Inertia.app_zero, Motion.dot_zero]
    rw [e0] at this
    exact this.unique (hasDerivAt_const _ _)
  have v2 : fderiv ℝ ψ p0 (0, v.2) = ∑ j, r j * v.2 j := by
    have hl : HasDerivAt (fun s : ℝ => (p0 + s • ((0, v.2) : State b.dof))) (0, v.2) 0 := by
      simpa using ((hasDerivAt_id (0 : ℝ)).smul_const ((0, v.2) : State b.dof)).const_add p0
    have hd' : HasFDerivAt ψ (fderiv ℝ ψ p0) (p0 + (0 : ℝ) • ((0, v.2) : State b.dof)) := by
      simpa using hd
    have := hd'.comp_hasDerivAt (0 : ℝ) hl
    obtain ⟨w, hw, hs⟩ := hr v.2
    have e0 : ψ ∘ (fun s : ℝ => (p0 + s • ((0, v.2) : State b.dof))) = fun s =>
        ∑ k ∈ range b.dof, (m k p0).dot ((b.rb k).inertia.app (F k (q0, s • v.2)).twist) := by
      funext s
      have : p0 + s • ((0, v.2) : State b.dof) = (q0, s • v.2) := by
        rw [hp0]; ext <;> simp
      simp only [Function.comp, hψ, this]
    rw [e0] at this
    rw [← hs]
    exact this.unique (HasDerivAt.fun_sum fun k hk => (hw k (mem_range.1 hk)).app _ _)
  have : v = (v.1, 0) + (0, v.2) := by ext <;> simp
  rw [this, map_add, v1, v2]
  simp [ContinuousLinearMap.sum_apply]

/-- Displacement of link `k` when the joints go from `y.1` ahead by `y.2`. -/
noncomputable def aheadF (b : Body) (k : ℕ) (y : State b.dof) : Iso :=
  b.disp (padFin y.1) (padFin (y.1 + y.2)) k

/-- Displacement of link `k` when the joints arrive at `y.1` from `y.2` behind. -/
noncomputable def behindF (b : Body) (k : ℕ) (y : State b.dof) : Iso :=
  b.disp (padFin (y.1 - y.2)) (padFin y.1) k

/-- Generalised momentum of the displacements ahead. -/
noncomputable def nextMom (b : Body) (E : Ext) (y : State b.dof) (i : Fin b.dof) : ℝ :=
  b.momSum E b.aheadF (fun k y => b.bodyJ (padFin y.1) k i) y

/-- Generalised momentum of the displacements behind. -/
noncomputable def prevMom (b : Body) (E : Ext) (y : State b.dof) (i : Fin b.dof) : ℝ :=
  b.momSum E b.behindF (fun k y => (b.behindF k y).actM (b.bodyJ (padFin y.1) k i)) y

section
variable (h : Inv E b)
include h

theorem disp_self (u : ℕ → ℝ) {k : ℕ} (hk : k < b.dof) : b.disp u u k = 1 :=
  (twAt_valid h.tree h.rigid u k hk).inv_mul

theorem bodyJ_smooth (i : ℕ) {k : ℕ} (hk : k < b.dof) :
    SmMotion fun y : State b.dof => b.bodyJ (padFin y.1) k i :=
  (twAt_smooth h.tree (fun i _ => padFin_smooth contDiff_fst i) k hk).inv.actM
    (Jw_smooth (w := fun _ _ => 0) h.tree (fun i _ => padFin_smooth contDiff_fst i) k i)

theorem aheadF_smooth {k : ℕ} (hk : k < b.dof) : SmIso (b.aheadF k) :=
  (twAt_smooth h.tree (fun i _ => padFin_smooth contDiff_fst i) k hk).inv.mul
    (twAt_smooth h.tree (fun i _ => padFin_smooth (contDiff_fst.add contDiff_snd) i) k hk)

theorem behindF_smooth {k : ℕ} (hk : k < b.dof) : SmIso (b.behindF k) :=
  (twAt_smooth h.tree (fun i _ => padFin_smooth (contDiff_fst.sub contDiff_snd) i) k hk).inv.mul
    (twAt_smooth h.tree (fun i _ => padFin_smooth contDiff_fst i) k hk)

/-- The row of the joint-space inertia, from the velocities of the links in their own frames. -/
theorem massAt_row (hl : ∀ k < b.dof, b.load k = none) (q z : Fin b.dof → ℝ) (i : Fin b.dof) :
    ∑ k ∈ range b.dof, (b.bodyJ (padFin q) k i).dot ((b.rb k).inertia.app
      ((b.twAt (padFin q) k).inv.actM ((b.sysAt (padFin q) fun _ => 0).V (padFin z) k))) =
      ∑ j, b.massAt q i j * z j := by
  have e : ∀ k < b.dof, (b.twAt (padFin q) k).inv.actM ((b.sysAt (padFin q) fun _ => 0).V (padFin z) k)
      = ∑ j : Fin b.dof, z j • b.bodyJ (padFin q) k j := by
    intro k hk
    unfold Sys.V bodyJ
    rw [Iso.actM_sum, show (b.sysAt (padFin q) fun _ => 0).n = b.dof from rfl,
      ← Fin.sum_univ_eq_sum_range]
    simp only [Iso.actM_smul, padFin_at]
  have e2 : ∀ j : Fin b.dof, b.massAt q i j =
      ∑ k ∈ range b.dof, (b.bodyJ (padFin q) k i).dot ((b.rb k).inertia.app
        (b.bodyJ (padFin q) k j)) := by
    intro j
    show (b.sysAt (padFin q) fun _ => 0).massSpec i j = _
    unfold Sys.massSpec Sys.Iw
    refine sum_congr rfl fun k hk => ?_
    have hk : k < b.dof := mem_range.1 hk
    rw [sysAt_Tw hk, (twAt_valid h.tree h.rigid (padFin q) k hk).dot_actF]
    have : (b.sysAt (padFin q) fun _ => 0).Itot k = (b.rb k).inertia := by
      unfold Sys.Itot
      rw [show (b.sysAt (padFin q) fun _ => 0).load k = none from hl k hk]
      rfl
    rw [this]
    rfl
  simp only [e2, sum_mul]
  rw [sum_comm]
  refine sum_congr rfl fun k hk => ?_
  rw [e k (mem_range.1 hk), Inertia.app_sum, Motion.dot_sum]
  refine sum_congr rfl fun j _ => ?_
  rw [Inertia.app_smul, Motion.dot_smul]
  ring

attribute [local irreducible] Body.twAt Body.sysAt

theorem nextMom_strict (hE : E.NearLog) (ha : b.AxesOK) (hl : ∀ k < b.dof, b.load k = none)
    (q0 : Fin b.dof → ℝ) (i : Fin b.dof) :
    HasStrictFDerivAt (fun y => b.nextMom E y i)
      (∑ j, b.massAt q0 i j • (ContinuousLinearMap.proj (R := ℝ) (φ := fun _ : Fin b.dof => ℝ) j).comp
        (ContinuousLinearMap.snd ℝ (Fin b.dof → ℝ) (Fin b.dof → ℝ))) (q0, 0) := by
  refine momSum_strict hE (fun k hk => aheadF_smooth h hk) (fun k hk y => disp_valid h _ _ hk)
    (fun k hk q => by unfold aheadF; simp only [add_zero]; exact disp_self h _ hk)
    (fun k hk => bodyJ_smooth h i hk) fun z =>
      ⟨fun k => (b.twAt (padFin q0) k).inv.actM ((b.sysAt (padFin q0) fun _ => 0).V (padFin z) k),
        fun k hk => ?_, massAt_row h hl q0 z i⟩
  have hu : ∀ j < b.dof, HasDerivAt (fun s : ℝ => padFin (q0 + s • z) j) (padFin z j) 0 := by
    intro j hj
    unfold padFin
    simp only [dif_pos hj, Pi.add_apply, Pi.smul_apply, smul_eq_mul]
    simpa using ((hasDerivAt_id (0 : ℝ)).mul_const (z ⟨j, hj⟩)).const_add (q0 ⟨j, hj⟩)
  have ht := twAt_twist h.tree h.rigid ha hu (fun _ => 0) k hk
  have e0 : q0 + (0 : ℝ) • z = q0 := by simp
  rw [e0] at ht
  exact ht.ahead (A := b.twAt (padFin q0) k) (by rw [e0]) (twAt_valid h.tree h.rigid _ k hk)

theorem prevMom_strict (hE : E.NearLog) (ha : b.AxesOK) (hl : ∀ k < b.dof, b.load k = none)
    (q0 : Fin b.dof → ℝ) (i : Fin b.dof) :
    HasStrictFDerivAt (fun y => b.prevMom E y i)
      (∑ j, b.massAt q0 i j • (ContinuousLinearMap.proj (R := ℝ) (φ := fun _ : Fin b.dof => ℝ) j).comp
        (ContinuousLinearMap.snd ℝ (Fin b.dof → ℝ) (Fin b.dof → ℝ))) (q0, 0) := by
  have hone : ∀ k < b.dof, ∀ q, b.behindF k (q, 0) = 1 := fun k hk q => by
    unfold behindF; simp only [sub_zero]; exact disp_self h _ hk
  refine momSum_strict hE (fun k hk => behindF_smooth h hk) (fun k hk y => disp_valid h _ _ hk)
    hone (fun k hk => (behindF_smooth h hk).actM (bodyJ_smooth h i hk)) fun z =>
      ⟨fun k => (b.twAt (padFin q0) k).inv.actM ((b.sysAt (padFin q0) fun _ => 0).V (padFin z) k),
        fun k hk => ?_, ?_⟩
  · have hu : ∀ j < b.dof, HasDerivAt (fun s : ℝ => padFin (q0 - s • z) j) (padFin (-z) j) 0 := by
      intro j hj
      unfold padFin
      simp only [dif_pos hj, Pi.sub_apply, Pi.smul_apply, smul_eq_mul, Pi.neg_apply]
      simpa using ((hasDerivAt_id (0 : ℝ)).mul_const (z ⟨j, hj⟩)).const_sub (q0 ⟨j, hj⟩)
    have ht := twAt_twist h.tree h.rigid ha hu (fun _ => 0) k hk
    have e0 : q0 - (0 : ℝ) • z = q0 := by simp
    rw [e0] at ht
    refine (ht.behind (A := b.twAt (padFin q0) k) (by rw [e0])
      (twAt_valid h.tree h.rigid _ k hk)).congr_deriv ?_
    have : padFin (-z) = fun j => -padFin z j := by
      funext j; unfold padFin; split <;> simp
    rw [this, Sys.V_neg, Iso.actM_neg, neg_neg]
  · rw [← massAt_row h hl q0 z i]
    refine sum_congr rfl fun k hk => ?_
    rw [hone k (mem_range.1 hk), Iso.one_actM]

end

end Body
end SpatialDyn
