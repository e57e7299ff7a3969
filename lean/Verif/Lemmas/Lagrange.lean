import Verif.Lemmas.Mechanics

/-! Momentum of the joints, partial derivatives of the kinetic energy, and Lagrange's equations. -/

namespace SpatialDyn
open Finset

/-- The derivative of an inertia bilinear form. -/
theorem HasDerivMotion.bilin {f g : ℝ → Motion} {f' g' : Motion} {s : ℝ}
    (hf : HasDerivMotion f f' s) (hg : HasDerivMotion g g' s) (I : Inertia) :
    HasDerivAt (fun s => (f s).dot (I.app (g s)))
      (f'.dot (I.app (g s)) + (f s).dot (I.app g')) s := by
  have hc := HasDerivVec.const (I.mass • I.com) s
  have h1 := (hg.lin.smul (hasDerivAt_const s I.mass)).add (hg.ang.cross hc)
  have h2 := (((HasDerivMat.const I.Icom s).mulVec hg.ang).sub (hg.lin.cross hc)).sub
    ((hg.ang.cross (HasDerivVec.const I.com s)).cross hc)
  have h3 := (hf.lin.dot h1).add (hf.ang.dot h2)
  have e1 : (fun s => (f s).dot (I.app (g s))) = fun s => (f s).lin.dot
      (I.mass • (g s).lin + (g s).ang.cross (I.mass • I.com)) + (f s).ang.dot
      (I.Icom.mulVec (g s).ang - (g s).lin.cross (I.mass • I.com) -
        ((g s).ang.cross I.com).cross (I.mass • I.com)) := by
    funext s; rw [Motion.dot_eq]; rfl
  rw [e1]
  refine h3.congr_deriv ?_
  rw [Motion.dot_eq, Motion.dot_eq]
  simp [Inertia.app, Vec3.dot, Vec3.cross, Mat3.mulVec]
  ring

theorem Motion.crossM_sum {ι : Type*} (t : Finset ι) (a : Motion) (f : ι → Motion) :
    a.crossM (∑ i ∈ t, f i) = ∑ i ∈ t, a.crossM (f i) := by
  classical
  induction t using Finset.induction_on with
  | empty => simp
  | insert x t hx ih => rw [sum_insert hx, sum_insert hx, Motion.crossM_add, ih]

theorem Motion.sum_crossM {ι : Type*} (t : Finset ι) (a : Motion) (f : ι → Motion) :
    (∑ i ∈ t, f i).crossM a = ∑ i ∈ t, (f i).crossM a := by
  classical
  induction t using Finset.induction_on with
  | empty => simp
  | insert x t hx ih => rw [sum_insert hx, sum_insert hx, Motion.add_crossM, ih]

namespace Body
variable {b : Body} {E : Ext}

/-- Derivative of a column of the link Jacobian along a motion of the joints. -/
theorem Jw_deriv (ht : b.Tree) (hr : b.Rigid) (ha : b.AxesOK) {u : ℝ → ℕ → ℝ} {w : ℕ → ℝ}
    {s : ℝ} (hu : ∀ i < b.dof, HasDerivAt (fun s => u s i) (w i) s) (x : ℝ → ℕ → ℝ) (k : ℕ)
    {j : ℕ} (hj : j < b.dof) : HasDerivMotion (fun s => (b.sysAt (u s) (x s)).Jw k j)
      (((b.sysAt (u s) (x s)).V w j).crossM ((b.sysAt (u s) (x s)).Jw k j)) s := by
  classical
  unfold Sys.Jw
  by_cases h : Anc b.par j k
  · have : ∀ s, Anc (b.sysAt (u s) (x s)).par j k := fun _ => h
    simp only [this, if_true]
    exact axis_deriv ht hr ha hu x hj
  · have : ∀ s, ¬ Anc (b.sysAt (u s) (x s)).par j k := fun _ => h
    simp only [this, if_false, Motion.crossM_zero]
    exact HasDerivMotion.const 0 s

/-- Derivative of the inertia of a link applied to two moving vectors. -/
theorem Iw_deriv (ht : b.Tree) (hr : b.Rigid) (ha : b.AxesOK) {u : ℝ → ℕ → ℝ} {w : ℕ → ℝ}
    {s : ℝ} (hu : ∀ i < b.dof, HasDerivAt (fun s => u s i) (w i) s) (x : ℝ → ℕ → ℝ) {k : ℕ}
    (hk : k < b.dof) {f g : ℝ → Motion} {f' g' : Motion} (hf : HasDerivMotion f f' s)
    (hg : HasDerivMotion g g' s) :
    HasDerivAt (fun s => (f s).dot ((b.sysAt (u s) (x s)).Iw k (g s)))
      ((f' - ((b.sysAt (u s) (x s)).V w k).crossM (f s)).dot
          ((b.sysAt (u s) (x s)).Iw k (g s)) +
        (f s).dot ((b.sysAt (u s) (x s)).Iw k
          (g' - ((b.sysAt (u s) (x s)).V w k).crossM (g s)))) s := by
  have hval : ∀ s, (b.twAt (u s) k).Valid := fun s => twAt_valid ht hr (u s) k hk
  have htw := twAt_twist ht hr ha hu (x s) k hk
  have h := (htw.inv_actM (hval s) hf).bilin (htw.inv_actM (hval s) hg)
    ((b.sysAt (u s) (x s)).Itot k)
  have e : ∀ t m n, m.dot ((b.sysAt (u t) (x t)).Iw k n) =
      ((b.twAt (u t) k).inv.actM m).dot (((b.sysAt (u s) (x s)).Itot k).app
        ((b.twAt (u t) k).inv.actM n)) := by
    intro t m n
    unfold Sys.Iw
    rw [sysAt_Tw hk, (hval t).dot_actF]
    rfl
  simp only [e]
  exact h

/-- Every entry of the mass matrix has a derivative along a motion of the joints, linear in the
rates. -/
theorem mass_deriv (ht : b.Tree) (hr : b.Rigid) (ha : b.AxesOK) {u : ℝ → ℕ → ℝ} {w : ℕ → ℝ}
    {s : ℝ} (hu : ∀ i < b.dof, HasDerivAt (fun s => u s i) (w i) s) (x : ℝ → ℕ → ℝ) {i j : ℕ}
    (hi : i < b.dof) (hj : j < b.dof) :
    HasDerivAt (fun s => (b.sysAt (u s) (x s)).massSpec i j)
      (∑ k ∈ range b.dof, (((((b.sysAt (u s) (x s)).V w i).crossM ((b.sysAt (u s) (x s)).Jw k i)
          - ((b.sysAt (u s) (x s)).V w k).crossM ((b.sysAt (u s) (x s)).Jw k i)).dot
          ((b.sysAt (u s) (x s)).Iw k ((b.sysAt (u s) (x s)).Jw k j))) +
        ((b.sysAt (u s) (x s)).Jw k i).dot ((b.sysAt (u s) (x s)).Iw k
          (((b.sysAt (u s) (x s)).V w j).crossM ((b.sysAt (u s) (x s)).Jw k j)
            - ((b.sysAt (u s) (x s)).V w k).crossM ((b.sysAt (u s) (x s)).Jw k j))))) s :=
  HasDerivAt.fun_sum (u := range b.dof) fun k hk => Iw_deriv ht hr ha hu x (mem_range.1 hk)
    (Jw_deriv ht hr ha hu x k hi) (Jw_deriv ht hr ha hu x k hj)

/-- The part of the change of the momentum of joint `i` that is due to the motion of its axis. -/
noncomputable def axisTerm (σ : Sys) (w : ℕ → ℝ) (i : ℕ) : ℝ :=
  ∑ k ∈ range σ.n, ((σ.V w i).crossM (σ.Jw k i)).dot (σ.Iw k (σ.V w k))

/-- Rate of change of the momentum of joint `i`. -/
theorem momentum_deriv (ht : b.Tree) (hr : b.Rigid) (ha : b.AxesOK) {u w : ℝ → ℕ → ℝ} {a : ℕ → ℝ}
    {s : ℝ} (hu : ∀ i < b.dof, HasDerivAt (fun s => u s i) (w s i) s)
    (hw : ∀ i < b.dof, HasDerivAt (fun s => w s i) (a i) s) {i : ℕ} (hi : i < b.dof) :
    HasDerivAt (fun s => ∑ j ∈ range b.dof, (b.sysAt (u s) (w s)).massSpec i j * w s j)
      ((∑ j ∈ range b.dof, (b.sysAt (u s) (w s)).massSpec i j * a j) +
        (b.sysAt (u s) (w s)).coriolisSpec i + axisTerm (b.sysAt (u s) (w s)) (w s) i) s := by
  have e : (fun s => ∑ j ∈ range b.dof, (b.sysAt (u s) (w s)).massSpec i j * w s j) =
      fun s => ∑ k ∈ range b.dof, ((b.sysAt (u s) (w s)).Jw k i).dot ((b.sysAt (u s) (w s)).Iw k
        ((b.sysAt (u s) (w s)).V (w s) k)) := by
    funext s
    exact (Sys.genForce_Iw_V (σ := b.sysAt (u s) (w s)) (w s) i).symm
  rw [e]
  refine (HasDerivAt.fun_sum (u := range b.dof) fun k hk => Iw_deriv ht hr ha hu w
    (mem_range.1 hk) (Jw_deriv ht hr ha hu w k hi)
    (V_deriv ht hr ha hu hw k)).congr_deriv ?_
  have h1 := Sys.genForce_Iw_V (σ := b.sysAt (u s) (w s)) a i
  rw [show range b.dof = range (b.sysAt (u s) (w s)).n from rfl, ← h1]
  have hdq : (b.sysAt (u s) (w s)).dq = w s := rfl
  generalize b.sysAt (u s) (w s) = σ at *
  unfold Sys.coriolisSpec Sys.genForce axisTerm
  rw [← sum_add_distrib, ← sum_add_distrib]
  refine sum_congr rfl fun k _ => ?_
  rw [Motion.crossM_self, sub_zero, Sys.Iw_add, Motion.dot_add, Motion.dot_add, Motion.sub_dot,
    Motion.crossM_dot (σ.V (w s) k), hdq]
  ring

/-- Partial derivative of the kinetic energy with respect to the position of joint `i`. -/
theorem kinetic_partial (ht : b.Tree) (hr : b.Rigid) (ha : b.AxesOK)
    (hs : ∀ u w, (b.sysAt u w).SymI) (q w : ℕ → ℝ) {i : ℕ} (hi : i < b.dof) :
    HasDerivAt (fun s => (b.sysAt (Function.update q i s) w).energy2 w)
      (2 * axisTerm (b.sysAt q w) w i) (q i) := by
  classical
  have hu : ∀ j < b.dof, HasDerivAt (fun s => Function.update q i s j)
      (if j = i then 1 else 0) (q i) := fun j _ => by
    by_cases hij : j = i
    · subst hij
      simpa using hasDerivAt_id' (q j)
    · simpa [Function.update_of_ne hij, hij] using hasDerivAt_const (q i) (q j)
  have hV : ∀ m, (b.sysAt q w).V (fun j => if j = i then 1 else 0) m = (b.sysAt q w).Jw m i := by
    intro m
    unfold Sys.V
    rw [Finset.sum_eq_single i]
    · ext <;> simp
    · intro j _ hij; ext <;> simp [hij]
    · intro hn; exact absurd (mem_range.2 hi) hn
  have hVd : ∀ k, HasDerivMotion (fun s => (b.sysAt (Function.update q i s) w).V w k)
      (∑ j ∈ range b.dof, w j • ((b.sysAt q w).Jw j i).crossM ((b.sysAt q w).Jw k j)) (q i) := by
    intro k
    unfold Sys.V
    refine HasDerivMotion.sum (range b.dof) fun j hj => ?_
    have h1 := Jw_deriv ht hr ha (u := fun s => Function.update q i s) hu (fun _ => w) k
      (mem_range.1 hj)
    simp only [Function.update_eq_self] at h1
    rw [hV] at h1
    refine (HasDerivMotion.smul (hasDerivAt_const (q i) (w j)) h1).congr_deriv ?_
    rw [zero_smul, zero_add]
  have hwf := sysAt_wf ht hr q w
  -- the derivative of a link velocity, in the frame of the link
  have hkey : ∀ k, (∑ j ∈ range b.dof, w j • ((b.sysAt q w).Jw j i).crossM ((b.sysAt q w).Jw k j)) -
      ((b.sysAt q w).Jw k i).crossM ((b.sysAt q w).V w k) =
      ((b.sysAt q w).V w i).crossM ((b.sysAt q w).Jw k i) := by
    intro k
    rw [Motion.crossM_anti ((b.sysAt q w).V w i), sub_eq_iff_eq_add, neg_add_eq_sub,
      ← Motion.crossM_sub]
    unfold Sys.V
    rw [← sum_sub_distrib, Motion.crossM_sum]
    refine sum_congr rfl fun j hj => ?_
    have hj := mem_range.1 hj
    rw [← smul_sub, Motion.crossM_smul]
    congr 1
    have e : ∀ m l, (b.sysAt q w).Jw m l = if Anc b.par l m then (b.sysAt q w).axis l else 0 :=
      fun m l => by unfold Sys.Jw; exact if_congr Iff.rfl rfl rfl
    rw [e j i, e k j, e k i, e i j]
    by_cases hik : Anc b.par i k
    · by_cases hjk : Anc b.par j k
      · rw [if_pos hik, if_pos hjk]
        by_cases hij : Anc b.par i j
        · by_cases hji : Anc b.par j i
          · have := hij.antisymm ht.parLt hji hj
            subst this
            rw [if_pos hij, sub_self, Motion.crossM_self, Motion.crossM_zero]
          · rw [if_pos hij, if_neg hji, sub_zero]
        · have hji : Anc b.par j i := (hik.total hjk).resolve_left hij
          rw [if_neg hij, if_pos hji, sub_self, Motion.crossM_zero, Motion.zero_crossM]
      · have hji : ¬ Anc b.par j i := fun h => hjk (h.trans hik)
        rw [if_neg hjk, if_neg hji, sub_self, Motion.crossM_zero, Motion.crossM_zero]
    · rw [if_neg hik, Motion.zero_crossM]
      by_cases hjk : Anc b.par j k
      · have hij : ¬ Anc b.par i j := fun h => hik (h.trans hjk)
        rw [if_neg hij, Motion.zero_crossM]
      · rw [if_neg hjk, Motion.crossM_zero]
  unfold Sys.energy2
  rw [show axisTerm (b.sysAt q w) w i = ∑ k ∈ range b.dof, _ from rfl, mul_sum]
  refine HasDerivAt.fun_sum (u := range b.dof) fun k hk => ?_
  have h := Iw_deriv ht hr ha (u := fun s => Function.update q i s) hu (fun _ => w)
    (mem_range.1 hk) (hVd k) (hVd k)
  simp only [Function.update_eq_self] at h
  rw [hV, hkey, hwf.Iw_symm (hs q w) (mem_range.1 hk) ((b.sysAt q w).V w k)] at h
  exact h.congr_deriv (two_mul _).symm

end Body
end SpatialDyn
