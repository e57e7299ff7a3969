import Verif.Lemmas.Expand

/-! The momenta of the displacements of a step, to second order in its length. -/

namespace SpatialDyn

open Finset Filter Asymptotics Topology Matrix
open scoped ContDiff

namespace Body
variable {E : Ext} {b : Body} {d : Bool}

/-- Positions, last rates, next rates. -/
abbrev Rates (n : ℕ) : Type := (Fin n → ℝ) × (Fin n → ℝ) × (Fin n → ℝ)

/-- Velocity of a link in its own frame. -/
noncomputable def bodyV (b : Body) (q u : Fin b.dof → ℝ) (k : ℕ) : Motion :=
  (b.twAt (padFin q) k).inv.actM ((b.sysAt (padFin q) fun _ => 0).V (padFin u) k)

/-- Velocity-product acceleration of a link in its own frame. -/
noncomputable def bodyC (b : Body) (q u : Fin b.dof → ℝ) (k : ℕ) : Motion :=
  (b.twAt (padFin q) k).inv.actM ((b.sysAt (padFin q) (padFin u)).bias k)

/-- Second-order part of the change of momentum of a link. -/
noncomputable def quadK (b : Body) (w : Rates b.dof) (i k : ℕ) : ℝ :=
  (b.bodyJ (padFin w.1) k i).dot ((b.rb k).inertia.app ((1 / 2 : ℝ) •
    (b.bodyC w.1 w.2.2 k + ⟨(b.bodyV w.1 w.2.2 k).ang.cross (b.bodyV w.1 w.2.2 k).lin, 0⟩))) +
  ((b.bodyJ (padFin w.1) k i).dot ((b.rb k).inertia.app ((1 / 2 : ℝ) •
    (b.bodyC w.1 w.2.1 k + -⟨(b.bodyV w.1 w.2.1 k).ang.cross (b.bodyV w.1 w.2.1 k).lin, 0⟩))) +
  (b.bodyJ (padFin w.1) k i).dot ((b.bodyV w.1 w.2.1 k).crossF
    ((b.rb k).inertia.app (b.bodyV w.1 w.2.1 k))))

/-- Second-order part of the change of momentum. -/
noncomputable def quad (b : Body) (w : Rates b.dof) (i : Fin b.dof) : ℝ :=
  ∑ k ∈ range b.dof, b.quadK w i k

/-- Change of momentum of a link, with displacements in place of their logarithms. -/
noncomputable def twMomK (b : Body) (x : ℝ × Rates b.dof) (i k : ℕ) : ℝ :=
  (b.bodyJ (padFin x.2.1) k i).dot ((b.rb k).inertia.app (b.aheadF k (x.2.1, x.1 • x.2.2.2)).twist) -
    ((b.behindF k (x.2.1, x.1 • x.2.2.1)).actM (b.bodyJ (padFin x.2.1) k i)).dot
      ((b.rb k).inertia.app (b.behindF k (x.2.1, x.1 • x.2.2.1)).twist)

/-- Change of momentum, with displacements in place of their logarithms. -/
noncomputable def twMom (b : Body) (x : ℝ × Rates b.dof) (i : Fin b.dof) : ℝ :=
  ∑ k ∈ range b.dof, b.twMomK x i k

section
variable (h : Inv E b)
include h

theorem behindF_eq (q u : Fin b.dof → ℝ) (s : ℝ) {k : ℕ} (hk : k < b.dof) :
    b.behindF k (q, s • u) = (b.aheadF k (q, s • (-u))).inv := by
  have hv := fun u => twAt_valid h.tree h.rigid u k hk
  unfold behindF aheadF disp
  rw [Iso.inv_mul_rev (hv _).inv (hv _), (hv _).inv_inv]
  simp only [smul_neg, sub_eq_add_neg]

theorem bodyV_neg (q u : Fin b.dof → ℝ) (k : ℕ) : b.bodyV q (-u) k = -b.bodyV q u k := by
  have : padFin (-u) = fun j => -padFin u j := by
    funext j; unfold padFin; split <;> simp
  unfold bodyV
  rw [this, Sys.V_neg, Iso.actM_neg]

theorem bodyC_neg (q u : Fin b.dof → ℝ) (k : ℕ) : b.bodyC q (-u) k = b.bodyC q u k := by
  have e : padFin (-u) = fun j => -1 * padFin u j := by
    funext j; unfold padFin; split <;> simp
  unfold bodyC
  rw [e]
  congr 1
  show ∑ j ∈ range _, (-1 * padFin u j) • ((b.sysAt (padFin q) (fun i => -1 * padFin u i)).V
    (fun i => -1 * padFin u i) j).crossM _ = ∑ j ∈ range _, _
  refine sum_congr rfl fun j _ => ?_
  rw [sysAt_V_smul, Motion.smul_crossM, smul_smul]
  have : (-1 * padFin u j * -1) = padFin u j := by ring
  rw [this]
  rfl

section
variable (ha : b.AxesOK)
include ha

attribute [local irreducible] Body.twAt in
/-- The displacement ahead moves with the velocity of the link. -/
theorem ahead_moves (q y : Fin b.dof → ℝ) {k : ℕ} (hk : k < b.dof) :
    ∃ V : ℝ → Motion, (∀ s, HasTwist (fun s => b.aheadF k (q, s • y)) (V s) s) ∧
      V 0 = b.bodyV q y k ∧ HasDerivMotion V (b.bodyC q y k) 0 := by
  have hu : ∀ s, ∀ j < b.dof, HasDerivAt (fun s : ℝ => padFin (q + s • y) j) (padFin y j) s := by
    intro s j hj
    unfold padFin
    simp only [dif_pos hj, Pi.add_apply, Pi.smul_apply, smul_eq_mul]
    simpa using ((hasDerivAt_id s).mul_const (y ⟨j, hj⟩)).const_add (q ⟨j, hj⟩)
  have hA := (twAt_valid h.tree h.rigid (padFin q) k hk).inv
  have e0 : q + (0 : ℝ) • y = q := by simp
  refine ⟨fun s => (b.twAt (padFin q) k).inv.actM
    ((b.sysAt (padFin (q + s • y)) (padFin y)).V (padFin y) k), fun s => ?_, ?_, ?_⟩
  · have ht := twAt_twist h.tree h.rigid ha (hu s) (padFin y) k hk
    have := (HasTwist.const (b.twAt (padFin q) k).inv s).mul ht hA
    rw [zero_add] at this
    exact this
  · simp only [e0]
    rfl
  · have hV := V_deriv h.tree h.rigid ha (u := fun s => padFin (q + s • y)) (w := fun _ => padFin y)
      (a := fun _ => 0) (s := 0) (hu 0) (fun i _ => hasDerivAt_const _ _) k
    have hz : (b.sysAt (padFin (q + (0 : ℝ) • y)) (padFin y)).V (fun _ => 0) k = 0 := by
      unfold Sys.V
      simp only [zero_smul, sum_const_zero]
    have := hV.constActM (b.twAt (padFin q) k).inv
    rw [hz, zero_add, e0] at this
    exact this

theorem aheadF_zero (q : Fin b.dof → ℝ) (y : Fin b.dof → ℝ) {k : ℕ} (hk : k < b.dof) :
    b.aheadF k (q, (0 : ℝ) • y) = 1 := by
  unfold aheadF; simp only [zero_smul, add_zero]; exact disp_self h _ hk

attribute [local irreducible] Body.aheadF Body.bodyJ in
theorem twMomK_P2 (w : Rates b.dof) (i : ℕ) {k : ℕ} (hk : k < b.dof) :
    P2 (fun s => b.twMomK (s, w) i k) 0
      ((b.bodyJ (padFin w.1) k i).dot ((b.rb k).inertia.app (b.bodyV w.1 w.2.2 k)) -
        (b.bodyJ (padFin w.1) k i).dot ((b.rb k).inertia.app (b.bodyV w.1 w.2.1 k)))
      (b.quadK w i k) := by
  obtain ⟨q, u, y⟩ := w
  obtain ⟨V, hV, hV0, hV'⟩ := ahead_moves h ha q y hk
  obtain ⟨U, hU, hU0, hU'⟩ := ahead_moves h ha q (-u) hk
  have p1 := (P2M.const (b.bodyJ (padFin q) k i)).dot
    ((HasTwist.expand_twist hV hV' (aheadF_zero h ha q y hk)).app (b.rb k).inertia)
  obtain ⟨c, hc⟩ := HasTwist.expand_inv_actM hU hU' (aheadF_zero h ha q (-u) hk)
    (b.bodyJ (padFin q) k i)
  have p2 := hc.dot
    ((HasTwist.expand_inv_twist hU hU' (aheadF_zero h ha q (-u) hk)).app (b.rb k).inertia)
  have e : (fun s => b.twMomK (s, (q, u, y)) i k) = fun s =>
      (b.bodyJ (padFin q) k i).dot ((b.rb k).inertia.app (b.aheadF k (q, s • y)).twist) -
      ((b.aheadF k (q, s • (-u))).inv.actM (b.bodyJ (padFin q) k i)).dot
        ((b.rb k).inertia.app (b.aheadF k (q, s • (-u))).inv.twist) := by
    funext s
    unfold twMomK
    simp only [behindF_eq h q u s hk]
  rw [e]
  rw [bodyC_neg h] at p2
  rw [hV0] at p1
  rw [hU0, bodyV_neg h] at p2
  refine (p1.sub p2).congr ?_ ?_ ?_
  · simp
  · simp
  · unfold quadK
    simp only
    generalize b.bodyJ (padFin q) k i = J
    generalize b.bodyV q y k = Vy
    generalize b.bodyV q u k = Vu
    generalize b.bodyC q y k = Cy
    generalize b.bodyC q u k = Cu
    generalize (b.rb k).inertia = I
    have e1 : (-(-Vu).crossM J).dot (I.app (- -Vu)) = -(J.dot (Vu.crossF (I.app Vu))) := by
      rw [neg_neg, ← Motion.crossM_dot]
      congr 1
      ext <;> simp [Motion.crossM, Vec3.cross] <;> ring
    have e2 : J.dot (I.app ((1 / 2 : ℝ) • (-Cu + ⟨(-Vu).ang.cross (-Vu).lin, 0⟩))) =
        -(J.dot (I.app ((1 / 2 : ℝ) • (Cu + -⟨Vu.ang.cross Vu.lin, 0⟩)))) := by
      rw [← Motion.dot_neg, ← Inertia.app_neg]
      congr 2
      ext <;> simp [Vec3.cross] <;> ring
    rw [e1, e2]
    simp [Inertia.app_zero]
    ring

/-- The change of momentum to second order. -/
theorem twMom_P2 (hl : ∀ k < b.dof, b.load k = none) (w : Rates b.dof) (i : Fin b.dof) :
    P2 (fun s => b.twMom (s, w) i) 0 ((b.massAt w.1 *ᵥ (w.2.2 - w.2.1)) i) (b.quad w i) := by
  have := P2.sum (range b.dof) fun k hk => twMomK_P2 h ha w i (mem_range.1 hk)
  refine this.congr (by simp) ?_ rfl
  have e1 := massAt_row h hl w.1 w.2.2 i
  have e2 := massAt_row h hl w.1 w.2.1 i
  rw [sum_sub_distrib]
  refine (congrArg₂ (· - ·) e1 e2).trans ?_
  rw [Matrix.mulVec_sub]
  rfl

end

/-! ### Smoothness -/

theorem rate_smooth {X : Type*} [NormedAddCommGroup X] [NormedSpace ℝ X] {n : ℕ}
    {f : X → Fin n → ℝ} (hf : ContDiff ℝ ∞ f) (i : ℕ) : Sm fun p => padFin (f p) i :=
  padFin_smooth hf i

variable {X : Type*} [NormedAddCommGroup X] [NormedSpace ℝ X] {q u : X → Fin b.dof → ℝ}

theorem bodyJ_smooth' (hq : ContDiff ℝ ∞ q) (i : ℕ) {k : ℕ} (hk : k < b.dof) :
    SmMotion fun p => b.bodyJ (padFin (q p)) k i :=
  (twAt_smooth h.tree (fun i _ => padFin_smooth hq i) k hk).inv.actM
    (Jw_smooth (w := fun _ _ => 0) h.tree (fun i _ => padFin_smooth hq i) k i)

theorem bodyV_smooth (hq : ContDiff ℝ ∞ q) (hu : ContDiff ℝ ∞ u) {k : ℕ} (hk : k < b.dof) :
    SmMotion fun p => b.bodyV (q p) (u p) k :=
  (twAt_smooth h.tree (fun i _ => padFin_smooth hq i) k hk).inv.actM
    (V_smooth (w := fun _ _ => 0) h.tree (fun i _ => padFin_smooth hq i)
      (fun i _ => padFin_smooth hu i) k)

theorem bodyC_smooth (hq : ContDiff ℝ ∞ q) (hu : ContDiff ℝ ∞ u) {k : ℕ} (hk : k < b.dof) :
    SmMotion fun p => b.bodyC (q p) (u p) k := by
  have hq' : ∀ i < b.dof, Sm fun p => padFin (q p) i := fun i _ => padFin_smooth hq i
  have hu' : ∀ i < b.dof, Sm fun p => padFin (u p) i := fun i _ => padFin_smooth hu i
  refine (twAt_smooth h.tree hq' k hk).inv.actM ?_
  have hV : ∀ k, SmMotion fun p => (b.sysAt (padFin (q p)) (padFin (u p))).V
      (b.sysAt (padFin (q p)) (padFin (u p))).dq k := fun k => V_smooth h.tree hq' hu' k
  exact SmMotion.sum _ fun j hj => .smul (hu' j (mem_range.1 hj))
    ((hV j).crossM (Jw_smooth h.tree hq' k j))

theorem aheadF_smooth' (hq : ContDiff ℝ ∞ q) (hu : ContDiff ℝ ∞ u) {k : ℕ} (hk : k < b.dof) :
    SmIso fun p => b.aheadF k (q p, u p) :=
  (twAt_smooth h.tree (fun i _ => padFin_smooth hq i) k hk).inv.mul
    (twAt_smooth h.tree (fun i _ => padFin_smooth (hq.add hu) i) k hk)

theorem behindF_smooth' (hq : ContDiff ℝ ∞ q) (hu : ContDiff ℝ ∞ u) {k : ℕ} (hk : k < b.dof) :
    SmIso fun p => b.behindF k (q p, u p) :=
  (twAt_smooth h.tree (fun i _ => padFin_smooth (hq.sub hu) i) k hk).inv.mul
    (twAt_smooth h.tree (fun i _ => padFin_smooth hq i) k hk)

theorem quad_smooth (i : Fin b.dof) : Sm fun w : Rates b.dof => b.quad w i := by
  refine ContDiff.sum fun k hk => ?_
  have hk := mem_range.1 hk
  have cq : ContDiff ℝ ∞ fun w : Rates b.dof => w.1 := contDiff_fst
  have cu : ContDiff ℝ ∞ fun w : Rates b.dof => w.2.1 := contDiff_fst.comp contDiff_snd
  have cy : ContDiff ℝ ∞ fun w : Rates b.dof => w.2.2 := contDiff_snd.comp contDiff_snd
  have hJ := bodyJ_smooth' h cq i hk
  have hVu := bodyV_smooth h cq cu hk
  have hVy := bodyV_smooth h cq cy hk
  have hCu := bodyC_smooth h cq cu hk
  have hCy := bodyC_smooth h cq cy hk
  have xy : SmMotion fun w : Rates b.dof =>
      (⟨(b.bodyV w.1 w.2.2 k).ang.cross (b.bodyV w.1 w.2.2 k).lin, 0⟩ : Motion) :=
    ⟨hVy.ang.cross hVy.lin, SmVec.const 0⟩
  have xu : SmMotion fun w : Rates b.dof =>
      (⟨(b.bodyV w.1 w.2.1 k).ang.cross (b.bodyV w.1 w.2.1 k).lin, 0⟩ : Motion) :=
    ⟨hVu.ang.cross hVu.lin, SmVec.const 0⟩
  have a1 := hJ.dot ((SmMotion.smul (a := fun _ => (1 / 2 : ℝ)) contDiff_const
    (hCy.add xy)).inertia (b.rb k).inertia)
  have a2 := hJ.dot ((SmMotion.smul (a := fun _ => (1 / 2 : ℝ)) contDiff_const
    (hCu.add xu.neg)).inertia (b.rb k).inertia)
  have a3 := hJ.dot (hVu.crossF (hVu.inertia (b.rb k).inertia))
  exact a1.add (a2.add a3)

theorem twMom_smooth (i : Fin b.dof) : Sm fun x : ℝ × Rates b.dof => b.twMom x i := by
  refine ContDiff.sum fun k hk => ?_
  have hk := mem_range.1 hk
  have cq : ContDiff ℝ ∞ fun x : ℝ × Rates b.dof => x.2.1 := contDiff_fst.comp contDiff_snd
  have cu : ContDiff ℝ ∞ fun x : ℝ × Rates b.dof => x.1 • x.2.2.1 :=
    contDiff_fst.smul (contDiff_fst.comp (contDiff_snd.comp contDiff_snd))
  have cy : ContDiff ℝ ∞ fun x : ℝ × Rates b.dof => x.1 • x.2.2.2 :=
    contDiff_fst.smul (contDiff_snd.comp (contDiff_snd.comp contDiff_snd))
  have hJ := bodyJ_smooth' h cq i hk
  have hA := aheadF_smooth' h cq cy hk
  have hB := behindF_smooth' h cq cu hk
  exact (hJ.dot (hA.twist.inertia _)).sub ((hB.actM hJ).dot (hB.twist.inertia _))

/-- The remainder, uniformly. -/
theorem twMom_bound (ha : b.AxesOK) (hl : ∀ k < b.dof, b.load k = none) (m : ℝ) :
    ∃ C, 0 ≤ C ∧ ∀ s, 0 ≤ s → s ≤ 1 → ∀ w : Rates b.dof, ‖w‖ ≤ m → ∀ i,
      |b.twMom (s, w) i - (s * (b.massAt w.1 *ᵥ (w.2.2 - w.2.1)) i + s ^ 2 * b.quad w i)|
        ≤ C * s ^ 3 := by
  have hm : ∀ i, Sm fun w : Rates b.dof => (b.massAt w.1 *ᵥ (w.2.2 - w.2.1)) i := by
    intro i
    have hs : Sm fun w : Rates b.dof => ∑ j, b.massAt w.1 i j * (w.2.2 j - w.2.1 j) := by
      refine ContDiff.sum fun j _ => ?_
      have h1 : Sm fun w : Rates b.dof => b.massAt w.1 i j :=
        massSpec_smooth (w := fun _ _ => 0) h.tree (fun i _ => padFin_smooth contDiff_fst i) i j
      have h2 : Sm fun w : Rates b.dof => w.2.2 j - w.2.1 j :=
        (contDiff_pi.1 (contDiff_snd.comp contDiff_snd) j).sub
          (contDiff_pi.1 (contDiff_fst.comp contDiff_snd) j)
      exact h1.mul h2
    exact hs
  obtain ⟨C, hC, hb⟩ := sum_bound (univ : Finset (Fin b.dof)) (P := fun i C =>
      ∀ s, 0 ≤ s → s ≤ 1 → ∀ w : Rates b.dof, ‖w‖ ≤ m →
      |b.twMom (s, w) i - (s * (b.massAt w.1 *ᵥ (w.2.2 - w.2.1)) i + s ^ 2 * b.quad w i)|
        ≤ C * s ^ 3) fun i _ => by
    refine unif3 (F := fun x : ℝ × Rates b.dof => b.twMom x i -
      (x.1 * (b.massAt x.2.1 *ᵥ (x.2.2.2 - x.2.2.1)) i + x.1 ^ 2 * b.quad x.2 i)) ?_ ?_ m
    · have c1 : Sm fun x : ℝ × Rates b.dof => x.1 := contDiff_fst
      have c2 : ContDiff ℝ ∞ fun x : ℝ × Rates b.dof => x.2 := contDiff_snd
      exact (twMom_smooth h i).sub ((c1.mul ((hm i).comp c2)).add
        ((c1.pow 2).mul ((quad_smooth h i).comp c2)))
    · intro w
      have := twMom_P2 h ha hl w i
      unfold P2 at this ⊢
      refine this.congr_left fun s => ?_
      simp only
      ring
  refine ⟨∑ i, C i, sum_nonneg fun i _ => hC i, fun s h0 h1 w hw i => ?_⟩
  refine (hb i (mem_univ i) s h0 h1 w hw).trans (mul_le_mul_of_nonneg_right ?_ (by positivity))
  exact single_le_sum (f := C) (fun i _ => hC i) (mem_univ i)

/-- With equal rates the second-order part is the Coriolis term. -/
theorem quad_diag (hl : ∀ k < b.dof, b.load k = none) (q u : Fin b.dof → ℝ) (i : Fin b.dof) :
    b.quad (q, u, u) i = (b.sysAt (padFin q) (padFin u)).coriolisSpec i := by
  unfold quad Sys.coriolisSpec Sys.genForce
  refine sum_congr rfl fun k hk => ?_
  have hk : k < b.dof := mem_range.1 hk
  have hv := twAt_valid h.tree h.rigid (padFin q) k hk
  have hI : (b.sysAt (padFin q) (padFin u)).Itot k = (b.rb k).inertia := by
    unfold Sys.Itot
    rw [show (b.sysAt (padFin q) (padFin u)).load k = none from hl k hk]
    rfl
  have hJ : ∀ F, ((b.sysAt (padFin q) (padFin u)).Jw k i).dot ((b.twAt (padFin q) k).actF F) =
      (b.bodyJ (padFin q) k i).dot F := fun F => hv.dot_actF _ _
  have hV : (b.sysAt (padFin q) (padFin u)).V (b.sysAt (padFin q) (padFin u)).dq k =
      (b.twAt (padFin q) k).actM (b.bodyV q u k) := by
    unfold bodyV
    rw [hv.actM_inv]
    rfl
  unfold Sys.Iw
  beta_reduce
  rw [hV, sysAt_Tw hk, hI, ← hv.actF_crossF, ← Iso.actF_add, hJ, hv.inv_actM]
  unfold quadK
  simp only
  have e : (b.twAt (padFin q) k).inv.actM ((b.sysAt (padFin q) (padFin u)).bias k) =
    b.bodyC q u k := rfl
  rw [e]
  generalize b.bodyJ (padFin q) k i = J
  generalize b.bodyV q u k = Vu
  generalize b.bodyC q u k = Cu
  generalize (b.rb k).inertia = I
  rw [← add_assoc, ← Motion.dot_add, ← Inertia.app_add, Motion.dot_add]
  congr 3
  ext <;> simp <;> ring

end
end Body
end SpatialDyn
