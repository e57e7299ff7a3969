import Verif.Lemmas.StepExpand

/-! What the logarithm adds to the momenta of a step is of third order. -/

namespace SpatialDyn

open Finset Filter Asymptotics Topology Matrix
open scoped ContDiff

/-! ## Motions -/

/-- The numbers that make up a motion. -/
def Motion.comps (m : Motion) : Fin 6 → ℝ := ![m.lin.x, m.lin.y, m.lin.z, m.ang.x, m.ang.y, m.ang.z]

theorem Motion.size_comps (m : Motion) : m.size = ∑ i, |m.comps i| := by
  unfold Motion.size Vec3.size
  simp only [Fin.sum_univ_succ, Fin.sum_univ_zero, Motion.comps]
  simp
  ring

theorem SmMotion.comps {X : Type*} [NormedAddCommGroup X] [NormedSpace ℝ X] {F : X → Motion}
    (h : SmMotion F) (i : Fin 6) : Sm fun p => (F p).comps i := by
  fin_cases i
  · exact h.lin.x
  · exact h.lin.y
  · exact h.lin.z
  · exact h.ang.x
  · exact h.ang.y
  · exact h.ang.z

section
variable {W : Type*} [NormedAddCommGroup W] [NormedSpace ℝ W] [ProperSpace W] {F : ℝ × W → Motion}

theorem size_unif0 (hF : SmMotion F) (m : ℝ) :
    ∃ C, 0 ≤ C ∧ ∀ s, 0 ≤ s → s ≤ 1 → ∀ w : W, ‖w‖ ≤ m → (F (s, w)).size ≤ C := by
  obtain ⟨C, hC, h⟩ := sum_bound (Finset.univ : Finset (Fin 6)) (P := fun i C =>
      ∀ s, 0 ≤ s → s ≤ 1 → ∀ w : W, ‖w‖ ≤ m → |(F (s, w)).comps i| ≤ C)
    fun i _ => unif0 (hF.comps i) m
  refine ⟨∑ i, C i, sum_nonneg fun i _ => hC i, fun s h1 h2 w hw => ?_⟩
  rw [Motion.size_comps]
  exact sum_le_sum fun i hi => h i hi s h1 h2 w hw

theorem size_unif1 (hF : SmMotion F) (h0 : ∀ w, F (0, w) = 0) (m : ℝ) :
    ∃ C, 0 ≤ C ∧ ∀ s, 0 ≤ s → s ≤ 1 → ∀ w : W, ‖w‖ ≤ m → (F (s, w)).size ≤ C * s := by
  obtain ⟨C, hC, h⟩ := sum_bound (Finset.univ : Finset (Fin 6)) (P := fun i C =>
      ∀ s, 0 ≤ s → s ≤ 1 → ∀ w : W, ‖w‖ ≤ m → |(F (s, w)).comps i| ≤ C * s)
    fun i _ => unif1 (hF.comps i) (fun w => by
      rw [h0]; fin_cases i <;> rfl) m
  refine ⟨∑ i, C i, sum_nonneg fun i _ => hC i, fun s h1 h2 w hw => ?_⟩
  rw [Motion.size_comps, sum_mul]
  exact sum_le_sum fun i hi => h i hi s h1 h2 w hw

end

theorem P2V.deriv {f : ℝ → Vec3} {a b c : Vec3} (h : P2V f a b c) : HasDerivVec f b 0 :=
  ⟨h.x.deriv, h.y.deriv, h.z.deriv⟩

theorem P2Mat.deriv {f : ℝ → Mat3} {a b c : Mat3} (h : P2Mat f a b c) : HasDerivMat f b 0 :=
  ⟨h.m00.deriv, h.m01.deriv, h.m02.deriv, h.m10.deriv, h.m11.deriv, h.m12.deriv, h.m20.deriv,
    h.m21.deriv, h.m22.deriv⟩

/-! ## One link -/

/-- What the logarithm adds to the momentum of a displacement. -/
noncomputable def Ext.extra (E : Ext) (I : Inertia) (T : Iso) : Force :=
  E.dlogT T (I.app (E.log T)) - I.app T.twist

theorem Ext.NearLog2.extra_le {E : Ext} (hE : E.NearLog2) (I : Inertia) :
    ∃ δ > 0, ∃ C, 0 ≤ C ∧ ∀ T U : Iso, T.Valid → U.Valid → T.gap 1 < δ → U.gap 1 < δ →
      (E.extra I T - E.extra I U).size ≤ C * (T.gap 1 + U.gap 1) * T.gap U ∧
      (E.extra I U).size ≤ C * U.gap 1 * U.gap 1 := by
  obtain ⟨δ1, h1, C1, H1⟩ := hE.dlogT_lip
  obtain ⟨δ2, h2, C2, H2⟩ := hE.log_second
  obtain ⟨K, hK, HK⟩ := I.size_app
  set D := |C1| * K * (1 + 2 * |C2|) + K * |C2| with hD
  have hD0 : 0 ≤ D := by positivity
  refine ⟨min 1 (min δ1 δ2), lt_min one_pos (lt_min h1 h2), D, hD0, ?_⟩
  have key : ∀ T U : Iso, T.Valid → U.Valid → T.gap 1 < min 1 (min δ1 δ2) →
      U.gap 1 < min 1 (min δ1 δ2) →
      (E.extra I T - E.extra I U).size ≤ D * (T.gap 1 + U.gap 1) * T.gap U := by
    intro T U hT hU gT gU
    have gT1 := gT.trans_le (min_le_left _ _)
    have gU1 := gU.trans_le (min_le_left _ _)
    have gT2 := gT.trans_le (min_le_right _ _)
    have gU2 := gU.trans_le (min_le_right _ _)
    have a := mom_le hE.toNearLog H1 hK HK hT hU h1 (gT2.trans_le (min_le_left _ _))
      (gU2.trans_le (min_le_left _ _))
    have s := H2 T U hT hU (gT2.trans_le (min_le_right _ _)) (gU2.trans_le (min_le_right _ _))
    have s1 := H2 U 1 hU Iso.valid_one (gU2.trans_le (min_le_right _ _)) (by rw [Iso.gap_self]; exact h2)
    rw [hE.log_one, Iso.twist_one, Iso.gap_self, add_zero, sub_zero, sub_zero] at s1
    have t := Iso.twist_size T U
    have t1 := Iso.twist_size U 1
    rw [Iso.twist_one, sub_zero] at t1
    have n1 := Iso.gap_nonneg T 1
    have n2 := Iso.gap_nonneg U 1
    have n3 := Iso.gap_nonneg T U
    have c2 := le_abs_self C2
    have p2 := abs_nonneg C2
    have p1 := abs_nonneg C1
    -- sizes of the logarithms
    have l1 : (E.log T - E.log U).size ≤ (1 + 2 * |C2|) * T.gap U := by
      have := Motion.size_add (E.log T - E.log U - (T.twist - U.twist)) (T.twist - U.twist)
      rw [sub_add_cancel] at this
      have e : C2 * (T.gap 1 + U.gap 1) * T.gap U ≤ |C2| * 2 * T.gap U := by
        have : C2 * (T.gap 1 + U.gap 1) ≤ |C2| * 2 :=
          (mul_le_mul_of_nonneg_right c2 (by positivity)).trans
            (mul_le_mul_of_nonneg_left (by linarith) p2)
        exact mul_le_mul_of_nonneg_right this n3
      nlinarith
    have l2 : (E.log U).size ≤ (1 + 2 * |C2|) * U.gap 1 := by
      have := Motion.size_add (E.log U - U.twist) U.twist
      rw [sub_add_cancel] at this
      have e : C2 * U.gap 1 * U.gap 1 ≤ |C2| * 2 * U.gap 1 := by
        have : C2 * U.gap 1 ≤ |C2| * 2 :=
          (mul_le_mul_of_nonneg_right c2 n2).trans (mul_le_mul_of_nonneg_left (by linarith) p2)
        exact mul_le_mul_of_nonneg_right this n2
      nlinarith
    have l3 : (E.log T - E.log U - (T.twist - U.twist)).size ≤
        |C2| * ((T.gap 1 + U.gap 1) * T.gap U) := by
      refine s.trans ?_
      rw [mul_assoc]
      exact mul_le_mul_of_nonneg_right c2 (by positivity)
    have m1 : T.gap 1 * (E.log T - E.log U).size ≤ T.gap 1 * ((1 + 2 * |C2|) * T.gap U) :=
      mul_le_mul_of_nonneg_left l1 n1
    have m2 : (E.log U).size * T.gap U ≤ (1 + 2 * |C2|) * U.gap 1 * T.gap U :=
      mul_le_mul_of_nonneg_right l2 n3
    have q1 := mul_le_mul_of_nonneg_left m1 (mul_nonneg p1 hK)
    have q2 := mul_le_mul_of_nonneg_left m2 (mul_nonneg p1 hK)
    have q3 := mul_le_mul_of_nonneg_left l3 hK
    refine a.trans ((add_le_add (add_le_add q1 q2) q3).trans (le_of_eq ?_))
    rw [hD]
    ring
  intro T U hT hU gT gU
  refine ⟨key T U hT hU gT gU, ?_⟩
  have g1 : (1 : Iso).gap 1 < min 1 (min δ1 δ2) := by
    rw [Iso.gap_self]; exact lt_min one_pos (lt_min h1 h2)
  have := key U 1 hU Iso.valid_one gU g1
  have e : E.extra I 1 = 0 := by
    unfold Ext.extra
    rw [hE.log_one, Inertia.app_zero, hE.dlogT_one, Iso.twist_one, Inertia.app_zero, sub_zero]
  rw [e, Iso.gap_self, add_zero, sub_zero] at this
  exact this

namespace Body
variable {E : Ext} {b : Body} {d : Bool}

section
variable (h : Inv E b)
include h

/-- Displacements of a link over a short step. -/
theorem gaps_bound (ha : b.AxesOK) (m : ℝ) {k : ℕ} (hk : k < b.dof) :
    ∃ C, 0 ≤ C ∧ ∀ s, 0 ≤ s → s ≤ 1 → ∀ w : Rates b.dof, ‖w‖ ≤ m →
      (b.aheadF k (w.1, s • w.2.2)).gap 1 ≤ C * s ∧
      (b.behindF k (w.1, s • w.2.1)).gap 1 ≤ C * s ∧
      (b.aheadF k (w.1, s • w.2.2)).gap (b.behindF k (w.1, s • w.2.1)) ≤
        C * s * (‖w.2.2 - w.2.1‖ + s) := by
  have cq : ContDiff ℝ ∞ fun x : ℝ × Rates b.dof => x.2.1 := contDiff_fst.comp contDiff_snd
  have cu : ContDiff ℝ ∞ fun x : ℝ × Rates b.dof => x.1 • x.2.2.1 :=
    contDiff_fst.smul (contDiff_fst.comp (contDiff_snd.comp contDiff_snd))
  have cy : ContDiff ℝ ∞ fun x : ℝ × Rates b.dof => x.1 • x.2.2.2 :=
    contDiff_fst.smul (contDiff_snd.comp (contDiff_snd.comp contDiff_snd))
  have bz : ∀ w : Rates b.dof, b.behindF k (w.1, (0 : ℝ) • w.2.1) = 1 := fun w => by
    unfold behindF; simp only [zero_smul, sub_zero]; exact disp_self h _ hk
  have az : ∀ (w : Rates b.dof) y, b.aheadF k (w.1, (0 : ℝ) • y) = 1 := fun w y =>
    aheadF_zero h ha w.1 y hk
  obtain ⟨C1, n1, H1⟩ := gap_unif1 (aheadF_smooth' h cq cy hk) (SmIso.const 1)
    (fun w => az w _) m
  obtain ⟨C2, n2, H2⟩ := gap_unif1 (behindF_smooth' h cq cu hk) (SmIso.const 1)
    (fun w => bz w) m
  obtain ⟨C3, n3, H3⟩ := gap_unif2 (aheadF_smooth' h cq cu hk) (behindF_smooth' h cq cu hk)
    (fun w => (az w _).trans (bz w).symm) (fun w => by
      obtain ⟨V, hV, hV0, hV'⟩ := ahead_moves h ha w.1 w.2.1 hk
      obtain ⟨U, hU, hU0, hU'⟩ := ahead_moves h ha w.1 (-w.2.1) hk
      obtain ⟨r1, t1⟩ := HasTwist.expand hV hV' (az w _)
      obtain ⟨r2, t2⟩ := HasTwist.expand_inv hU hU' (az w _)
      have e : (fun s : ℝ => b.behindF k (w.1, s • w.2.1)) =
          fun s => (b.aheadF k (w.1, s • (-w.2.1))).inv := by
        funext s; exact behindF_eq h _ _ _ hk
      rw [hV0] at r1 t1
      rw [hU0, bodyV_neg h] at r2 t2
      refine ⟨_, _, r1.deriv, t1.deriv, ?_, ?_⟩
      · have := r2.deriv
        rw [show -(-b.bodyV w.1 w.2.1 k).ang = (b.bodyV w.1 w.2.1 k).ang by simp] at this
        show HasDerivMat (fun s : ℝ => (b.behindF k (w.1, s • w.2.1)).R) _ 0
        rw [show (fun s : ℝ => (b.behindF k (w.1, s • w.2.1)).R) =
          fun s => ((b.aheadF k (w.1, s • (-w.2.1))).inv).R from
            funext fun s => congrArg Iso.R (congrFun e s)]
        exact this
      · have := t2.deriv
        rw [show -(-b.bodyV w.1 w.2.1 k).lin = (b.bodyV w.1 w.2.1 k).lin by simp] at this
        show HasDerivVec (fun s : ℝ => (b.behindF k (w.1, s • w.2.1)).t) _ 0
        rw [show (fun s : ℝ => (b.behindF k (w.1, s • w.2.1)).t) =
          fun s => ((b.aheadF k (w.1, s • (-w.2.1))).inv).t from
            funext fun s => congrArg Iso.t (congrFun e s)]
        exact this) m
  obtain ⟨L, nL, HL⟩ := gap_lip (aheadF_smooth h hk) m
  refine ⟨C1 + C2 + C3 + L, by positivity, fun s h0 h1 w hw => ⟨?_, ?_, ?_⟩⟩
  · exact (H1 s h0 h1 w hw).trans (mul_le_mul_of_nonneg_right (by linarith) h0)
  · exact (H2 s h0 h1 w hw).trans (mul_le_mul_of_nonneg_right (by linarith) h0)
  · have a := Iso.gap_triangle (b.aheadF k (w.1, s • w.2.2)) (b.aheadF k (w.1, s • w.2.1))
      (b.behindF k (w.1, s • w.2.1))
    have a1 := H3 s h0 h1 w hw
    have nq : ‖w.1‖ ≤ m := (norm_fst_le w).trans hw
    have nu : ‖w.2.1‖ ≤ m := ((norm_fst_le w.2).trans (norm_snd_le w)).trans hw
    have ny : ‖w.2.2‖ ≤ m := ((norm_snd_le w.2).trans (norm_snd_le w)).trans hw
    have sm : ∀ x : Fin b.dof → ℝ, ‖x‖ ≤ m → ‖s • x‖ ≤ m := fun x hx => by
      rw [norm_smul, Real.norm_of_nonneg h0]
      have := norm_nonneg x
      nlinarith
    have a2 := HL (w.1, s • w.2.2) (w.1, s • w.2.1) (max_le nq (sm _ ny)) (max_le nq (sm _ nu))
    have e : ‖((w.1, s • w.2.2) : State b.dof) - (w.1, s • w.2.1)‖ = s * ‖w.2.2 - w.2.1‖ := by
      rw [Prod.mk_sub_mk, sub_self, ← smul_sub, Prod.norm_def]
      simp [norm_smul, abs_of_nonneg h0]
      exact mul_nonneg h0 (norm_nonneg _)
    rw [e] at a2
    have a3 : (b.aheadF k (w.1, s • w.2.1)).gap (b.behindF k (w.1, s • w.2.1)) ≤ C3 * s ^ 2 := a1
    have nn := norm_nonneg (w.2.2 - w.2.1)
    have x1 : L * (s * ‖w.2.2 - w.2.1‖) ≤ (C1 + C2 + C3 + L) * (s * ‖w.2.2 - w.2.1‖) :=
      mul_le_mul_of_nonneg_right (by linarith) (by positivity)
    have x2 : C3 * s ^ 2 ≤ (C1 + C2 + C3 + L) * s ^ 2 :=
      mul_le_mul_of_nonneg_right (by linarith) (by positivity)
    nlinarith

/-- The logarithm changes the momenta of a step by terms of third order. -/
theorem log_bound (hE : E.NearLog2) (ha : b.AxesOK) (m : ℝ) (i : Fin b.dof) :
    ∃ t0 > 0, t0 ≤ 1 ∧ ∃ C, 0 ≤ C ∧ ∀ s, 0 ≤ s → s < t0 → ∀ w : Rates b.dof, ‖w‖ ≤ m →
      |b.nextMom E (w.1, s • w.2.2) i - b.prevMom E (w.1, s • w.2.1) i - b.twMom (s, w) i| ≤
        C * s ^ 2 * (‖w.2.2 - w.2.1‖ + s) := by
  have one : ∀ k ∈ range b.dof, ∃ C, 0 ≤ C ∧ ∃ t0 > 0, t0 ≤ 1 ∧
      ∀ s, 0 ≤ s → s < t0 → ∀ w : Rates b.dof, ‖w‖ ≤ m →
      |(b.bodyJ (padFin w.1) k i).dot (E.extra (b.rb k).inertia (b.aheadF k (w.1, s • w.2.2))) -
        ((b.behindF k (w.1, s • w.2.1)).actM (b.bodyJ (padFin w.1) k i)).dot
          (E.extra (b.rb k).inertia (b.behindF k (w.1, s • w.2.1)))| ≤
        C * s ^ 2 * (‖w.2.2 - w.2.1‖ + s) := by
    intro k hk
    have hk := mem_range.1 hk
    obtain ⟨δ, hδ, D, hD, HD⟩ := hE.extra_le (b.rb k).inertia
    obtain ⟨C, hC, HC⟩ := gaps_bound h ha m hk
    have cq : ContDiff ℝ ∞ fun x : ℝ × Rates b.dof => x.2.1 := contDiff_fst.comp contDiff_snd
    have cu : ContDiff ℝ ∞ fun x : ℝ × Rates b.dof => x.1 • x.2.2.1 :=
      contDiff_fst.smul (contDiff_fst.comp (contDiff_snd.comp contDiff_snd))
    have sJ := bodyJ_smooth' h cq i hk
    obtain ⟨J, nJ, HJ⟩ := size_unif0 sJ m
    obtain ⟨K, nK, HK⟩ := size_unif1
      (F := fun x : ℝ × Rates b.dof => b.bodyJ (padFin x.2.1) k i +
        -(b.behindF k (x.2.1, x.1 • x.2.2.1)).actM (b.bodyJ (padFin x.2.1) k i))
      (sJ.add ((behindF_smooth' h cq cu hk).actM sJ).neg) (fun w => by
        have : b.behindF k (w.1, (0 : ℝ) • w.2.1) = 1 := by
          unfold behindF; simp only [zero_smul, sub_zero]; exact disp_self h _ hk
        simp only [this, Iso.one_actM]
        exact add_neg_cancel _) m
    refine ⟨J * (D * (C + C) * C) + K * (D * C * C), by positivity, min 1 (δ / (C + 1)),
      lt_min one_pos (by positivity), min_le_left _ _, fun s h0 ht w hw => ?_⟩
    have h1 : s ≤ 1 := (ht.trans_le (min_le_left _ _)).le
    have hs : C * s < δ := by
      have := ht.trans_le (min_le_right _ _)
      rw [lt_div_iff₀ (by positivity)] at this
      nlinarith
    obtain ⟨g1, g2, g3⟩ := HC s h0 h1 w hw
    set A := b.aheadF k (w.1, s • w.2.2) with hA
    set B := b.behindF k (w.1, s • w.2.1) with hB
    have vA : A.Valid := disp_valid h _ _ hk
    have vB : B.Valid := disp_valid h _ _ hk
    obtain ⟨e1, e2⟩ := HD A B vA vB (g1.trans_lt hs) (g2.trans_lt hs)
    have j0 : (b.bodyJ (padFin w.1) k i).size ≤ J := HJ s h0 h1 w hw
    have j1 : (b.bodyJ (padFin w.1) k i - B.actM (b.bodyJ (padFin w.1) k i)).size ≤ K * s := by
      have := HK s h0 h1 w hw
      rw [sub_eq_add_neg]
      exact this
    generalize b.bodyJ (padFin w.1) k i = a at j0 j1 ⊢
    generalize E.extra (b.rb k).inertia A = x at e1 ⊢
    generalize E.extra (b.rb k).inertia B = z at e1 e2 ⊢
    have split : a.dot x - (B.actM a).dot z = a.dot (x - z) + (a - B.actM a).dot z := by
      rw [Motion.dot_sub, Motion.sub_dot]; ring
    rw [split]
    have y0 := norm_nonneg (w.2.2 - w.2.1)
    set r := ‖w.2.2 - w.2.1‖ + s with hr
    have r0 : 0 ≤ r := by positivity
    have f1 := Motion.abs_dot a (x - z)
    have f2 := Motion.abs_dot (a - B.actM a) z
    have f3 := abs_add_le (a.dot (x - z)) ((a - B.actM a).dot z)
    have n1 := Iso.gap_nonneg A 1
    have n2 := Iso.gap_nonneg B 1
    have n3 := Iso.gap_nonneg A B
    have x1 : (x - z).size ≤ D * (C * s + C * s) * (C * s * r) := by
      refine e1.trans ?_
      exact mul_le_mul (mul_le_mul_of_nonneg_left (add_le_add g1 g2) hD) g3 n3 (by positivity)
    have x2 : z.size ≤ D * (C * s) * (C * s) := by
      refine e2.trans ?_
      exact mul_le_mul (mul_le_mul_of_nonneg_left g2 hD) g2 n2 (by positivity)
    have y1 : a.size * (x - z).size ≤ J * (D * (C * s + C * s) * (C * s * r)) :=
      mul_le_mul j0 x1 (Force.size_nonneg _) nJ
    have y2 : (a - B.actM a).size * z.size ≤ K * s * (D * (C * s) * (C * s)) :=
      mul_le_mul j1 x2 (Force.size_nonneg _) (by positivity)
    have y3 : K * s * (D * (C * s) * (C * s)) ≤ K * r * (D * (C * s) * (C * s)) := by
      refine mul_le_mul_of_nonneg_right (mul_le_mul_of_nonneg_left ?_ nK) (by positivity)
      rw [hr]; linarith
    calc |a.dot (x - z) + (a - B.actM a).dot z|
        ≤ J * (D * (C * s + C * s) * (C * s * r)) + K * r * (D * (C * s) * (C * s)) := by linarith
      _ = (J * (D * (C + C) * C) + K * (D * C * C)) * s ^ 2 * r := by ring
  obtain ⟨C, hC, H⟩ := sum_bound (range b.dof) one
  choose! t0 ht0 ht1 H using H
  obtain ⟨τ, hτ, hτ1, hle⟩ : ∃ τ > 0, τ ≤ 1 ∧ ∀ k ∈ range b.dof, τ ≤ t0 k := by
    rcases (range b.dof).eq_empty_or_nonempty with he | hne
    · exact ⟨1, one_pos, le_rfl, by rw [he]; simp⟩
    · obtain ⟨k, hk, hmin⟩ := exists_min_image (range b.dof) t0 hne
      exact ⟨t0 k, ht0 k hk, ht1 k hk, hmin⟩
  refine ⟨τ, hτ, hτ1, ∑ k ∈ range b.dof, C k, sum_nonneg fun k _ => hC k, fun s h0 hs w hw => ?_⟩
  have e : b.nextMom E (w.1, s • w.2.2) i - b.prevMom E (w.1, s • w.2.1) i - b.twMom (s, w) i =
      ∑ k ∈ range b.dof, ((b.bodyJ (padFin w.1) k i).dot
        (E.extra (b.rb k).inertia (b.aheadF k (w.1, s • w.2.2))) -
        ((b.behindF k (w.1, s • w.2.1)).actM (b.bodyJ (padFin w.1) k i)).dot
          (E.extra (b.rb k).inertia (b.behindF k (w.1, s • w.2.1)))) := by
    unfold nextMom prevMom momSum twMom
    rw [← sum_sub_distrib, ← sum_sub_distrib]
    refine sum_congr rfl fun k _ => ?_
    unfold twMomK Ext.extra
    simp only [Motion.dot_sub]
    ring
  rw [e, mul_assoc, sum_mul]
  refine (abs_sum_le_sum_abs _ _).trans (sum_le_sum fun k hk => ?_)
  rw [← mul_assoc]
  exact H k hk s h0 (hs.trans_le (hle k hk)) w hw

end
end Body
end SpatialDyn
