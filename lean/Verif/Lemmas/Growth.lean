import Verif.Lemmas.Field
import Verif.Lemmas.OdeGlobal

/-!
# The energy bounds the motion

Twice the kinetic energy plus the squares of the positions grows at most exponentially along motions,
and bounds positions and velocities.
-/

namespace SpatialDyn
open Finset Matrix
open scoped ContDiff

/-! ## Sizes of spatial vectors -/

/-- Squared size of a motion vector. -/
def Motion.sq (m : Motion) : ℝ := m.lin.dot m.lin + m.ang.dot m.ang
/-- Squared size of a force vector. -/
def Force.sq (f : Force) : ℝ := f.lin.dot f.lin + f.ang.dot f.ang

theorem Motion.sq_nonneg (m : Motion) : 0 ≤ m.sq :=
  add_nonneg (Vec3.dot_self_nonneg _) (Vec3.dot_self_nonneg _)
theorem Force.sq_nonneg (m : Force) : 0 ≤ m.sq :=
  add_nonneg (Vec3.dot_self_nonneg _) (Vec3.dot_self_nonneg _)

theorem Vec3.add_sq_le (a c : Vec3) : (a + c).dot (a + c) ≤ 2 * a.dot a + 2 * c.dot c := by
  simp only [Vec3.dot, Vec3.add_x, Vec3.add_y, Vec3.add_z]
  nlinarith [sq_nonneg (a.x - c.x), sq_nonneg (a.y - c.y), sq_nonneg (a.z - c.z)]

theorem Vec3.sub_sq_le (a c : Vec3) : (a - c).dot (a - c) ≤ 2 * a.dot a + 2 * c.dot c := by
  simp only [Vec3.dot, Vec3.sub_x, Vec3.sub_y, Vec3.sub_z]
  nlinarith [sq_nonneg (a.x + c.x), sq_nonneg (a.y + c.y), sq_nonneg (a.z + c.z)]

theorem Vec3.cross_sq_le (a c : Vec3) : (a.cross c).dot (a.cross c) ≤ a.dot a * c.dot c := by
  have : (a.cross c).dot (a.cross c) = a.dot a * c.dot c - a.dot c ^ 2 := by
    simp only [Vec3.dot, Vec3.cross]; ring
  rw [this]; linarith [sq_nonneg (a.dot c)]

theorem Iso.Valid.sq_actM {T : Iso} (h : T.Valid) (m : Motion) :
    (T.actM m).sq ≤ (2 + 2 * T.t.dot T.t) * m.sq := by
  have h1 := Vec3.sub_sq_le (T.R.mulVec m.lin) ((T.R.mulVec m.ang).cross T.t)
  have h2 := Vec3.cross_sq_le (T.R.mulVec m.ang) T.t
  rw [Mat3.IsRot.dot h] at h1 h2
  have e : (T.actM m).sq = (T.R.mulVec m.lin - (T.R.mulVec m.ang).cross T.t).dot
      (T.R.mulVec m.lin - (T.R.mulVec m.ang).cross T.t) + m.ang.dot m.ang := by
    rw [← Mat3.IsRot.dot h m.ang]; rfl
  rw [e]
  unfold Motion.sq
  have h3 := Vec3.dot_self_nonneg m.lin
  have h4 := Vec3.dot_self_nonneg m.ang
  have h5 := Vec3.dot_self_nonneg T.t
  nlinarith [mul_nonneg h5 h3]

theorem Iso.Valid.sq_actF {T : Iso} (h : T.Valid) (m : Force) :
    (T.actF m).sq ≤ (2 + 2 * T.t.dot T.t) * m.sq := by
  have h1 := Vec3.sub_sq_le (T.R.mulVec m.ang) ((T.R.mulVec m.lin).cross T.t)
  have h2 := Vec3.cross_sq_le (T.R.mulVec m.lin) T.t
  rw [Mat3.IsRot.dot h] at h1 h2
  have e : (T.actF m).sq = m.lin.dot m.lin + (T.R.mulVec m.ang - (T.R.mulVec m.lin).cross T.t).dot
      (T.R.mulVec m.ang - (T.R.mulVec m.lin).cross T.t) := by
    rw [← Mat3.IsRot.dot h m.lin]; rfl
  rw [e]
  unfold Force.sq
  have h3 := Vec3.dot_self_nonneg m.lin
  have h4 := Vec3.dot_self_nonneg m.ang
  have h5 := Vec3.dot_self_nonneg T.t
  nlinarith [mul_nonneg h5 h4]

theorem Iso.Valid.inv_t_sq {T : Iso} (h : T.Valid) : T.inv.t.dot T.inv.t = T.t.dot T.t := by
  rw [← Mat3.IsRot.dot h.inv T.t]
  simp only [Iso.inv, Vec3.dot, Vec3.neg_x, Vec3.neg_y, Vec3.neg_z]; ring

theorem Motion.two_dot_le (m : Motion) (f : Force) : 2 * m.dot f ≤ m.sq + f.sq := by
  simp only [Motion.dot, Motion.sq, Force.sq, Vec3.dot]
  nlinarith [_root_.sq_nonneg (m.lin.x - f.lin.x), _root_.sq_nonneg (m.lin.y - f.lin.y), _root_.sq_nonneg (m.lin.z - f.lin.z),
    _root_.sq_nonneg (m.ang.x - f.ang.x), _root_.sq_nonneg (m.ang.y - f.ang.y), _root_.sq_nonneg (m.ang.z - f.ang.z)]

/-- Positive quadratic functions are bounded below. -/
theorem exists_lower {n : ℕ} {Q : (Fin n → ℝ) → ℝ} (hc : Continuous Q)
    (hh : ∀ (c : ℝ) x, Q (c • x) = c ^ 2 * Q x) (hp : ∀ x, x ≠ 0 → 0 < Q x) :
    ∃ C, 0 ≤ C ∧ ∀ x, ∑ i, x i ^ 2 ≤ C * Q x := by
  have h0 : Q 0 = 0 := by simpa using hh 0 0
  rcases (Metric.sphere (0 : Fin n → ℝ) 1).eq_empty_or_nonempty with he | hne
  · refine ⟨0, le_rfl, fun x => ?_⟩
    have hx : x = 0 := by
      by_contra hx
      have : (‖x‖⁻¹ • x) ∈ Metric.sphere (0 : Fin n → ℝ) 1 := by
        simp [norm_smul, norm_ne_zero_iff.2 hx]
      rw [he] at this; exact this
    simp [hx]
  · obtain ⟨x0, hx0, hmin⟩ := (isCompact_sphere (0 : Fin n → ℝ) 1).exists_isMinOn hne hc.continuousOn
    have hx0' : x0 ≠ 0 := by
      rintro rfl; simp at hx0
    have hpos := hp x0 hx0'
    refine ⟨n / Q x0, by positivity, fun x => ?_⟩
    by_cases hx : x = 0
    · simp [hx, h0]
    have hn : ‖x‖ ≠ 0 := norm_ne_zero_iff.2 hx
    have h1 : Q x0 ≤ Q (‖x‖⁻¹ • x) := hmin (by simp [norm_smul, hn])
    rw [hh] at h1
    have h2 : Q x0 * ‖x‖ ^ 2 ≤ Q x := by
      have := mul_le_mul_of_nonneg_right h1 (sq_nonneg ‖x‖)
      have e : (‖x‖⁻¹) ^ 2 * Q x * ‖x‖ ^ 2 = Q x := by field_simp
      rwa [e] at this
    have h3 : ∑ i, x i ^ 2 ≤ n * ‖x‖ ^ 2 := by
      calc ∑ i, x i ^ 2 ≤ ∑ _i : Fin n, ‖x‖ ^ 2 := sum_le_sum fun i _ => by
            have := norm_le_pi_norm x i
            rw [Real.norm_eq_abs] at this
            rw [← sq_abs]
            exact pow_le_pow_left₀ (abs_nonneg _) this 2
        _ = n * ‖x‖ ^ 2 := by simp
    calc ∑ i, x i ^ 2 ≤ n * ‖x‖ ^ 2 := h3
      _ = n / Q x0 * (Q x0 * ‖x‖ ^ 2) := by field_simp
      _ ≤ _ := mul_le_mul_of_nonneg_left h2 (by positivity)

/-- A definite inertia bounds the size of a motion by its energy. -/
theorem Inertia.lower (I : Inertia) (h0 : 0 < I.mass)
    (h : ∀ v : Vec3, v ≠ 0 → 0 < v.dot (I.Icom.mulVec v)) :
    ∃ C, 0 ≤ C ∧ ∀ m : Motion, m.sq ≤ C * m.dot (I.app m) := by
  obtain ⟨C, hC, hb⟩ := exists_lower (n := 6)
    (Q := fun x => Motion.dot ⟨⟨x 0, x 1, x 2⟩, ⟨x 3, x 4, x 5⟩⟩
      (I.app ⟨⟨x 0, x 1, x 2⟩, ⟨x 3, x 4, x 5⟩⟩))
    (by
      simp only [Motion.dot, Inertia.app, Vec3.cross, Mat3.mulVec, Vec3.add_x, Vec3.add_y, Vec3.add_z,
        Vec3.sub_x, Vec3.sub_y, Vec3.sub_z, Vec3.smul_x, Vec3.smul_y, Vec3.smul_z]
      fun_prop)
    (fun c x => by
      simp only [Motion.dot, Inertia.app, Vec3.cross, Mat3.mulVec, Vec3.add_x, Vec3.add_y, Vec3.add_z,
        Vec3.sub_x, Vec3.sub_y, Vec3.sub_z, Vec3.smul_x, Vec3.smul_y, Vec3.smul_z, Pi.smul_apply,
        smul_eq_mul]
      ring)
    (fun x hx => Sys.inertia_pos_of I h0 h _ fun e => hx (by
      have e1 := congrArg Motion.lin e
      have e2 := congrArg Motion.ang e
      have a0 := congrArg Vec3.x e1
      have a1 := congrArg Vec3.y e1
      have a2 := congrArg Vec3.z e1
      have a3 := congrArg Vec3.x e2
      have a4 := congrArg Vec3.y e2
      have a5 := congrArg Vec3.z e2
      funext i
      fin_cases i <;> assumption))
  refine ⟨C, hC, fun m => ?_⟩
  have := hb ![m.lin.x, m.lin.y, m.lin.z, m.ang.x, m.ang.y, m.ang.z]
  simp only [Fin.sum_univ_six] at this
  have e : m.sq = m.lin.x ^ 2 + m.lin.y ^ 2 + m.lin.z ^ 2 + m.ang.x ^ 2 + m.ang.y ^ 2 + m.ang.z ^ 2 := by
    simp only [Motion.sq, Vec3.dot]; ring
  rw [e]
  exact this

/-! ## Joint rates from the motions of the links -/

theorem JType.rate_le (t : JType) (ht : t.subspace ≠ 0) (q w : ℝ) (x m : Motion)
    (hm : m = (t.Tjoint q).inv.actM x + w • t.subspace) : w ^ 2 ≤ 2 * (m.sq + x.sq) := by
  have key : ∀ a c : ℝ, a = c + w → a ^ 2 ≤ m.sq → c ^ 2 ≤ x.sq → w ^ 2 ≤ 2 * (m.sq + x.sq) := by
    intro a c h1 h2 h3
    have : w = a - c := by linarith
    rw [this]
    nlinarith [sq_nonneg (a + c)]
  have hx : ∀ m : Motion, m.lin.x ^ 2 ≤ m.sq ∧ m.lin.y ^ 2 ≤ m.sq ∧ m.lin.z ^ 2 ≤ m.sq ∧
      m.ang.x ^ 2 ≤ m.sq ∧ m.ang.y ^ 2 ≤ m.sq ∧ m.ang.z ^ 2 ≤ m.sq := by
    intro m
    simp only [Motion.sq, Vec3.dot]
    refine ⟨?_, ?_, ?_, ?_, ?_, ?_⟩ <;>
    nlinarith [mul_self_nonneg m.lin.x, mul_self_nonneg m.lin.y, mul_self_nonneg m.lin.z,
      mul_self_nonneg m.ang.x, mul_self_nonneg m.ang.y, mul_self_nonneg m.ang.z]
  obtain ⟨h1, h2, h3, h4, h5, h6⟩ := hx m
  obtain ⟨k1, k2, k3, k4, k5, k6⟩ := hx x
  cases t
  · exact absurd rfl ht
  · refine key m.ang.x x.ang.x ?_ h4 k4
    rw [hm]; simp [JType.Tjoint, JType.subspace, Iso.actM, Iso.inv, Mat3.mulVec, Mat3.T]
  · refine key m.ang.y x.ang.y ?_ h5 k5
    rw [hm]; simp [JType.Tjoint, JType.subspace, Iso.actM, Iso.inv, Mat3.mulVec, Mat3.T]
  · refine key m.ang.z x.ang.z ?_ h6 k6
    rw [hm]; simp [JType.Tjoint, JType.subspace, Iso.actM, Iso.inv, Mat3.mulVec, Mat3.T]
  · refine key m.lin.x x.lin.x ?_ h1 k1
    rw [hm]; simp [JType.Tjoint, JType.subspace, Iso.actM, Iso.inv, Mat3.mulVec, Mat3.T, Vec3.cross]
  · refine key m.lin.y x.lin.y ?_ h2 k2
    rw [hm]; simp [JType.Tjoint, JType.subspace, Iso.actM, Iso.inv, Mat3.mulVec, Mat3.T, Vec3.cross]
  · refine key m.lin.z x.lin.z ?_ h3 k3
    rw [hm]; simp [JType.Tjoint, JType.subspace, Iso.actM, Iso.inv, Mat3.mulVec, Mat3.T, Vec3.cross]

theorem JType.t_sq_le (t : JType) (q : ℝ) : (t.Tjoint q).t.dot (t.Tjoint q).t ≤ q ^ 2 := by
  cases t <;> simp [JType.Tjoint, Vec3.dot, sq_nonneg] <;> nlinarith [sq_nonneg q]

/-! ## Bodies -/

namespace Body
variable {E : Ext} {b : Body} {d : Bool}

/-- Velocity of a link in its own frame. -/
noncomputable def locVel (b : Body) (u w : ℕ → ℝ) (k : ℕ) : Motion :=
  (b.twAt u k).inv.actM ((b.sysAt u w).V w k)

theorem locVel_rec (h : Inv E b) (u w : ℕ → ℝ) {i : ℕ} (hi : i < b.dof) :
    b.locVel u w i = (b.TpAt i (u i)).inv.actM
      (match b.par i with | none => 0 | some p => b.locVel u w p) +
        w i • (b.rb i).joint.subspace := by
  have hw := sysAt_wf h.tree h.rigid u w
  have hv := twAt_valid h.tree h.rigid u
  have hT := h.rigid.TpAt hi (u i)
  have hax : (b.twAt u i).inv.actM ((b.sysAt u w).axis i) = (b.rb i).joint.subspace := by
    unfold Sys.axis
    rw [sysAt_Tw hi, (hv i hi).inv_actM]; rfl
  unfold locVel
  rw [Sys.V_rec hw w hi, Iso.actM_add, Iso.actM_smul, hax]
  congr 1
  have hp : (b.sysAt u w).par i = b.par i := rfl
  rw [hp]
  cases hpar : b.par i with
  | none => simp
  | some p =>
    have hpi := h.tree.parLt i hi p hpar
    have hrec := twAt_rec h.tree u hi
    rw [hpar] at hrec
    simp only at hrec ⊢
    rw [hrec, Iso.inv_mul_rev (hv p (by omega)) hT, Iso.actM_mul _ _ hT.inv]

theorem kin_term (h : Inv E b) (u w : ℕ → ℝ) {k : ℕ} (hk : k < b.dof) :
    ((b.sysAt u w).V w k).dot ((b.sysAt u w).Iw k ((b.sysAt u w).V w k)) =
      (b.locVel u w k).dot ((b.fresh.Itot k).app (b.locVel u w k)) := by
  rw [Sys.energy2_body (sysAt_wf h.tree h.rigid u w) hk, sysAt_Tw hk]
  rfl

theorem kin_term_nonneg (h : Inv E b) (hd : b.Definite) (u w : ℕ → ℝ) {k : ℕ} (hk : k < b.dof) :
    0 ≤ ((b.sysAt u w).V w k).dot ((b.sysAt u w).Iw k ((b.sysAt u w).V w k)) := by
  rw [kin_term h u w hk]
  by_cases h0 : b.locVel u w k = 0
  · rw [h0]; simp
  · exact (Sys.inertia_pos_of _ (hd.physPD k hk).1 (hd.physPD k hk).2.2 _ h0).le

/-- The growth function: twice the kinetic energy plus the squares of the positions. -/
noncomputable def size (b : Body) (y : State b.dof) : ℝ :=
  (b.sysAt (padFin y.1) (padFin y.2)).energy2 (padFin y.2) + ∑ i, y.1 i ^ 2

theorem energy2_nonneg (h : Inv E b) (hd : b.Definite) (u w : ℕ → ℝ) :
    0 ≤ (b.sysAt u w).energy2 w :=
  sum_nonneg fun _ hk => kin_term_nonneg h hd u w (mem_range.1 hk)

theorem size_nonneg (h : Inv E b) (hd : b.Definite) (y : State b.dof) : 0 ≤ b.size y :=
  add_nonneg (energy2_nonneg h hd _ _) (sum_nonneg fun _ _ => sq_nonneg _)

/-- Bounded by a multiple of `1 + size`. -/
def Bd (b : Body) (f : State b.dof → ℝ) : Prop := ∃ C, 0 ≤ C ∧ ∀ y, f y ≤ C * (1 + b.size y)

section Bd
variable {f g : State b.dof → ℝ}

theorem Bd.mono (hg : b.Bd g) (hle : ∀ y, f y ≤ g y) : b.Bd f := by
  obtain ⟨C, h0, hC⟩ := hg
  exact ⟨C, h0, fun y => (hle y).trans (hC y)⟩

theorem Bd.add (hf : b.Bd f) (hg : b.Bd g) : b.Bd fun y => f y + g y := by
  obtain ⟨C, h0, hC⟩ := hf
  obtain ⟨D, h1, hD⟩ := hg
  exact ⟨C + D, add_nonneg h0 h1, fun y => by linarith [hC y, hD y]⟩

theorem Bd.smul {c : ℝ} (hc : 0 ≤ c) (hf : b.Bd f) : b.Bd fun y => c * f y := by
  obtain ⟨C, h0, hC⟩ := hf
  exact ⟨c * C, mul_nonneg hc h0, fun y => by
    rw [mul_assoc]; exact mul_le_mul_of_nonneg_left (hC y) hc⟩

theorem Bd.sum {ι : Type*} (s : Finset ι) {f : ι → State b.dof → ℝ} (h : ∀ i ∈ s, b.Bd (f i)) :
    b.Bd fun y => ∑ i ∈ s, f i y := by
  classical
  induction s using Finset.induction_on with
  | empty =>
    refine ⟨0, le_rfl, fun y => ?_⟩
    simp
  | insert i s hi ih =>
    simp only [sum_insert hi]
    exact (h i (mem_insert_self i s)).add (ih fun j hj => h j (mem_insert_of_mem hj))

theorem Bd.const (h : Inv E b) (hd : b.Definite) (c : ℝ) : b.Bd fun _ => c :=
  ⟨|c|, abs_nonneg _, fun y => by
    have := size_nonneg h hd y
    nlinarith [le_abs_self c, abs_nonneg c]⟩

theorem bd_size (b : Body) : b.Bd fun y => b.size y := ⟨1, zero_le_one, fun y => by linarith⟩

end Bd

theorem bd_kin (h : Inv E b) (hd : b.Definite) :
    b.Bd fun y => (b.sysAt (padFin y.1) (padFin y.2)).energy2 (padFin y.2) :=
  (bd_size b).mono fun y => by
    unfold size
    linarith [sum_nonneg fun (i : Fin b.dof) (_ : i ∈ univ) => sq_nonneg (y.1 i)]

theorem bd_pos (h : Inv E b) (hd : b.Definite) (i : ℕ) : b.Bd fun y => padFin y.1 i ^ 2 := by
  by_cases hi : i < b.dof
  · refine (bd_size b).mono fun y => ?_
    have h1 := energy2_nonneg h hd (padFin y.1) (padFin y.2)
    have h2 := single_le_sum (f := fun i : Fin b.dof => y.1 i ^ 2) (fun _ _ => sq_nonneg _)
      (mem_univ (⟨i, hi⟩ : Fin b.dof))
    simp only [padFin, hi, dite_true] at *
    unfold size
    linarith
  · refine (Bd.const h hd 0).mono fun y => ?_
    simp [padFin, hi]

theorem bd_locVel (h : Inv E b) (hd : b.Definite) {k : ℕ} (hk : k < b.dof) :
    b.Bd fun y => (b.locVel (padFin y.1) (padFin y.2) k).sq := by
  obtain ⟨C, hC, hb⟩ := Inertia.lower (b.fresh.Itot k) (hd.physPD k hk).1 (hd.physPD k hk).2.2
  refine ((bd_kin h hd).smul hC).mono fun y => (hb _).trans (mul_le_mul_of_nonneg_left ?_ hC)
  rw [← kin_term h _ _ hk]
  exact single_le_sum (f := fun k => ((b.sysAt (padFin y.1) (padFin y.2)).V (padFin y.2) k).dot
    ((b.sysAt (padFin y.1) (padFin y.2)).Iw k ((b.sysAt (padFin y.1) (padFin y.2)).V (padFin y.2) k)))
    (fun k hk => kin_term_nonneg h hd _ _ (mem_range.1 hk)) (mem_range.2 hk)

theorem bd_vel (h : Inv E b) (hd : b.Definite) (ha : b.AxesOK) (i : ℕ) :
    b.Bd fun y => padFin y.2 i ^ 2 := by
  by_cases hi : i < b.dof
  · have hT : (b.rb i).T.Valid := h.rigid.link i hi
    have hsub : (b.rb i).joint.type.subspace ≠ 0 := by
      rw [← ha i hi]; exact hd.axes i hi
    have key : ∀ y : State b.dof, ∀ x : Motion,
        b.locVel (padFin y.1) (padFin y.2) i = (b.TpAt i (padFin y.1 i)).inv.actM x +
          padFin y.2 i • (b.rb i).joint.subspace →
        padFin y.2 i ^ 2 ≤ 2 * ((b.locVel (padFin y.1) (padFin y.2) i).sq +
          (2 + 2 * (b.rb i).T.t.dot (b.rb i).T.t) * x.sq) := by
      intro y x hx
      unfold TpAt at hx
      rw [Iso.inv_mul_rev hT (JType.Tjoint_valid _ _), Iso.actM_mul _ _ (JType.Tjoint_valid _ _).inv,
        ha i hi] at hx
      refine (JType.rate_le _ hsub _ _ _ _ hx).trans ?_
      have := hT.inv.sq_actM x
      rw [hT.inv_t_sq] at this
      linarith
    cases hpar : b.par i with
    | none =>
      refine ((bd_locVel h hd hi).smul (c := 2) (by norm_num)).mono fun y => ?_
      have := key y 0 (by have := locVel_rec h (padFin y.1) (padFin y.2) hi; rwa [hpar] at this)
      simpa [Motion.sq, Vec3.dot] using this
    | some p =>
      have hp : p < b.dof := by have := h.tree.parLt i hi p hpar; omega
      refine (((bd_locVel h hd hi).add ((bd_locVel h hd hp).smul
        (c := 2 + 2 * (b.rb i).T.t.dot (b.rb i).T.t)
        (by have := Vec3.dot_self_nonneg (b.rb i).T.t; positivity))).smul
        (c := 2) (by norm_num)).mono fun y => ?_
      exact key y _ (by have := locVel_rec h (padFin y.1) (padFin y.2) hi; rwa [hpar] at this)
  · refine (Bd.const h hd 0).mono fun y => ?_
    simp [padFin, hi]

theorem bd_origin (h : Inv E b) (hd : b.Definite) : ∀ k < b.dof,
    b.Bd fun y => (b.twAt (padFin y.1) k).t.dot (b.twAt (padFin y.1) k).t := by
  have key : ∀ (X T : Iso) (t : JType) (q : ℝ), X.Valid → T.Valid →
      (X * (T * t.Tjoint q)).t.dot (X * (T * t.Tjoint q)).t ≤
        4 * q ^ 2 + 4 * T.t.dot T.t + 2 * X.t.dot X.t := by
    intro X T t q hX hT
    have h1 := Vec3.add_sq_le (X.R.mulVec (T * t.Tjoint q).t) X.t
    have h2 := Vec3.add_sq_le (T.R.mulVec (t.Tjoint q).t) T.t
    rw [Mat3.IsRot.dot hX] at h1
    rw [Mat3.IsRot.dot hT] at h2
    have h3 := t.t_sq_le q
    rw [Iso.mul_t X]
    rw [Iso.mul_t T] at h1
    rw [Iso.mul_t T]
    linarith
  intro k
  induction k using Nat.strong_induction_on with
  | _ k ih =>
    intro hk
    have hT : (b.rb k).T.Valid := h.rigid.link k hk
    cases hpar : b.par k with
    | none =>
      refine (((bd_pos h hd k).smul (c := 4) (by norm_num)).add
        (Bd.const h hd (4 * (b.rb k).T.t.dot (b.rb k).T.t + 2 * b.T0.t.dot b.T0.t))).mono fun y => ?_
      have hr := twAt_rec h.tree (padFin y.1) hk
      rw [hpar] at hr
      simp only at hr
      rw [hr]
      have := key b.T0 (b.rb k).T (b.rb k).joint.type (padFin y.1 k) h.rigid.base hT
      unfold TpAt
      linarith
    | some p =>
      have hpk := h.tree.parLt k hk p hpar
      refine (((bd_pos h hd k).smul (c := 4) (by norm_num)).add
        ((Bd.const h hd (4 * (b.rb k).T.t.dot (b.rb k).T.t)).add
          ((ih p hpk (by omega)).smul (c := 2) (by norm_num)))).mono fun y => ?_
      have hr := twAt_rec h.tree (padFin y.1) hk
      rw [hpar] at hr
      simp only at hr
      rw [hr]
      have := key (b.twAt (padFin y.1) p) (b.rb k).T (b.rb k).joint.type (padFin y.1 k)
        (twAt_valid h.tree h.rigid _ p (by omega)) hT
      unfold TpAt
      linarith

/-- Power of forces fixed in the world. -/
theorem bd_force (h : Inv E b) (hd : b.Definite) (f : Force) {k : ℕ} (hk : k < b.dof) :
    b.Bd fun y => ((b.sysAt (padFin y.1) (padFin y.2)).V (padFin y.2) k).dot f := by
  have hc : 0 ≤ f.sq := f.sq_nonneg
  refine (((bd_locVel h hd hk).add (((Bd.const h hd 2).add ((bd_origin h hd k hk).smul (c := 2)
    (by norm_num))).smul hc)).smul (c := 1 / 2) (by norm_num)).mono fun y => ?_
  have hv := twAt_valid h.tree h.rigid (padFin y.1) k hk
  have e : ((b.sysAt (padFin y.1) (padFin y.2)).V (padFin y.2) k).dot f =
      (b.locVel (padFin y.1) (padFin y.2) k).dot ((b.twAt (padFin y.1) k).inv.actF f) := by
    unfold locVel
    rw [← hv.dot_actF, hv.actF_inv]
  have h1 := Motion.two_dot_le (b.locVel (padFin y.1) (padFin y.2) k)
    ((b.twAt (padFin y.1) k).inv.actF f)
  have h2 := hv.inv.sq_actF f
  rw [hv.inv_t_sq] at h2
  rw [e]
  linarith

/-- Power of a uniform acceleration. -/
theorem bd_gravity (h : Inv E b) (hd : b.Definite) (g : Vec3) {k : ℕ} (hk : k < b.dof) :
    b.Bd fun y => ((b.sysAt (padFin y.1) (padFin y.2)).V (padFin y.2) k).dot
      ((b.sysAt (padFin y.1) (padFin y.2)).Iw k ⟨g, 0⟩) := by
  refine (((bd_kin h hd).add (Bd.const h hd ((b.fresh.Itot k).mass * g.dot g))).smul (c := 1 / 2)
    (by norm_num)).mono fun y => ?_
  have hv := twAt_valid h.tree h.rigid (padFin y.1) k hk
  have e : ((b.sysAt (padFin y.1) (padFin y.2)).V (padFin y.2) k).dot
      ((b.sysAt (padFin y.1) (padFin y.2)).Iw k ⟨g, 0⟩) =
      (b.locVel (padFin y.1) (padFin y.2) k).dot ((b.fresh.Itot k).app
        ((b.twAt (padFin y.1) k).inv.actM ⟨g, 0⟩)) := by
    unfold Sys.Iw locVel
    rw [sysAt_Tw hk, hv.dot_actF]
    rfl
  have hle : ((b.sysAt (padFin y.1) (padFin y.2)).V (padFin y.2) k).dot
      ((b.sysAt (padFin y.1) (padFin y.2)).Iw k
        ((b.sysAt (padFin y.1) (padFin y.2)).V (padFin y.2) k)) ≤
      (b.sysAt (padFin y.1) (padFin y.2)).energy2 (padFin y.2) :=
    single_le_sum (f := fun k => ((b.sysAt (padFin y.1) (padFin y.2)).V (padFin y.2) k).dot
      ((b.sysAt (padFin y.1) (padFin y.2)).Iw k ((b.sysAt (padFin y.1) (padFin y.2)).V (padFin y.2) k)))
      (fun k hk => kin_term_nonneg h hd _ _ (mem_range.1 hk)) (mem_range.2 hk)
  rw [kin_term h _ _ hk] at hle
  rw [e]
  set m := b.locVel (padFin y.1) (padFin y.2) k
  set I := b.fresh.Itot k
  have hI := hd.physPD k hk
  set n := (b.twAt (padFin y.1) k).inv.actM ⟨g, 0⟩ with hn
  have hnn : n.dot (I.app n) = I.mass * g.dot g := by
    have e1 : n = ⟨(b.twAt (padFin y.1) k).R.T.mulVec g, 0⟩ := by
      rw [hn]; unfold Iso.actM; simp
    rw [e1, Inertia.dot_app_self]
    simp only [Vec3.zero_cross, add_zero, Mat3.mulVec_zero]
    rw [Mat3.IsRot.dot (Mat3.IsRot.T hv)]
    simp [Vec3.dot]
  have hpsd : 0 ≤ (m - n).dot (I.app (m - n)) := by
    by_cases h0 : m - n = 0
    · rw [h0]; simp
    · exact (Sys.inertia_pos_of _ hI.1 hI.2.2 _ h0).le
  have hsub : I.app (m - n) = I.app m - I.app n := by
    ext <;> simp [Inertia.app, Vec3.cross, Mat3.mulVec] <;> ring
  rw [hsub, Motion.dot_sub, Motion.sub_dot, Motion.sub_dot, Inertia.dot_app_symm _ hI.2.1 n m, hnn]
    at hpsd
  linarith

theorem accAt_solves (h : Reach E b d) (hd : b.Definite) (g : Vec3) (tau : ℕ → ℝ) (fext : FExt)
    (cc grav : Bool) (y : State b.dof) {i : ℕ} (hi : i < b.dof) :
    ∑ j ∈ range b.dof, (b.sysAt (padFin y.1) (padFin y.2)).massSpec i j *
      padFin (b.accAt g tau fext cc grav y) j =
    tau i - ((b.setG g).sysAt (padFin y.1) (padFin y.2)).idSpec (fun _ => 0) fext cc grav i := by
  have hdet := sysAt_det h hd y
  have e2 := Sys.toMat_mulVec b.dof (b.sysAt (padFin y.1) (padFin y.2)).massSpec
    (padFin (b.accAt g tau fext cc grav y)) ⟨i, hi⟩
  have e3 : (fun j : Fin b.dof => padFin (b.accAt g tau fext cc grav y) j) =
      b.accAt g tau fext cc grav y := by
    funext j; simp [padFin]
  rw [e3] at e2
  rw [← e2]
  unfold accAt
  rw [Matrix.mulVec_mulVec, Matrix.mul_nonsing_inv _ (isUnit_iff_ne_zero.2 hdet), Matrix.one_mulVec]
  rfl

theorem size_smooth (h : Reach E b d) : ContDiff ℝ ∞ b.size := by
  have hq : ∀ i < b.dof, Sm fun y : State b.dof => padFin y.1 i :=
    fun i _ => padFin_smooth contDiff_fst i
  have hw : ∀ i < b.dof, Sm fun y : State b.dof => padFin y.2 i :=
    fun i _ => padFin_smooth contDiff_snd i
  have h1 : Sm fun y : State b.dof => (b.sysAt (padFin y.1) (padFin y.2)).energy2 (padFin y.2) := by
    unfold Sys.energy2
    show ContDiff ℝ ∞ fun y : State b.dof => ∑ k ∈ range b.dof, _
    refine ContDiff.sum fun k _ => ?_
    have hV := V_smooth (b := b) (X := State b.dof) (q := fun y => padFin y.1)
      (w := fun y => padFin y.2) h.inv.tree hq (r := fun y => padFin y.2) hw k
    exact hV.dot (Iw_smooth h.inv.tree hq hV k)
  have h2 : Sm fun y : State b.dof => ∑ i, y.1 i ^ 2 :=
    ContDiff.sum fun i _ => ((contDiff_pi (𝕜 := ℝ) (Φ := fun y : State b.dof => y.1)).1
      contDiff_fst i).pow 2
  exact ContDiff.add h1 h2

theorem hasDerivAt_pad {n : ℕ} (a v : Fin n → ℝ) (i : ℕ) :
    HasDerivAt (fun s : ℝ => padFin (a + s • v) i) (padFin v i) 0 := by
  unfold padFin
  split
  · rename_i hi
    simp only [Pi.add_apply, Pi.smul_apply, smul_eq_mul]
    have := ((hasDerivAt_id (0 : ℝ)).mul_const (v ⟨i, hi⟩)).const_add (a ⟨i, hi⟩)
    rw [one_mul] at this
    exact this
  · exact hasDerivAt_const _ _

/-- The power of the inertial forces is that of the torques and forces. -/
theorem kin_power (h : Reach E b d) (hd : b.Definite) (g : Vec3) (tau : ℕ → ℝ) (fext : FExt)
    (grav : Bool) (y : State b.dof) : ∑ k ∈ range b.dof,
      ((b.sysAt (padFin y.1) (padFin y.2)).V (padFin y.2) k).dot
        ((b.sysAt (padFin y.1) (padFin y.2)).Iw k
          ((b.sysAt (padFin y.1) (padFin y.2)).V (padFin (b.accAt g tau fext true grav y)) k +
            (b.sysAt (padFin y.1) (padFin y.2)).bias k)) =
      ∑ i ∈ range b.dof, padFin y.2 i * tau i +
        ∑ k ∈ range b.dof, (((b.sysAt (padFin y.1) (padFin y.2)).V (padFin y.2) k).dot
          ((fext k).getD 0) + if grav then ((b.sysAt (padFin y.1) (padFin y.2)).V (padFin y.2) k).dot
            ((b.sysAt (padFin y.1) (padFin y.2)).Iw k ⟨g, 0⟩) else 0) := by
  set σ := (b.setG g).sysAt (padFin y.1) (padFin y.2) with hσ
  set a := b.accAt g tau fext true grav y
  have e1 := Sys.genForce_power (σ := σ) (padFin y.2) fun k => σ.Iw k (σ.V (padFin a) k)
  have e2 := Sys.genForce_power (σ := σ) (padFin y.2)
    fun k => σ.Iw k (σ.bias k) + (σ.V σ.dq k).crossF (σ.Iw k (σ.V σ.dq k))
  have e3 := Sys.genForce_power (σ := σ) (padFin y.2) fun k => σ.Iw k (-σ.g)
  have e4 := Sys.genForce_power (σ := σ) (padFin y.2) fun k => (fext k).getD 0
  have e5 : ∀ i ∈ range b.dof, padFin y.2 i * (σ.genForce (fun k => σ.Iw k (σ.V (padFin a) k)) i) =
      padFin y.2 i * tau i - padFin y.2 i * σ.coriolisSpec i -
        (if grav then padFin y.2 i * σ.gravitySpec i else 0) +
        padFin y.2 i * σ.genForce (fun k => (fext k).getD 0) i := by
    intro i hi
    have := accAt_solves h hd g tau fext true grav y (mem_range.1 hi)
    rw [Sys.genForce_Iw_V]
    have e : ∑ j ∈ range σ.n, σ.massSpec i j * padFin a j = ∑ j ∈ range b.dof,
        (b.sysAt (padFin y.1) (padFin y.2)).massSpec i j * padFin a j := rfl
    rw [e, this]
    unfold Sys.idSpec Sys.extSpec
    simp only [mul_zero, sum_const_zero, if_true, zero_add]
    split <;> ring
  have hv : σ.dq = padFin y.2 := rfl
  have hn : σ.n = b.dof := rfl
  rw [hn] at e1 e2 e3 e4
  have lhs : ∑ k ∈ range b.dof, ((b.sysAt (padFin y.1) (padFin y.2)).V (padFin y.2) k).dot
      ((b.sysAt (padFin y.1) (padFin y.2)).Iw k
        ((b.sysAt (padFin y.1) (padFin y.2)).V (padFin a) k +
          (b.sysAt (padFin y.1) (padFin y.2)).bias k)) =
      ∑ k ∈ range b.dof, ((σ.V (padFin y.2) k).dot (σ.Iw k (σ.V (padFin a) k)) +
        (σ.V (padFin y.2) k).dot (σ.Iw k (σ.bias k) + (σ.V σ.dq k).crossF
          (σ.Iw k (σ.V σ.dq k)))) := by
    refine sum_congr rfl fun k _ => ?_
    rw [hv, Motion.dot_add, Motion.dot_crossF_self, add_zero, ← Motion.dot_add, ← Sys.Iw_add]
    rfl
  rw [lhs, sum_add_distrib, ← e1, ← e2, sum_congr rfl e5, sum_add_distrib, sum_sub_distrib,
    sum_sub_distrib, e4]
  have e6 : ∑ i ∈ range b.dof, (if grav then padFin y.2 i * σ.gravitySpec i else 0) =
      if grav then ∑ k ∈ range b.dof, (σ.V (padFin y.2) k).dot (σ.Iw k (-σ.g)) else 0 := by
    split
    · exact e3
    · simp
  have e7 : ∑ i ∈ range b.dof, padFin y.2 i * σ.coriolisSpec i = ∑ i ∈ range b.dof,
      padFin y.2 i * σ.genForce
        (fun k => σ.Iw k (σ.bias k) + (σ.V σ.dq k).crossF (σ.Iw k (σ.V σ.dq k))) i := rfl
  rw [e6, e7]
  have e8 : ∑ k ∈ range b.dof, (((b.sysAt (padFin y.1) (padFin y.2)).V (padFin y.2) k).dot
        ((fext k).getD 0) + if grav then ((b.sysAt (padFin y.1) (padFin y.2)).V (padFin y.2) k).dot
          ((b.sysAt (padFin y.1) (padFin y.2)).Iw k ⟨g, 0⟩) else 0) =
      ∑ k ∈ range b.dof, (σ.V (padFin y.2) k).dot ((fext k).getD 0) -
        if grav then ∑ k ∈ range b.dof, (σ.V (padFin y.2) k).dot (σ.Iw k (-σ.g)) else 0 := by
    rw [sum_add_distrib]
    split
    · rw [sub_eq_add_neg, ← sum_neg_distrib]
      congr 1
      refine sum_congr rfl fun k _ => ?_
      rw [Sys.Iw_neg, Motion.dot_neg, neg_neg]
      rfl
    · simp only [sum_const_zero, add_zero, sub_zero]; rfl
  rw [e8]
  ring

/-- Rate of the kinetic energy along the vector field. -/
theorem kin_curve (h : Reach E b d) (hd : b.Definite) (ha : b.AxesOK) (y : State b.dof)
    (a : Fin b.dof → ℝ) :
    HasDerivAt (fun s : ℝ => (b.sysAt (padFin (y.1 + s • y.2)) (padFin (y.2 + s • a))).energy2
        (padFin (y.2 + s • a)))
      (2 * ∑ k ∈ range b.dof, ((b.sysAt (padFin y.1) (padFin y.2)).V (padFin y.2) k).dot
        ((b.sysAt (padFin y.1) (padFin y.2)).Iw k
          ((b.sysAt (padFin y.1) (padFin y.2)).V (padFin a) k +
            (b.sysAt (padFin y.1) (padFin y.2)).bias k))) 0 := by
  have hm := hd.massive h.inv.tree
  have hk := kinetic_deriv h.inv ha (fun u w => hm.symI) (u := fun s => padFin (y.1 + s • y.2))
    (w := fun s => padFin (y.2 + s • a)) (a := padFin a) (s := 0)
    (fun i _ => by
      have := hasDerivAt_pad y.1 y.2 i
      simpa using this) fun i _ => hasDerivAt_pad y.2 a i
  simp only [zero_smul, add_zero] at hk
  exact hk

theorem fderiv_curve {f : State b.dof → ℝ} (hf : ContDiff ℝ ∞ f) {y : State b.dof}
    {a : Fin b.dof → ℝ} {f' : ℝ} (h : HasDerivAt (fun s : ℝ => f (y.1 + s • y.2, y.2 + s • a)) f' 0) :
    fderiv ℝ f y (y.2, a) = f' := by
  have h1 : HasDerivAt (fun s : ℝ => y + s • ((y.2, a) : State b.dof)) (y.2, a) 0 := by
    have := ((hasDerivAt_id (0 : ℝ)).smul_const ((y.2, a) : State b.dof)).const_add y
    rw [one_smul] at this
    exact this
  have h2 : HasFDerivAt f (fderiv ℝ f y) (y + (0 : ℝ) • ((y.2, a) : State b.dof)) := by
    rw [zero_smul, add_zero]
    exact (hf.differentiable (by simp)).differentiableAt.hasFDerivAt
  exact (h2.comp_hasDerivAt (0 : ℝ) h1).unique h

/-- The growth function grows at most exponentially along motions. -/
theorem size_growth (h : Reach E b d) (hd : b.Definite) (ha : b.AxesOK) (g : Vec3) (tau : ℕ → ℝ)
    (fext : FExt) (grav : Bool) :
    b.Bd fun y => fderiv ℝ b.size y (y.2, b.accAt g tau fext true grav y) := by
  -- the derivative
  have hval : ∀ y : State b.dof, fderiv ℝ b.size y (y.2, b.accAt g tau fext true grav y) =
      2 * ∑ k ∈ range b.dof, ((b.sysAt (padFin y.1) (padFin y.2)).V (padFin y.2) k).dot
        ((b.sysAt (padFin y.1) (padFin y.2)).Iw k
          ((b.sysAt (padFin y.1) (padFin y.2)).V (padFin (b.accAt g tau fext true grav y)) k +
            (b.sysAt (padFin y.1) (padFin y.2)).bias k)) + ∑ i, 2 * (y.1 i * y.2 i) := by
    intro y
    set a := b.accAt g tau fext true grav y
    refine fderiv_curve (size_smooth h) ?_
    have hs : HasDerivAt (fun s : ℝ => ∑ i, (y.1 + s • y.2) i ^ 2) (∑ i, 2 * (y.1 i * y.2 i)) 0 := by
      refine HasDerivAt.fun_sum fun i _ => ?_
      have e := (((hasDerivAt_id (0 : ℝ)).mul_const (y.2 i)).const_add (y.1 i)).pow 2
      refine e.congr_deriv ?_
      simp; ring
    exact (kin_curve h hd ha y a).add hs
  have hb1 : b.Bd fun y => ∑ i ∈ range b.dof, padFin y.2 i * tau i := by
    refine Bd.sum _ fun i _ => ((bd_vel h.inv hd ha i).add
      (Bd.const h.inv hd (tau i ^ 2))).mono fun y => ?_
    nlinarith [sq_nonneg (padFin y.2 i - tau i), sq_nonneg (padFin y.2 i + tau i)]
  have hb2 : b.Bd fun y => ∑ k ∈ range b.dof,
      (((b.sysAt (padFin y.1) (padFin y.2)).V (padFin y.2) k).dot
          ((fext k).getD 0) + if grav then ((b.sysAt (padFin y.1) (padFin y.2)).V (padFin y.2) k).dot
            ((b.sysAt (padFin y.1) (padFin y.2)).Iw k ⟨g, 0⟩) else 0) := by
    refine Bd.sum _ fun k hk => (bd_force h.inv hd _ (mem_range.1 hk)).add ?_
    split
    · exact bd_gravity h.inv hd g (mem_range.1 hk)
    · exact Bd.const h.inv hd 0
  have hb3 : b.Bd fun y => ∑ i : Fin b.dof, 2 * (y.1 i * y.2 i) := by
    refine Bd.sum _ fun i _ => ((bd_pos h.inv hd i).add (bd_vel h.inv hd ha i)).mono fun y => ?_
    simp only [padFin, i.2, dite_true]
    nlinarith [sq_nonneg (y.1 i - y.2 i)]
  refine (((hb1.add hb2).smul (c := 2) (by norm_num)).add hb3).mono fun y => ?_
  rw [hval y, kin_power h hd g tau fext grav y]

/-- The growth function bounds positions and velocities. -/
theorem size_coercive (h : Reach E b d) (hd : b.Definite) (ha : b.AxesOK) (r : ℝ) :
    ∃ R, ∀ y, b.size y ≤ r → ‖y‖ ≤ R := by
  have hall : b.Bd fun y => ∑ i : Fin b.dof, (padFin y.1 i ^ 2 + padFin y.2 i ^ 2) :=
    Bd.sum _ fun i _ => (bd_pos h.inv hd i).add (bd_vel h.inv hd ha i)
  obtain ⟨C, hC, hb⟩ := hall
  refine ⟨C * (1 + r) + 1, fun y hy => ?_⟩
  have h1 : ∑ i : Fin b.dof, (padFin y.1 i ^ 2 + padFin y.2 i ^ 2) ≤ C * (1 + r) :=
    (hb y).trans (mul_le_mul_of_nonneg_left (by linarith) hC)
  have h0 : 0 ≤ C * (1 + r) := le_trans (sum_nonneg fun i _ => by positivity) h1
  have h2 : ∀ i : Fin b.dof, y.1 i ^ 2 + y.2 i ^ 2 ≤ C * (1 + r) := by
    intro i
    refine le_trans ?_ h1
    have := single_le_sum (f := fun i : Fin b.dof => padFin y.1 i ^ 2 + padFin y.2 i ^ 2)
      (fun _ _ => by positivity) (mem_univ i)
    simpa [padFin] using this
  have habs : ∀ x : ℝ, x ^ 2 ≤ C * (1 + r) → ‖x‖ ≤ C * (1 + r) + 1 := by
    intro x hx
    rw [Real.norm_eq_abs, abs_le]
    constructor <;> nlinarith [sq_nonneg (x - 1), sq_nonneg (x + 1)]
  refine max_le ?_ ?_
  · exact (pi_norm_le_iff_of_nonneg (by linarith)).2 fun i =>
      habs _ (by linarith [h2 i, sq_nonneg (y.2 i)])
  · exact (pi_norm_le_iff_of_nonneg (by linarith)).2 fun i =>
      habs _ (by linarith [h2 i, sq_nonneg (y.1 i)])

/-- Solutions for all times. -/
theorem field_forever (h : Reach E b d) (hd : b.Definite) (ha : b.AxesOK) {c : Cache}
    (hc : c.Clear) (tau : ℕ → ℝ) (fext : FExt) (o : IntOpts) (ho : o.friction = false)
    (hcc : o.cc = true) (y0 : State b.dof) :
    ∃ Y : ℝ → State b.dof, Y 0 = y0 ∧ ∀ T, OneStep.Solves (b.field E c tau fext o) T Y := by
  obtain ⟨C, hC, hb⟩ := size_growth h hd ha (if o.aba then b.T0.R.mulVec b.g else b.g) tau fext
    o.gravity
  refine OneStep.exists_forever ((field_smooth h hd hc tau fext o ho).of_le (by simp))
    ((size_smooth h).of_le (by simp)) hC (size_nonneg h.inv hd) (fun y => ?_)
    (size_coercive h hd ha) y0
  rw [field_val h hd hc tau fext o ho, hcc]
  exact hb y

end Body
end SpatialDyn
