import Verif.Props.ComputedTorque
import Verif.Props.Hold
import Verif.Props.Damped
import Verif.Lemmas.OdeGlobal

/-! C156: computed-torque control follows every reference, exponentially fast. -/

namespace SpatialDyn
open Finset Body OneStep

variable {E : Ext} {b : Body} {d : Bool}

/-- What a damped oscillator loses. -/
theorem oscillator_decays {kp kv : ℝ} (hp : 0 < kp) (hv : 0 < kv) :
    ∃ C lam : ℝ, 0 < lam ∧ ∀ (T : ℝ) (e w : ℝ → ℝ),
      (∀ t ∈ Set.Icc 0 T, HasDerivWithinAt e (w t) (Set.Icc 0 T) t) →
      (∀ t ∈ Set.Icc 0 T, HasDerivWithinAt w (-kp * e t - kv * w t) (Set.Icc 0 T) t) →
      ∀ t ∈ Set.Icc 0 T, kp * e t ^ 2 + w t ^ 2 ≤ C * Real.exp (-(lam * t)) * (kp * e 0 ^ 2 + w 0 ^ 2) := by
  set L : ℝ := 1 + (kv ^ 2 / 4 + kp + kv ^ 2 / 2) / (2 * kp) with hL
  have hL0 : 0 < L := by positivity
  have hLk : (kv ^ 2 / 4 + kp + kv ^ 2 / 2) / 2 ≤ L * kp := by
    rw [hL, add_mul, one_mul, div_mul_eq_mul_div, ← sub_nonneg]
    have : (kv ^ 2 / 4 + kp + kv ^ 2 / 2) * kp / (2 * kp) = (kv ^ 2 / 4 + kp + kv ^ 2 / 2) / 2 := by
      field_simp
    rw [this]
    linarith
  have hL1 : 1 ≤ L := by rw [hL]; have : 0 ≤ (kv ^ 2 / 4 + kp + kv ^ 2 / 2) / (2 * kp) := by positivity
                         linarith
  set lam : ℝ := kv / 2 / L with hlam
  have hlam0 : 0 < lam := by positivity
  have hlL : lam * L = kv / 2 := by rw [hlam]; field_simp
  refine ⟨4 * L, lam, hlam0, fun T e w he hw t ht => ?_⟩
  set V : ℝ → ℝ := fun s => w s ^ 2 / 2 + kv / 2 * (e s * w s) + (kp + kv ^ 2 / 2) / 2 * e s ^ 2 with hV
  have low : ∀ s, (kp * e s ^ 2 + w s ^ 2) / 4 ≤ V s := fun s => by
    simp only [hV]
    nlinarith [sq_nonneg (w s + kv * e s), sq_nonneg (e s), mul_nonneg hp.le (sq_nonneg (e s))]
  have up : ∀ s, V s ≤ L * (kp * e s ^ 2 + w s ^ 2) := fun s => by
    simp only [hV]
    have h1 := mul_le_mul_of_nonneg_right hLk (sq_nonneg (e s))
    have h2 := mul_le_mul_of_nonneg_right hL1 (sq_nonneg (w s))
    nlinarith [sq_nonneg (w s - kv / 2 * e s)]
  have dV : ∀ s ∈ Set.Icc 0 T, HasDerivWithinAt (fun s => V s * Real.exp (lam * s))
      ((-(kv / 2) * (kp * e s ^ 2 + w s ^ 2) + lam * V s) * Real.exp (lam * s)) (Set.Icc 0 T) s := by
    intro s hs
    have h1 := ((((hw s hs).pow 2).div_const 2).add (((he s hs).mul (hw s hs)).const_mul (kv / 2))).add
      (((he s hs).pow 2).const_mul ((kp + kv ^ 2 / 2) / 2))
    have h2 : HasDerivWithinAt (fun s => Real.exp (lam * s)) (Real.exp (lam * s) * (lam * 1)) (Set.Icc 0 T) s :=
      (((hasDerivAt_id s).const_mul lam).exp).hasDerivWithinAt
    refine (h1.mul h2).congr_deriv ?_
    simp only [hV, Pi.add_apply, Pi.mul_apply, Pi.pow_apply]
    push_cast
    ring
  have anti : AntitoneOn (fun s => V s * Real.exp (lam * s)) (Set.Icc 0 T) := by
    refine antitoneOn_of_hasDerivWithinAt_nonpos (convex_Icc _ _)
      (f' := fun s => (-(kv / 2) * (kp * e s ^ 2 + w s ^ 2) + lam * V s) * Real.exp (lam * s))
      (fun x hx => (dV x hx).continuousWithinAt)
      (fun x hx => (dV x (interior_subset hx)).mono interior_subset) fun x _ => ?_
    refine mul_nonpos_of_nonpos_of_nonneg ?_ (Real.exp_pos _).le
    have := mul_le_mul_of_nonneg_left (up x) hlam0.le
    rw [← mul_assoc, hlL] at this
    linarith
  have key := anti ⟨le_rfl, ht.1.trans ht.2⟩ ht ht.1
  simp only [mul_zero, Real.exp_zero, mul_one] at key
  have hx : V t ≤ V 0 * Real.exp (-(lam * t)) := by
    rw [Real.exp_neg, ← div_eq_mul_inv, le_div_iff₀ (Real.exp_pos _)]
    exact key
  have h3 := mul_le_mul_of_nonneg_right (up 0) (Real.exp_pos (-(lam * t))).le
  have h4 := low t
  nlinarith

/-- Oscillators move for all times. -/
theorem oscillator_moves {kp kv : ℝ} (hp : 0 < kp) (hv : 0 ≤ kv) (y0 : ℝ × ℝ) :
    ∃ Y : ℝ → ℝ × ℝ, Y 0 = y0 ∧ ∀ T, ∀ t ∈ Set.Icc 0 T,
      HasDerivWithinAt (fun s => (Y s).1) (Y t).2 (Set.Icc 0 T) t ∧
      HasDerivWithinAt (fun s => (Y s).2) (-kp * (Y t).1 - kv * (Y t).2) (Set.Icc 0 T) t := by
  have hf : ContDiff ℝ 1 fun y : ℝ × ℝ => y.1 := contDiff_fst
  have hs : ContDiff ℝ 1 fun y : ℝ × ℝ => y.2 := contDiff_snd
  obtain ⟨Y, h0, hY⟩ := exists_forever (F := fun y : ℝ × ℝ => (y.2, -kp * y.1 - kv * y.2))
    (W := fun y => kp * y.1 ^ 2 + y.2 ^ 2) (C := 0)
    (hs.prodMk ((contDiff_const.mul hf).sub (contDiff_const.mul hs)))
    ((contDiff_const.mul (hf.pow 2)).add (hs.pow 2)) le_rfl (fun y => by positivity)
    (fun y => by
      have h1 := (((hasFDerivAt_fst (𝕜 := ℝ) (p := y)).pow 2).const_mul kp).add
        ((hasFDerivAt_snd (𝕜 := ℝ) (p := y)).pow 2)
      have h2 : fderiv ℝ (fun y : ℝ × ℝ => kp * y.1 ^ 2 + y.2 ^ 2) y = _ := h1.fderiv
      rw [h2]
      simp
      nlinarith [mul_nonneg hv (sq_nonneg y.2)])
    (fun r => ⟨max (r / kp + 1) (r + 1), fun y hy => by
      rw [Prod.norm_def]
      refine max_le_max ?_ ?_
      · rw [Real.norm_eq_abs]
        have : y.1 ^ 2 ≤ r / kp := by
          rw [le_div_iff₀ hp]; nlinarith [sq_nonneg y.2]
        nlinarith [sq_abs y.1, sq_nonneg (|y.1| - 1)]
      · rw [Real.norm_eq_abs]
        have : y.2 ^ 2 ≤ r := by nlinarith [mul_nonneg hp.le (sq_nonneg y.1)]
        nlinarith [sq_abs y.2, sq_nonneg (|y.2| - 1)]⟩) y0
  exact ⟨Y, h0, fun T t ht => ⟨(hY T t ht).fst, (hY T t ht).snd⟩⟩

/-- C156: along a motion under the torques that `InverseDynamics` answers for the accelerations of a reference less
proportional corrections of the errors of position and velocity, the errors die out exponentially; how fast
depends on the gains of the joint alone. -/
theorem C156_tracks {kp kv : ℕ → ℝ} {i : ℕ} (hp : 0 < kp i) (hv : 0 < kv i) :
    ∃ C lam : ℝ, 0 < lam ∧ ∀ (E : Ext) (b : Body) (d : Bool), Reach E b d → b.Definite → ∀ (fext : FExt) (o : IntOpts),
      o.friction = false → (o.aba = false ∨ b.T0.R.mulVec b.g = b.g) → ∀ (T : ℝ) (x w a : ℝ → ℕ → ℝ),
      (∀ i < b.dof, ∀ t ∈ Set.Icc 0 T, HasDerivWithinAt (fun s => x s i) (w t i) (Set.Icc 0 T) t) →
      (∀ i < b.dof, ∀ t ∈ Set.Icc 0 T, HasDerivWithinAt (fun s => w s i) (a t i) (Set.Icc 0 T) t) →
      ∀ (tau : ℝ → ℕ → ℝ) (q dq : ℝ → List ℝ), b.MovesWith E tau fext o T q dq →
      (∀ t ∈ Set.Icc 0 T, ∀ b1 B, b.setQ (q t) = .ok b1 → b1.setDq (dq t) = .ok B → ∀ k < b.dof,
        tau t k = (B.inverseDynamics (fun j => a t j - kp j * ((q t).getD j 0 - x t j) -
          kv j * ((dq t).getD j 0 - w t j)) fext ⟨o.gravity, o.cc, false, o.eps⟩).1 k) →
      i < b.dof → ∀ t ∈ Set.Icc 0 T,
        kp i * ((q t).getD i 0 - x t i) ^ 2 + ((dq t).getD i 0 - w t i) ^ 2 ≤
          C * Real.exp (-(lam * t)) * (kp i * ((q 0).getD i 0 - x 0 i) ^ 2 + ((dq 0).getD i 0 - w 0 i) ^ 2) := by
  obtain ⟨C, lam, hl, hC⟩ := oscillator_decays hp hv
  refine ⟨C, lam, hl, fun E b d h hd fext o ho hbase T x w a hx hw tau q dq hM htau hi t ht => ?_⟩
  have hm := hd.massive h.inv.tree
  refine hC T (fun t => (q t).getD i 0 - x t i) (fun t => (dq t).getD i 0 - w t i) (fun s hs => ?_)
    (fun s hs => ?_) t ht
  · obtain ⟨b1, B, e1, e2, e3⟩ := hM s hs
    exact (e3 i hi).1.sub (hx i hi s hs)
  · obtain ⟨b1, B, e1, e2, e3⟩ := hM s hs
    refine ((e3 i hi).2.sub (hw i hi s hs)).congr_deriv ?_
    have f1 := field_of_set h hm cache0_clear (tau s) fext o e1 e2 ⟨i, hi⟩
    set acc : ℕ → ℝ := fun j => a s j - kp j * ((q s).getD j 0 - x s j) - kv j * ((dq s).getD j 0 - w s j) with hacc
    have f2 := (atState_of_set h e1 e2).torque h hd acc fext o ho hbase
    have f3 : b.field E cache0 (tau s) fext o = b.field E cache0
        (B.inverseDynamics acc fext ⟨o.gravity, o.cc, false, o.eps⟩).1 fext o := by
      rw [field_pad h hd (B.inverseDynamics _ _ _).1 fext o ho, field_pad h hd (tau s) fext o ho]
      congr 2
      funext j
      exact htau s hs b1 B e1 e2 j j.2
    rw [f3, f2] at f1
    simp only at f1
    rw [f1]
    simp only [hacc]
    ring

/-- C156: such motions exist from every state and for all times. -/
theorem C156_motion (h : Reach E b d) (hd : b.Definite) {kp kv : ℕ → ℝ} (hp : ∀ i < b.dof, 0 < kp i)
    (hv : ∀ i < b.dof, 0 ≤ kv i) (fext : FExt) {o : IntOpts} (ho : o.friction = false)
    (hbase : o.aba = false ∨ b.T0.R.mulVec b.g = b.g) {x w a : ℝ → ℕ → ℝ}
    (hx : ∀ T, ∀ i < b.dof, ∀ t ∈ Set.Icc 0 T, HasDerivWithinAt (fun s => x s i) (w t i) (Set.Icc 0 T) t)
    (hw : ∀ T, ∀ i < b.dof, ∀ t ∈ Set.Icc 0 T, HasDerivWithinAt (fun s => w s i) (a t i) (Set.Icc 0 T) t)
    {q0 dq0 : List ℝ} (hq : q0.length = b.dof) (hdq : dq0.length = b.dof) :
    ∃ (tau : ℝ → ℕ → ℝ) (q dq : ℝ → List ℝ), q 0 = q0 ∧ dq 0 = dq0 ∧ (∀ T, b.MovesWith E tau fext o T q dq) ∧
      ∀ t, ∀ b1 B, b.setQ (q t) = .ok b1 → b1.setDq (dq t) = .ok B → ∀ k < b.dof,
        tau t k = (B.inverseDynamics (fun j => a t j - kp j * ((q t).getD j 0 - x t j) -
          kv j * ((dq t).getD j 0 - w t j)) fext ⟨o.gravity, o.cc, false, o.eps⟩).1 k := by
  have hm := hd.massive h.inv.tree
  have hex : ∀ i : ℕ, ∃ Y : ℝ → ℝ × ℝ, i < b.dof → Y 0 = (q0.getD i 0 - x 0 i, dq0.getD i 0 - w 0 i) ∧
      ∀ T, ∀ t ∈ Set.Icc 0 T, HasDerivWithinAt (fun s => (Y s).1) (Y t).2 (Set.Icc 0 T) t ∧
        HasDerivWithinAt (fun s => (Y s).2) (-kp i * (Y t).1 - kv i * (Y t).2) (Set.Icc 0 T) t := fun i => by
    by_cases hi : i < b.dof
    · obtain ⟨Y, hY⟩ := oscillator_moves (hp i hi) (hv i hi) (q0.getD i 0 - x 0 i, dq0.getD i 0 - w 0 i)
      exact ⟨Y, fun _ => hY⟩
    · exact ⟨fun _ => 0, fun g => absurd g hi⟩
  choose Y hY using hex
  set X : ℝ → ℕ → ℝ := fun t i => x t i + (Y i t).1 with hX
  set W : ℝ → ℕ → ℝ := fun t i => w t i + (Y i t).2 with hW
  set A : ℝ → ℕ → ℝ := fun t i => a t i + (-kp i * (Y i t).1 - kv i * (Y i t).2) with hA
  have start : ∀ {l : List ℝ} {f : ℕ → ℝ}, l.length = b.dof → (∀ i < b.dof, f i = l.getD i 0) →
      (List.range b.dof).map f = l := fun {l f} hl hf => by
    refine List.ext_getElem (by simp [hl]) fun n h1 h2 => ?_
    have hn : n < b.dof := by simpa using h1
    simp [hf n hn, h2]
  refine ⟨b.along X W A fext o.cc o.gravity, fun t => (List.range b.dof).map (X t),
    fun t => (List.range b.dof).map (W t), start hq fun i hi => ?_, start hdq fun i hi => ?_, fun T t ht => ?_,
    fun t b1 B e1 e2 k hk => ?_⟩
  · simp only [hX, ((hY i hi).1)]; ring
  · simp only [hW, ((hY i hi).1)]; ring
  · obtain ⟨c1, e1, n1⟩ := setQ_total (b := b) (q := (List.range b.dof).map (X t)) (by simp)
    obtain ⟨c2, e2, n2⟩ := setDq_total (b := c1) (q := (List.range b.dof).map (W t)) (by simp [n1])
    refine ⟨c1, c2, e1, e2, fun i hi => ⟨?_, ?_⟩⟩
    · simp only [joints_getD _ hi]
      exact (hx T i hi t ht).add ((hY i hi).2 T t ht).1
    · simp only [joints_getD _ hi]
      have f1 := field_of_set h hm cache0_clear (b.along X W A fext o.cc o.gravity t) fext o e1 e2 ⟨i, hi⟩
      have f2 := (atState_of_set h e1 e2).torque h hd (A t) fext o ho hbase
      have f3 : b.field E cache0 (b.along X W A fext o.cc o.gravity t) fext o = b.field E cache0
          (c2.inverseDynamics (A t) fext ⟨o.gravity, o.cc, false, o.eps⟩).1 fext o := by
        rw [field_pad h hd (c2.inverseDynamics _ _ _).1 fext o ho,
          field_pad h hd (b.along X W A fext o.cc o.gravity t) fext o ho]
        congr 2
        funext j
        exact (along_id h hd fext o e1 e2 j.2).symm
      rw [f3, f2] at f1
      simp only at f1
      rw [f1]
      exact (hw T i hi t ht).add ((hY i hi).2 T t ht).2
  · rw [← along_id h hd fext o e1 e2 hk]
    obtain ⟨hs, hn, ⟨d', hr⟩, hf, -⟩ := set_facts h e1 e2
    have hmB := (hs.definite hd).massive hr.inv.tree
    rw [inverseDynamics_val hr.inv hmB.symI (hmB.posMass hr.inv.tree) _ _ _ k (by rw [hn]; exact hk),
      inverseDynamics_val hr.inv hmB.symI (hmB.posMass hr.inv.tree) _ _ _ k (by rw [hn]; exact hk)]
    have e : ∀ j < b.dof, A t j = a t j - kp j * (((List.range b.dof).map (X t)).getD j 0 - x t j) -
        kv j * (((List.range b.dof).map (W t)).getD j 0 - w t j) := fun j hj => by
      rw [joints_getD _ hj, joints_getD _ hj]
      simp only [hX, hW, hA]
      ring
    unfold Sys.addFriction Sys.idSpec
    simp only [Bool.false_eq_true, if_false]
    have e' : ∑ j ∈ range B.fresh.n, B.fresh.massSpec k j * A t j = ∑ j ∈ range B.fresh.n, B.fresh.massSpec k j *
        (a t j - kp j * (((List.range b.dof).map (X t)).getD j 0 - x t j) -
          kv j * (((List.range b.dof).map (W t)).getD j 0 - w t j)) :=
      sum_congr rfl fun j hj => by rw [e j ((mem_range.1 hj).trans_eq hn)]
    rw [e']

/-- The hypotheses hold for a pendulum that is to swing as the sine, from every state. -/
example (E : Ext) (y z : ℝ) : ∃ d, Reach E creak d ∧ creak.Definite ∧
    (∀ T, ∀ i < creak.dof, ∀ t ∈ Set.Icc 0 T, HasDerivWithinAt (fun s => Real.sin s) (Real.cos t) (Set.Icc 0 T) t) ∧
    (∀ T, ∀ i < creak.dof, ∀ t ∈ Set.Icc 0 T, HasDerivWithinAt (fun s => Real.cos s) (-Real.sin t) (Set.Icc 0 T) t) ∧
    ∃ (tau : ℝ → ℕ → ℝ) (q dq : ℝ → List ℝ), q 0 = [y] ∧ dq 0 = [z] ∧
      (∀ T, creak.MovesWith E tau noExt { IntOpts.make with friction := false } T q dq) ∧
      ∀ t, ∀ b1 B, creak.setQ (q t) = .ok b1 → b1.setDq (dq t) = .ok B → ∀ k < creak.dof,
        tau t k = (B.inverseDynamics (fun j => -Real.sin t - 1 * ((q t).getD j 0 - Real.sin t) -
          1 * ((dq t).getD j 0 - Real.cos t)) noExt ⟨true, true, false, IntOpts.make.eps⟩).1 k := by
  obtain ⟨d, h⟩ := creak_reach E
  have h1 : ∀ T, ∀ i < creak.dof, ∀ t ∈ Set.Icc 0 T,
      HasDerivWithinAt (fun s => Real.sin s) (Real.cos t) (Set.Icc 0 T) t :=
    fun T i _ t _ => (Real.hasDerivAt_sin t).hasDerivWithinAt
  have h2 : ∀ T, ∀ i < creak.dof, ∀ t ∈ Set.Icc 0 T,
      HasDerivWithinAt (fun s => Real.cos s) (-Real.sin t) (Set.Icc 0 T) t :=
    fun T i _ t _ => (Real.hasDerivAt_cos t).hasDerivWithinAt
  exact ⟨d, h, creak_definite, h1, h2,
    C156_motion h creak_definite (kp := fun _ => 1) (kv := fun _ => 1) (fun _ _ => one_pos)
      (fun _ _ => zero_le_one) noExt (o := { IntOpts.make with friction := false }) rfl (.inl rfl)
      (x := fun t _ => Real.sin t) (w := fun t _ => Real.cos t) (a := fun t _ => -Real.sin t) h1 h2 rfl rfl⟩

end SpatialDyn
