import Verif.Props.Tracking

/-! C156: what computed-torque control keeps exactly. -/

namespace SpatialDyn
open Finset Body OneStep

variable {E : Ext} {b : Body} {d : Bool}

/-- The errors under computed-torque control are those of oscillators, one for each joint. -/
theorem tracking_ode (h : Reach E b d) (hd : b.Definite) {kp kv : ℕ → ℝ} {fext : FExt} {o : IntOpts}
    (ho : o.friction = false) (hbase : o.aba = false ∨ b.T0.R.mulVec b.g = b.g) {T : ℝ} {x w a : ℝ → ℕ → ℝ}
    (hx : ∀ i < b.dof, ∀ t ∈ Set.Icc 0 T, HasDerivWithinAt (fun s => x s i) (w t i) (Set.Icc 0 T) t)
    (hw : ∀ i < b.dof, ∀ t ∈ Set.Icc 0 T, HasDerivWithinAt (fun s => w s i) (a t i) (Set.Icc 0 T) t)
    {tau : ℝ → ℕ → ℝ} {q dq : ℝ → List ℝ} (hM : b.MovesWith E tau fext o T q dq)
    (htau : ∀ t ∈ Set.Icc 0 T, ∀ b1 B, b.setQ (q t) = .ok b1 → b1.setDq (dq t) = .ok B → ∀ k < b.dof,
      tau t k = (B.inverseDynamics (fun j => a t j - kp j * ((q t).getD j 0 - x t j) -
        kv j * ((dq t).getD j 0 - w t j)) fext ⟨o.gravity, o.cc, false, o.eps⟩).1 k) {i : ℕ} (hi : i < b.dof)
    {s : ℝ} (hs : s ∈ Set.Icc 0 T) :
    HasDerivWithinAt (fun t => (q t).getD i 0 - x t i) ((dq s).getD i 0 - w s i) (Set.Icc 0 T) s ∧
    HasDerivWithinAt (fun t => (dq t).getD i 0 - w t i)
      (-kp i * ((q s).getD i 0 - x s i) - kv i * ((dq s).getD i 0 - w s i)) (Set.Icc 0 T) s := by
  have hm := hd.massive h.inv.tree
  obtain ⟨b1, B, e1, e2, e3⟩ := hM s hs
  refine ⟨(e3 i hi).1.sub (hx i hi s hs), ((e3 i hi).2.sub (hw i hi s hs)).congr_deriv ?_⟩
  have f1 := field_of_set h hm cache0_clear (tau s) fext o e1 e2 ⟨i, hi⟩
  set acc : ℕ → ℝ := fun j => a s j - kp j * ((q s).getD j 0 - x s j) - kv j * ((dq s).getD j 0 - w s j) with hacc
  have f2 := (atState_of_set h e1 e2).torque h hd acc fext o ho hbase
  have f3 : b.field E cache0 (tau s) fext o = b.field E cache0
      (B.inverseDynamics acc fext ⟨o.gravity, o.cc, false, o.eps⟩).1 fext o := by
    rw [field_pad h hd (B.inverseDynamics _ _ _).1 fext o ho, field_pad h hd (tau s) fext o ho]
    congr 2
    funext j
    exact htau s hs b1 B e1 e2 j j.2
  rw [f3, f2] at f1
  simp only at f1
  rw [f1]
  simp only [hacc]
  ring

/-- C156: a joint that starts on its reference with the velocity of the reference stays on it, wherever the other
joints are. -/
theorem C156_stays (h : Reach E b d) (hd : b.Definite) {kp kv : ℕ → ℝ} {fext : FExt} {o : IntOpts}
    (ho : o.friction = false) (hbase : o.aba = false ∨ b.T0.R.mulVec b.g = b.g) {T : ℝ} {x w a : ℝ → ℕ → ℝ}
    (hx : ∀ i < b.dof, ∀ t ∈ Set.Icc 0 T, HasDerivWithinAt (fun s => x s i) (w t i) (Set.Icc 0 T) t)
    (hw : ∀ i < b.dof, ∀ t ∈ Set.Icc 0 T, HasDerivWithinAt (fun s => w s i) (a t i) (Set.Icc 0 T) t)
    {tau : ℝ → ℕ → ℝ} {q dq : ℝ → List ℝ} (hM : b.MovesWith E tau fext o T q dq)
    (htau : ∀ t ∈ Set.Icc 0 T, ∀ b1 B, b.setQ (q t) = .ok b1 → b1.setDq (dq t) = .ok B → ∀ k < b.dof,
      tau t k = (B.inverseDynamics (fun j => a t j - kp j * ((q t).getD j 0 - x t j) -
        kv j * ((dq t).getD j 0 - w t j)) fext ⟨o.gravity, o.cc, false, o.eps⟩).1 k) {i : ℕ} (hi : i < b.dof)
    (hp : 0 < kp i) (hv : 0 < kv i) (h0 : (q 0).getD i 0 = x 0 i) (h1 : (dq 0).getD i 0 = w 0 i)
    {t : ℝ} (ht : t ∈ Set.Icc 0 T) : (q t).getD i 0 = x t i ∧ (dq t).getD i 0 = w t i := by
  obtain ⟨C, lam, -, hC⟩ := C156_tracks hp hv
  have key := hC E b d h hd fext o ho hbase T x w a hx hw tau q dq hM htau hi t ht
  rw [h0, h1, sub_self, sub_self, zero_pow two_ne_zero, mul_zero, add_zero, mul_zero] at key
  have n1 := mul_nonneg hp.le (sq_nonneg ((q t).getD i 0 - x t i))
  have n2 := sq_nonneg ((dq t).getD i 0 - w t i)
  refine ⟨sub_eq_zero.1 (pow_eq_zero_iff two_ne_zero |>.1 ?_), sub_eq_zero.1 (pow_eq_zero_iff two_ne_zero |>.1 ?_)⟩
  · have : kp i * ((q t).getD i 0 - x t i) ^ 2 = 0 := by linarith
    exact (mul_eq_zero.1 this).resolve_left hp.ne'
  · linarith

/-- C156: without the correction of the velocity the error never dies out: gain times squared error of position plus
squared error of velocity stays as at the start. -/
theorem C156_undamped (h : Reach E b d) (hd : b.Definite) {kp kv : ℕ → ℝ} {fext : FExt} {o : IntOpts}
    (ho : o.friction = false) (hbase : o.aba = false ∨ b.T0.R.mulVec b.g = b.g) {T : ℝ} {x w a : ℝ → ℕ → ℝ}
    (hx : ∀ i < b.dof, ∀ t ∈ Set.Icc 0 T, HasDerivWithinAt (fun s => x s i) (w t i) (Set.Icc 0 T) t)
    (hw : ∀ i < b.dof, ∀ t ∈ Set.Icc 0 T, HasDerivWithinAt (fun s => w s i) (a t i) (Set.Icc 0 T) t)
    {tau : ℝ → ℕ → ℝ} {q dq : ℝ → List ℝ} (hM : b.MovesWith E tau fext o T q dq)
    (htau : ∀ t ∈ Set.Icc 0 T, ∀ b1 B, b.setQ (q t) = .ok b1 → b1.setDq (dq t) = .ok B → ∀ k < b.dof,
      tau t k = (B.inverseDynamics (fun j => a t j - kp j * ((q t).getD j 0 - x t j) -
        kv j * ((dq t).getD j 0 - w t j)) fext ⟨o.gravity, o.cc, false, o.eps⟩).1 k) {i : ℕ} (hi : i < b.dof)
    (hv : kv i = 0) {t : ℝ} (ht : t ∈ Set.Icc 0 T) :
    kp i * ((q t).getD i 0 - x t i) ^ 2 + ((dq t).getD i 0 - w t i) ^ 2 =
      kp i * ((q 0).getD i 0 - x 0 i) ^ 2 + ((dq 0).getD i 0 - w 0 i) ^ 2 := by
  have dV : ∀ s ∈ Set.Icc 0 T, HasDerivWithinAt (fun t => kp i * ((q t).getD i 0 - x t i) ^ 2 +
      ((dq t).getD i 0 - w t i) ^ 2) 0 (Set.Icc 0 T) s := fun s hs => by
    obtain ⟨g1, g2⟩ := tracking_ode h hd ho hbase hx hw hM htau hi hs
    refine (((g1.pow 2).const_mul (kp i)).add (g2.pow 2)).congr_deriv ?_
    rw [hv]
    push_cast
    ring
  have a1 := antitoneOn_of_hasDerivWithinAt_nonpos (convex_Icc _ _) (f' := fun _ => 0)
    (fun s hs => (dV s hs).continuousWithinAt)
    (fun s hs => (dV s (interior_subset hs)).mono interior_subset) (fun _ _ => le_rfl)
  have a2 := monotoneOn_of_hasDerivWithinAt_nonneg (convex_Icc _ _) (f' := fun _ => 0)
    (fun s hs => (dV s hs).continuousWithinAt)
    (fun s hs => (dV s (interior_subset hs)).mono interior_subset) (fun _ _ => le_rfl)
  have z : (0 : ℝ) ∈ Set.Icc 0 T := ⟨le_rfl, ht.1.trans ht.2⟩
  exact le_antisymm (a1 z ht ht.1) (a2 z ht ht.1)

/-- The hypotheses hold for a pendulum that starts on the sine, damped or not. -/
example (E : Ext) (k : ℝ) (hk : 0 ≤ k) : ∃ d, Reach E creak d ∧ creak.Definite ∧
    ∃ (tau : ℝ → ℕ → ℝ) (q dq : ℝ → List ℝ), (q 0).getD 0 0 = Real.sin 0 ∧ (dq 0).getD 0 0 = Real.cos 0 ∧
      (∀ T, creak.MovesWith E tau noExt { IntOpts.make with friction := false } T q dq) ∧
      ∀ t, ∀ b1 B, creak.setQ (q t) = .ok b1 → b1.setDq (dq t) = .ok B → ∀ j < creak.dof,
        tau t j = (B.inverseDynamics (fun j => -Real.sin t - 1 * ((q t).getD j 0 - Real.sin t) -
          k * ((dq t).getD j 0 - Real.cos t)) noExt ⟨true, true, false, IntOpts.make.eps⟩).1 j := by
  obtain ⟨d, h⟩ := creak_reach E
  obtain ⟨tau, q, dq, g1, g2, g3, g4⟩ := C156_motion h creak_definite (kp := fun _ => 1) (kv := fun _ => k)
    (fun _ _ => one_pos) (fun _ _ => hk) noExt (o := { IntOpts.make with friction := false }) rfl (.inl rfl)
    (x := fun t _ => Real.sin t) (w := fun t _ => Real.cos t) (a := fun t _ => -Real.sin t)
    (fun T i _ t _ => (Real.hasDerivAt_sin t).hasDerivWithinAt)
    (fun T i _ t _ => (Real.hasDerivAt_cos t).hasDerivWithinAt) (q0 := [0]) (dq0 := [1]) rfl rfl
  exact ⟨d, h, creak_definite, tau, q, dq, by rw [g1]; simp, by rw [g2]; simp, g3, g4⟩

end SpatialDyn
