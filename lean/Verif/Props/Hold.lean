import Verif.Spec.Hold
import Verif.Lemmas.Hold
import Verif.Props.Nearby
import Verif.Props.ComputedTorque

/-!
# C146: torques that vary with time, held over each call of `Integrate`
-/

namespace SpatialDyn
open Finset Body OneStep
open scoped ContDiff

variable {E : Ext} {b : Body} {d : Bool}

namespace Body

/-- The accelerations depend on the torques of the joints only. -/
theorem field_pad (h : Reach E b d) (hd : b.Definite) (tau : ℕ → ℝ) (fext : FExt) (o : IntOpts)
    (ho : o.friction = false) : b.field E cache0 tau fext o =
      b.field E cache0 (padFin fun i : Fin b.dof => tau i) fext o := by
  funext y
  rw [field_val h hd cache0_clear _ _ _ ho, field_val h hd cache0_clear _ _ _ ho]
  have e : vec b.dof tau = vec b.dof (padFin fun i : Fin b.dof => tau i) := by
    funext i
    simp [vec, padFin]
  unfold accAt
  rw [e]

theorem field_inputs (h : Reach E b d) (hd : b.Definite) (fext : FExt) (o : IntOpts)
    (ho : o.friction = false) : ContDiff ℝ ∞ fun p : (Fin b.dof → ℝ) × State b.dof =>
      b.field E cache0 (padFin p.1) fext o p.2 := by
  rw [show (fun p : (Fin b.dof → ℝ) × State b.dof => b.field E cache0 (padFin p.1) fext o p.2) = _ from
    funext fun p => field_val h hd cache0_clear _ fext o ho p.2]
  refine (contDiff_snd.comp contDiff_snd).prodMk ?_
  generalize (if o.aba then b.T0.R.mulVec b.g else b.g) = g
  have hq : ∀ i < b.dof, Sm fun p : (Fin b.dof → ℝ) × State b.dof => padFin p.2.1 i :=
    fun i _ => padFin_smooth (contDiff_fst.comp contDiff_snd) i
  have hw : ∀ i < b.dof, Sm fun p : (Fin b.dof → ℝ) × State b.dof => padFin p.2.2 i :=
    fun i _ => padFin_smooth (contDiff_snd.comp contDiff_snd) i
  have hk : Reach E (b.setG g) _ := h.step (.setG _) trivial rfl
  refine contDiff_pi.2 fun i => Sm.inv_mulVec (fun k l => ?_) (fun k => ?_) (fun y => ?_) i
  · exact massSpec_smooth h.inv.tree hq k l
  · exact (padFin_smooth contDiff_fst k).sub (idSpec_smooth (b := b.setG g) hk.inv.tree hq hw
      (fun _ _ => contDiff_const) fext o.cc o.gravity k)
  · exact sysAt_det h hd y.2

/-- The state after calls with torques of their own. -/
theorem drive_from (h : Reach E b d) (hm : b.Massive) (u : ℕ → ℕ → ℝ)
    (dt : ℝ) (fext : FExt) (o : IntOpts) (ho : o.jointLimits = false) {s : State b.dof} {B : Body}
    (hB : AtState E b s B) : ∃ z : ℕ → State b.dof, z 0 = s ∧
      (∀ n, z (n + 1) = scheme o.method (b.field E cache0 (u n) fext o) id dt (z n)) ∧
      ∀ n, ∃ B', drive E u dt fext o n B = .ok B' ∧ AtState E b (z n) B' := by
  have e : b.codeFilter o.jointLimits = id := by
    funext y
    unfold codeFilter
    simp [ho]
  refine ⟨fun n => Nat.rec s (fun n y => scheme o.method (b.field E cache0 (u n) fext o) id dt y) n, rfl,
    fun _ => rfl, fun n => ?_⟩
  induction n with
  | zero => exact ⟨B, rfl, hB⟩
  | succ n ih =>
    obtain ⟨b1, h1, h2⟩ := ih
    obtain ⟨b2, h3, h4⟩ := h2.integrate h.inv hm.symI (hm.posMass h.inv.tree) cache0_clear (u n) dt fext o
    refine ⟨b2, by simp [drive, h1, h3], ?_⟩
    rw [e] at h4
    exact h4

theorem pad_near {n : ℕ} {u v : ℕ → ℝ} {η : ℝ} (hη : 0 ≤ η) (h : ∀ i < n, |u i - v i| ≤ η) :
    ‖(fun i : Fin n => u i) - fun i : Fin n => v i‖ ≤ η :=
  (pi_norm_le_iff_of_nonneg hη).2 fun i => h i i.2

/-- One step with torques that are off by `η`. -/
theorem torque_bound (h : Reach E b d) (hd : b.Definite) (tau : ℕ → ℝ) (fext : FExt)
    (o : IntOpts) (ho : o.friction = false) (R : ℝ) : ∃ L : ℝ, 0 ≤ L ∧ ∀ dt, 0 ≤ dt → dt ≤ 1 →
      ∀ (u : ℕ → ℝ) (η : ℝ), 0 ≤ η → η ≤ 1 → (∀ i < b.dof, |u i - tau i| ≤ η) → ∀ y : State b.dof, ‖y‖ ≤ R →
      ‖scheme o.method (b.field E cache0 u fext o) id dt y -
        scheme o.method (b.field E cache0 tau fext o) id dt y‖ ≤ dt * (L * η) := by
  obtain ⟨Φ, h1, -, h3⟩ := scheme_inputs (F := fun w => b.field E cache0 (padFin w) fext o)
    ((field_inputs h hd fext o ho).of_le (by simp)) (fun _ _ => rfl) o.method
  obtain ⟨L, hL, hlip⟩ := lip_all h1 (max (‖fun i : Fin b.dof => tau i‖ + 1) R)
  refine ⟨L, hL, fun dt e1 e2 u η hη hη1 hu y hy => ?_⟩
  rw [field_pad h hd u fext o ho, field_pad h hd tau fext o ho, h3, h3, add_sub_add_left_eq_sub,
    ← smul_sub, norm_smul, Real.norm_eq_abs, abs_of_nonneg e1]
  refine mul_le_mul_of_nonneg_left ?_ e1
  have hn := pad_near hη hu
  have hn' : ‖fun i : Fin b.dof => u i‖ ≤ ‖fun i : Fin b.dof => tau i‖ + 1 := by
    have := norm_add_le ((fun i : Fin b.dof => u i) - fun i : Fin b.dof => tau i)
      (fun i : Fin b.dof => tau i)
    rw [sub_add_cancel] at this
    linarith
  have := hlip dt ⟨e1, e2⟩ dt ⟨e1, e2⟩ (fun i : Fin b.dof => u i, y) (fun i : Fin b.dof => tau i, y)
    (by rw [Prod.norm_def]; exact max_le_max hn' hy)
    (by rw [Prod.norm_def]; exact max_le_max (by simp) hy)
  have e : ‖((fun i : Fin b.dof => u i, y) : (Fin b.dof → ℝ) × State b.dof) - (fun i : Fin b.dof => tau i, y)‖ =
      ‖(fun i : Fin b.dof => u i) - fun i : Fin b.dof => tau i‖ := by
    rw [Prod.norm_def, Prod.fst_sub, Prod.snd_sub, sub_self, norm_zero, max_eq_left (norm_nonneg _)]
  rw [e, sub_self, abs_zero, zero_add] at this
  exact this.trans (mul_le_mul_of_nonneg_left hn hL)

theorem movesWith_solves (h : Reach E b d) (hm : b.Massive) {tau : ℝ → ℕ → ℝ}
    {fext : FExt} {o : IntOpts} {T : ℝ} {q dq : ℝ → List ℝ} (hM : b.MovesWith E tau fext o T q dq) :
    ∀ t ∈ Set.Icc 0 T, HasDerivWithinAt (stateOf b q dq)
      (b.field E cache0 (tau t) fext o (stateOf b q dq t)) (Set.Icc 0 T) t := by
  intro t ht
  obtain ⟨b1, B, h1, h2, h3⟩ := hM t ht
  refine (hasDerivWithinAt_pi.2 fun i : Fin b.dof => (h3 i i.2).1).prodMk
    (hasDerivWithinAt_pi.2 fun i : Fin b.dof => ?_)
  have := (h3 i i.2).2
  rw [field_of_set h hm cache0_clear (tau t) fext o h1 h2 i] at this
  exact this

end Body

/-- C145: the same with torques within `η` of those of the motion in every call. -/
theorem C145_torques (h : Reach E b d) (hd : b.Definite) (tau : ℕ → ℝ) (fext : FExt) (o : IntOpts)
    (ho : o.friction = false) (hl : o.jointLimits = false) {T : ℝ}
    {q dq : ℝ → List ℝ} (hM : b.Moves E tau fext o T q dq) :
    ∃ C h0 : ℝ, 0 < h0 ∧ ∀ dt, 0 < dt → dt ≤ h0 → ∀ e η, 0 ≤ e → 0 ≤ η → e + η ≤ h0 →
      ∀ (q0 dq0 : List ℝ) (b1 B : Body), b.setQ q0 = .ok b1 → b1.setDq dq0 = .ok B →
      (∀ i < b.dof, |q0.getD i 0 - (q 0).getD i 0| ≤ e ∧ |dq0.getD i 0 - (dq 0).getD i 0| ≤ e) →
      ∀ u : ℕ → ℕ → ℝ, (∀ k, ∀ i < b.dof, |u k i - tau i| ≤ η) →
      ∀ k : ℕ, k * dt ≤ T → ∃ B', drive E u dt fext o k B = .ok B' ∧ ∀ i < b.dof,
        |B'.q.getD i 0 - (q (k * dt)).getD i 0| ≤ C * (dt ^ o.method.order + e + η) ∧
        |B'.dq.getD i 0 - (dq (k * dt)).getD i 0| ≤ C * (dt ^ o.method.order + e + η) := by
  have hm := hd.massive h.inv.tree
  obtain ⟨-, hS⟩ := (moves_iff h hm cache0_clear tau fext o).1 hM
  obtain ⟨C, R, h0, hC, hpos, hle, hn⟩ := scheme_near (field_smooth h hd cache0_clear tau fext o ho)
    (fun _ => rfl) hS o.method
  obtain ⟨L, hL, hb⟩ := torque_bound h hd tau fext o ho R
  refine ⟨C * (L + 1), min h0 (h0 / (L + 1)), lt_min hpos (by positivity),
    fun dt h1 h2 e η he hη hs q0 dq0 b1 B e1 e2 hnear u hu k hk => ?_⟩
  simp only [le_min_iff] at h2 hs
  obtain ⟨z, hz0, hz, hB⟩ := drive_from h hm u dt fext o hl (atState_of_set h e1 e2)
  obtain ⟨B', e3, e4⟩ := hB k
  refine ⟨B', e3, fun i hi => e4.near (s := stateOf b q dq (k * dt)) ?_ hi⟩
  have ed : dt * (L * η) / dt = L * η := by field_simp
  have hs2 := (le_div_iff₀ (by positivity)).1 hs.2
  have hLe := mul_nonneg hL he
  have g := hn dt h1 h2.1 e (dt * (L * η)) he (by positivity) (by rw [ed]; nlinarith) z 0 le_rfl (by
      rw [hz0]
      exact (cut_near (y := (fun i => q0.getD i 0, fun i => dq0.getD i 0)) he).2 fun i => hnear i i.2)
    (fun n _ hR => by
      rw [hz]
      exact hb dt h1.le (h2.1.trans hle) (u n) η hη (by linarith [hs.1]) (hu n) _ hR) k (by rwa [zero_add])
  rw [zero_add, ed, order_eq] at g
  refine g.trans ?_
  rw [mul_assoc]
  refine mul_le_mul_of_nonneg_left ?_ hC
  have : 0 ≤ dt ^ o.method.order := by positivity
  have := mul_nonneg hL this
  nlinarith

/-- C146: calls of `Integrate`, each with torques within `η` of the torques of the motion at the start of
the call, from a state within `e` of the start of the motion, stay within `C (dt + e + η)` of the
motion, with every method. -/
theorem C146_hold (h : Reach E b d) (hd : b.Definite) {tau : ℝ → ℕ → ℝ} {fext : FExt} {o : IntOpts}
    (ho : o.friction = false) (hl : o.jointLimits = false) {T : ℝ} (hs : Steady b.dof T tau)
    {q dq : ℝ → List ℝ} (hM : b.MovesWith E tau fext o T q dq) :
    ∃ C h0 : ℝ, 0 < h0 ∧ ∀ dt, 0 < dt → dt ≤ h0 → ∀ e η, 0 ≤ e → 0 ≤ η → e + η ≤ h0 →
      ∀ (q0 dq0 : List ℝ) (b1 B : Body), b.setQ q0 = .ok b1 → b1.setDq dq0 = .ok B →
      (∀ i < b.dof, |q0.getD i 0 - (q 0).getD i 0| ≤ e ∧ |dq0.getD i 0 - (dq 0).getD i 0| ≤ e) →
      ∀ u : ℕ → ℕ → ℝ, (∀ k : ℕ, (k + 1) * dt ≤ T → ∀ i < b.dof, |u k i - tau (k * dt) i| ≤ η) →
      ∀ k : ℕ, k * dt ≤ T → ∃ B', drive E u dt fext o k B = .ok B' ∧ ∀ i < b.dof,
        |B'.q.getD i 0 - (q (k * dt)).getD i 0| ≤ C * (dt + e + η) ∧
        |B'.dq.getD i 0 - (dq (k * dt)).getD i 0| ≤ C * (dt + e + η) := by
  have hm := hd.massive h.inv.tree
  obtain ⟨Φ, p1, p2, p3⟩ := scheme_inputs (F := fun w => b.field E cache0 (padFin w) fext o)
    ((field_inputs h hd fext o ho).of_le (by simp)) (fun _ _ => rfl) o.method
  have hS := movesWith_solves h hm hM
  obtain ⟨L, hL⟩ := hs
  obtain ⟨C, h0, hC, hpos, hle, hn⟩ := hold_near p1 (T := T) (τ := fun t => fun i : Fin b.dof => tau t i)
    (Y := stateOf b q dq)
    ⟨|L|, fun s hs t ht => pad_near (by positivity) fun i hi => (hL s hs t ht i hi).trans
      (mul_le_mul_of_nonneg_right (le_abs_self _) (abs_nonneg _))⟩
    (fun t ht => by
      rw [p2, ← field_pad h hd (tau t) fext o ho]
      exact hS t ht)
  refine ⟨C, h0, hpos, fun dt h1 h2 e η he hη hs q0 dq0 b1 B e1 e2 hnear u hu k hk => ?_⟩
  obtain ⟨z, hz0, hz, hB⟩ := drive_from h hm u dt fext o hl (atState_of_set h e1 e2)
  obtain ⟨B', e3, e4⟩ := hB k
  refine ⟨B', e3, fun i hi => e4.near (s := stateOf b q dq (k * dt)) ?_ hi⟩
  refine hn dt h1 h2 e η he hη hs z (fun k => fun i : Fin b.dof => u k i) ?_
    (fun n hn => pad_near hη (hu n hn)) (fun n _ => ?_) k hk
  · rw [hz0]
    exact (cut_near (y := (fun i => q0.getD i 0, fun i => dq0.getD i 0)) he).2 fun i => hnear i i.2
  · rw [hz, field_pad h hd (u n) fext o ho, p3]

/-! ## Torques of `InverseDynamics` along a reference -/

theorem joints_getD {n : ℕ} (f : ℕ → ℝ) {i : ℕ} (hi : i < n) : ((List.range n).map f).getD i 0 = f i := by
  simp [List.getD_eq_getElem?_getD, hi]

/-- The torques along a reference, by the equations of motion. -/
noncomputable def Body.along (b : Body) (x v a : ℝ → ℕ → ℝ) (fext : FExt) (cc grav : Bool) (t : ℝ) (i : ℕ) : ℝ :=
  (b.sysAt (fun i => ((List.range b.dof).map (x t)).getD i 0)
    (fun i => ((List.range b.dof).map (v t)).getD i 0)).idSpec (a t) fext cc grav i

theorem Body.along_id (h : Reach E b d) (hd : b.Definite) {x v a : ℝ → ℕ → ℝ} (fext : FExt) (o : IntOpts) {t : ℝ}
    {c1 c2 : Body} (e1 : b.setQ ((List.range b.dof).map (x t)) = .ok c1)
    (e2 : c1.setDq ((List.range b.dof).map (v t)) = .ok c2) {i : ℕ} (hi : i < b.dof) :
    (c2.inverseDynamics (a t) fext ⟨o.gravity, o.cc, false, o.eps⟩).1 i =
      b.along x v a fext o.cc o.gravity t i := by
  obtain ⟨hs, hn, ⟨d', hr⟩, hf, -⟩ := set_facts h e1 e2
  have hm := (hs.definite hd).massive hr.inv.tree
  rw [inverseDynamics_val hr.inv hm.symI (hm.posMass hr.inv.tree) _ _ _ i (by rw [hn]; exact hi), hf]
  unfold qFun dqFun Body.along Sys.addFriction
  rw [setDq_q e2, setQ_q e1, setDq_dq e2]
  rfl

theorem smooth_steady {n : ℕ} {f : ℝ → ℕ → ℝ} (hf : ∀ i < n, ContDiff ℝ ∞ fun t => f t i) (T : ℝ) :
    Steady n T f := by
  have one : ∀ i < n, ∃ L : ℝ, ∀ s ∈ Set.Icc 0 T, ∀ t ∈ Set.Icc 0 T, |f s i - f t i| ≤ L * |s - t| := by
    intro i hi
    have h1 : ContDiff ℝ 1 fun t => f t i := (hf i hi).of_le (by simp)
    obtain ⟨L, hL⟩ := (isCompact_Icc (a := (0 : ℝ)) (b := T)).exists_bound_of_continuousOn
      (h1.continuous_deriv le_rfl).continuousOn
    exact ⟨L, fun s hs t ht => (convex_Icc 0 T).norm_image_sub_le_of_norm_deriv_le
      (fun x _ => (h1.differentiable (by norm_num)).differentiableAt) hL ht hs⟩
  induction n with
  | zero => exact ⟨0, fun _ _ _ _ i hi => absurd hi (by omega)⟩
  | succ n ih =>
    obtain ⟨L, hL⟩ := ih (fun i hi => hf i (by omega)) (fun i hi => one i (by omega))
    obtain ⟨L', hL'⟩ := one n (by omega)
    refine ⟨max L L', fun s hs t ht i hi => ?_⟩
    rcases Nat.lt_succ_iff_lt_or_eq.1 hi with hi | rfl
    · exact (hL s hs t ht i hi).trans (mul_le_mul_of_nonneg_right (le_max_left _ _) (abs_nonneg _))
    · exact (hL' s hs t ht).trans (mul_le_mul_of_nonneg_right (le_max_right _ _) (abs_nonneg _))

theorem Body.along_steady (h : Reach E b d) {x v a : ℝ → ℕ → ℝ} (fext : FExt) (cc grav : Bool)
    (hx : ∀ i < b.dof, ContDiff ℝ ∞ fun t => x t i) (hv : ∀ i < b.dof, ContDiff ℝ ∞ fun t => v t i)
    (ha : ∀ i < b.dof, ContDiff ℝ ∞ fun t => a t i) (T : ℝ) :
    Steady b.dof T (b.along x v a fext cc grav) := by
  refine smooth_steady (fun i _ => ?_) T
  refine idSpec_smooth h.inv.tree (fun j hj => ?_) (fun j hj => ?_) ha fext cc grav i
  · have e : (fun t => ((List.range b.dof).map (x t)).getD j 0) = fun t => x t j :=
      funext fun t => joints_getD _ hj
    exact e ▸ hx j hj
  · have e : (fun t => ((List.range b.dof).map (v t)).getD j 0) = fun t => v t j :=
      funext fun t => joints_getD _ hj
    exact e ▸ hv j hj

theorem Body.along_moves (h : Reach E b d) (hd : b.Definite) (fext : FExt) (o : IntOpts)
    (ho : o.friction = false) (hbase : o.aba = false ∨ b.T0.R.mulVec b.g = b.g) {x v a : ℝ → ℕ → ℝ}
    (hv : ∀ i < b.dof, ∀ t, HasDerivAt (fun t => x t i) (v t i) t)
    (ha : ∀ i < b.dof, ∀ t, HasDerivAt (fun t => v t i) (a t i) t) (T : ℝ) :
    b.MovesWith E (b.along x v a fext o.cc o.gravity) fext o T (fun t => (List.range b.dof).map (x t))
      (fun t => (List.range b.dof).map (v t)) := by
  have hm := hd.massive h.inv.tree
  intro t ht
  obtain ⟨c1, e1, n1⟩ := setQ_total (b := b) (q := (List.range b.dof).map (x t)) (by simp)
  obtain ⟨c2, e2, n2⟩ := setDq_total (b := c1) (q := (List.range b.dof).map (v t)) (by simp [n1])
  refine ⟨c1, c2, e1, e2, fun i hi => ⟨?_, ?_⟩⟩
  · simp only [joints_getD _ hi]
    exact (hv i hi t).hasDerivWithinAt
  · simp only [joints_getD _ hi]
    have f1 := field_of_set h hm cache0_clear (b.along x v a fext o.cc o.gravity t) fext o e1 e2 ⟨i, hi⟩
    have f2 := (atState_of_set h e1 e2).torque h hd (a t) fext o ho hbase
    have f3 : b.field E cache0 (b.along x v a fext o.cc o.gravity t) fext o = b.field E cache0
        (c2.inverseDynamics (a t) fext ⟨o.gravity, o.cc, false, o.eps⟩).1 fext o := by
      rw [field_pad h hd (c2.inverseDynamics _ _ _).1 fext o ho,
        field_pad h hd (b.along x v a fext o.cc o.gravity t) fext o ho]
      congr 2
      funext j
      exact (along_id h hd fext o e1 e2 j.2).symm
    rw [f3, f2] at f1
    simp only at f1
    rw [f1]
    exact (ha i hi t).hasDerivWithinAt

/-- C146: every smooth reference is the motion under the torques that `InverseDynamics` answers along
it.  (With `aba` the base must not turn the gravity vector, see `C30_aba_base`.) -/
theorem C146_reference (h : Reach E b d) (hd : b.Definite) (fext : FExt) (o : IntOpts)
    (ho : o.friction = false) (hbase : o.aba = false ∨ b.T0.R.mulVec b.g = b.g) {x : ℝ → ℕ → ℝ}
    (hx : ∀ i < b.dof, ContDiff ℝ ∞ fun t => x t i) (T : ℝ) :
    ∃ tau : ℝ → ℕ → ℝ, Steady b.dof T tau ∧
      b.MovesWith E tau fext o T (fun t => (List.range b.dof).map (x t))
        (fun t => (List.range b.dof).map fun i => deriv (fun s => x s i) t) ∧
      ∀ t c1 c2, b.setQ ((List.range b.dof).map (x t)) = .ok c1 →
        c1.setDq ((List.range b.dof).map fun i => deriv (fun s => x s i) t) = .ok c2 → ∀ i < b.dof,
        (c2.inverseDynamics (fun i => deriv (deriv fun s => x s i) t) fext
          ⟨o.gravity, o.cc, false, o.eps⟩).1 i = tau t i := by
  have sv : ∀ i < b.dof, ContDiff ℝ ∞ (deriv fun s => x s i) := fun i hi =>
    (contDiff_infty_iff_deriv.1 (hx i hi)).2
  have sa : ∀ i < b.dof, ContDiff ℝ ∞ (deriv (deriv fun s => x s i)) := fun i hi =>
    (contDiff_infty_iff_deriv.1 (sv i hi)).2
  exact ⟨b.along x (fun t i => deriv (fun s => x s i) t) (fun t i => deriv (deriv fun s => x s i) t)
      fext o.cc o.gravity, along_steady h fext o.cc o.gravity hx sv sa T,
    along_moves h hd fext o ho hbase
      (fun i hi t => ((hx i hi).differentiable (by simp)).differentiableAt.hasDerivAt)
      (fun i hi t => ((sv i hi).differentiable (by simp)).differentiableAt.hasDerivAt) T,
    fun t c1 c2 e1 e2 i hi => along_id (x := x) (v := fun t i => deriv (fun s => x s i) t)
      (a := fun t i => deriv (deriv fun s => x s i) t) h hd fext o e1 e2 hi⟩

/-- C146: feedforward: a program that gives every call of `Integrate` the torques that `InverseDynamics`
answers for the reference at the start of the call, up to `η`, stays within `C (dt + e + η)` of the
reference from every start within `e`. -/
theorem C146_feedforward (h : Reach E b d) (hd : b.Definite) (fext : FExt) (o : IntOpts)
    (ho : o.friction = false) (hl : o.jointLimits = false)
    (hbase : o.aba = false ∨ b.T0.R.mulVec b.g = b.g) {x : ℝ → ℕ → ℝ}
    (hx : ∀ i < b.dof, ContDiff ℝ ∞ fun t => x t i) (T : ℝ) :
    ∃ C h0 : ℝ, 0 < h0 ∧ ∀ dt, 0 < dt → dt ≤ h0 → ∀ e η, 0 ≤ e → 0 ≤ η → e + η ≤ h0 →
      ∀ (q0 dq0 : List ℝ) (b1 B : Body), b.setQ q0 = .ok b1 → b1.setDq dq0 = .ok B →
      (∀ i < b.dof, |q0.getD i 0 - x 0 i| ≤ e ∧ |dq0.getD i 0 - deriv (fun s => x s i) 0| ≤ e) →
      ∀ u : ℕ → ℕ → ℝ, (∀ k : ℕ, (k + 1) * dt ≤ T → ∃ c1 c2,
        b.setQ ((List.range b.dof).map (x (k * dt))) = .ok c1 ∧
        c1.setDq ((List.range b.dof).map fun i => deriv (fun s => x s i) (k * dt)) = .ok c2 ∧
        ∀ i < b.dof, |u k i - (c2.inverseDynamics (fun i => deriv (deriv fun s => x s i) (k * dt)) fext
          ⟨o.gravity, o.cc, false, o.eps⟩).1 i| ≤ η) →
      ∀ k : ℕ, k * dt ≤ T → ∃ B', drive E u dt fext o k B = .ok B' ∧ ∀ i < b.dof,
        |B'.q.getD i 0 - x (k * dt) i| ≤ C * (dt + e + η) ∧
        |B'.dq.getD i 0 - deriv (fun s => x s i) (k * dt)| ≤ C * (dt + e + η) := by
  obtain ⟨tau, hs, hM, hi⟩ := C146_reference h hd fext o ho hbase hx T
  obtain ⟨C, h0, hpos, hC⟩ := C146_hold h hd ho hl hs hM
  refine ⟨C, h0, hpos, fun dt h1 h2 e η he hη hsm q0 dq0 b1 B e1 e2 hn u hu k hk => ?_⟩
  obtain ⟨B', f1, f2⟩ := hC dt h1 h2 e η he hη hsm q0 dq0 b1 B e1 e2
    (fun i hi => by simp only [joints_getD _ hi]; exact hn i hi) u (fun k hk i hj => by
      obtain ⟨c1, c2, g1, g2, g3⟩ := hu k hk
      rw [← hi _ c1 c2 g1 g2 i hj]
      exact g3 i hj) k hk
  refine ⟨B', f1, fun i hi => ?_⟩
  have := f2 i hi
  simp only [joints_getD _ hi] at this
  exact this

/-- The hypotheses are met by the loaded demo robot and a reference that swings. -/
example (E : Ext) : ∃ d, ∃ o : IntOpts, ∃ x : ℝ → ℕ → ℝ, ∃ tau : ℝ → ℕ → ℝ, Reach E demoLoaded d ∧
    demoLoaded.Definite ∧ o.friction = false ∧ o.jointLimits = false ∧ o.aba = false ∧ o.gravity = true ∧
    o.cc = true ∧ (∀ i < demoLoaded.dof, ContDiff ℝ ∞ fun t => x t i) ∧ (∀ i, x 0 i = 0) ∧
    (∀ i, deriv (fun s => x s i) 0 = i + 1) ∧ Steady demoLoaded.dof 1 tau ∧
    demoLoaded.MovesWith E tau (fun _ => none) o 1 (fun t => (List.range demoLoaded.dof).map (x t))
      (fun t => (List.range demoLoaded.dof).map fun i => deriv (fun s => x s i) t) := by
  obtain ⟨d, h⟩ := demoLoaded_reach E
  have hx : ∀ i < demoLoaded.dof, ContDiff ℝ ∞ fun t => (fun (t : ℝ) (i : ℕ) => Real.sin ((i + 1) * t)) t i :=
    fun i _ => Real.contDiff_sin.comp (contDiff_const.mul contDiff_id)
  obtain ⟨tau, h1, h2, -⟩ := C146_reference (E := E) h demoLoaded_definite (fun _ => none)
    ⟨true, true, false, false, .rk4, false, 0⟩ rfl (.inl rfl) hx 1
  refine ⟨d, _, _, tau, h, demoLoaded_definite, rfl, rfl, rfl, rfl, rfl, hx, fun i => by simp, fun i => ?_, h1, h2⟩
  have := ((hasDerivAt_id (0 : ℝ)).const_mul ((i : ℝ) + 1)).sin
  simp only [id, mul_zero, Real.cos_zero, one_mul, mul_one] at this
  exact this.deriv

end SpatialDyn
