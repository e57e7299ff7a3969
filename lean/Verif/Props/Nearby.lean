import Verif.Props.RoundDynamics
import Verif.Props.Rescale

/-!
# C145: simulations from nearby states, and simulations run backwards
-/

namespace SpatialDyn
open Finset Body OneStep

variable {E : Ext} {b : Body} {d : Bool}

namespace Body

/-- Turning the rates around. -/
theorem AtState.turned {y : State b.dof} {b1 b2 : Body} (h : AtState E b y b1)
    (e : b1.setDq (b1.dq.map (- ·)) = .ok b2) : AtState E b (y.1, -y.2) b2 := by
  refine ⟨h.only.trans (setDq_stateOnly h.inv.tree.ldq e), (setDq_inv h.inv e).1, ?_, ?_⟩
  · rw [setDq_q e, h.q]
  · rw [setDq_dq e, h.dq, List.map_ofFn]
    rfl

/-- What `AtState` says of the numbers read. -/
theorem AtState.near {y s : State b.dof} {b1 : Body} (h : AtState E b y b1) {e : ℝ} (hn : ‖y - s‖ ≤ e)
    {i : ℕ} (hi : i < b.dof) :
    |b1.q.getD i 0 - s.1 ⟨i, hi⟩| ≤ e ∧ |b1.dq.getD i 0 - s.2 ⟨i, hi⟩| ≤ e := by
  rw [h.q, h.dq, getD_ofFn y.1 ⟨i, hi⟩, getD_ofFn y.2 ⟨i, hi⟩]
  exact ⟨(norm_le_pi_norm _ (⟨i, hi⟩ : Fin b.dof)).trans ((norm_fst_le _).trans hn),
    (norm_le_pi_norm _ (⟨i, hi⟩ : Fin b.dof)).trans ((norm_snd_le _).trans hn)⟩

/-- Repeated integration from a state near a motion. -/
theorem steps_near (h : Reach E b d) (hd : b.Definite) (tau : ℕ → ℝ) (fext : FExt)
    (o : IntOpts) (ho : o.friction = false) (hl : o.jointLimits = false) {T : ℝ} {Y : ℝ → State b.dof}
    (hY : Solves (b.field E cache0 tau fext o) T Y) :
    ∃ C h0 : ℝ, 0 ≤ C ∧ 0 < h0 ∧ h0 ≤ 1 ∧ ∀ dt, 0 < dt → dt ≤ h0 → ∀ e, 0 ≤ e → e ≤ h0 →
      ∀ (s : State b.dof) (B : Body) (t0 : ℝ), AtState E b s B → 0 ≤ t0 → ‖s - Y t0‖ ≤ e →
      ∀ k : ℕ, t0 + k * dt ≤ T → ∃ B' s', steps E tau dt fext o k B = .ok B' ∧ AtState E b s' B' ∧
        ‖s' - Y (t0 + k * dt)‖ ≤ C * (dt ^ o.method.order + e) := by
  have hm := hd.massive h.inv.tree
  obtain ⟨C, R, h0, hC, hpos, hle, hn⟩ := scheme_near (field_smooth h hd cache0_clear tau fext o ho)
    (fun _ => rfl) hY o.method
  refine ⟨C, h0, hC, hpos, hle, fun dt h1 h2 e he hs s B t0 hA ht0 hy k hk => ?_⟩
  obtain ⟨B', e1, e2⟩ := steps_from h hm cache0_clear tau dt fext o hl hA k
  refine ⟨B', _, e1, e2, ?_⟩
  have g := hn dt h1 h2 e 0 he le_rfl (by rwa [zero_div, add_zero])
    (fun k => (scheme o.method (b.field E cache0 tau fext o) id dt)^[k] s) t0 ht0 hy (fun k _ _ => by
      simp only [Function.iterate_succ_apply', sub_self, norm_zero, le_refl]) k hk
  rwa [zero_div, add_zero, order_eq] at g

theorem stateOf_turned (q dq : ℝ → List ℝ) (T t : ℝ) :
    stateOf b (fun t => q (T - t)) (fun t => (dq (T - t)).map (- ·)) t =
      ((stateOf b q dq (T - t)).1, -(stateOf b q dq (T - t)).2) := by
  unfold stateOf
  refine Prod.ext rfl (funext fun i => ?_)
  simp only [Pi.neg_apply, List.getD_eq_getElem?_getD, List.getElem?_map]
  cases (dq (T - t))[(i : ℕ)]? <;> simp

end Body

/-- C145: a simulation that starts within `e` of a motion stays within `C (dt^p + e)` of it. -/
theorem C145_start (h : Reach E b d) (hd : b.Definite) (tau : ℕ → ℝ) (fext : FExt) (o : IntOpts)
    (ho : o.friction = false) (hl : o.jointLimits = false) {T : ℝ}
    {q dq : ℝ → List ℝ} (hM : b.Moves E tau fext o T q dq) :
    ∃ C h0 : ℝ, 0 < h0 ∧ ∀ dt, 0 < dt → dt ≤ h0 → ∀ e, 0 ≤ e → e ≤ h0 →
      ∀ (q0 dq0 : List ℝ) (b1 B : Body), b.setQ q0 = .ok b1 → b1.setDq dq0 = .ok B →
      (∀ i < b.dof, |q0.getD i 0 - (q 0).getD i 0| ≤ e ∧ |dq0.getD i 0 - (dq 0).getD i 0| ≤ e) →
      ∀ k : ℕ, k * dt ≤ T → ∃ B', steps E tau dt fext o k B = .ok B' ∧ ∀ i < b.dof,
        |B'.q.getD i 0 - (q (k * dt)).getD i 0| ≤ C * (dt ^ o.method.order + e) ∧
        |B'.dq.getD i 0 - (dq (k * dt)).getD i 0| ≤ C * (dt ^ o.method.order + e) := by
  have hm := hd.massive h.inv.tree
  obtain ⟨-, hS⟩ := (moves_iff h hm cache0_clear tau fext o).1 hM
  obtain ⟨C, h0, hC, hpos, -, hb⟩ := steps_near h hd tau fext o ho hl hS
  refine ⟨C, h0, hpos, fun dt h1 h2 e he hs q0 dq0 b1 B e1 e2 hn k hk => ?_⟩
  obtain ⟨B', s', e3, e4, e5⟩ := hb dt h1 h2 e he hs _ B 0 (atState_of_set h e1 e2) le_rfl
    ((cut_near (y := (fun i => q0.getD i 0, fun i => dq0.getD i 0)) he).2 fun i => hn i i.2) k
    (by rwa [zero_add])
  rw [zero_add] at e5
  exact ⟨B', e3, fun i hi => e4.near e5 hi⟩

/-- C145: a simulation without friction can be run backwards: `k` steps, turning the rates around, and
`k` more steps come back to the start up to `C dt^p`, however many steps they are. -/
theorem C145_back (h : Reach E b d) (hd : b.Definite) (tau : ℕ → ℝ) (fext : FExt) (o : IntOpts)
    (ho : o.friction = false) (hl : o.jointLimits = false) {T : ℝ}
    {q dq : ℝ → List ℝ} (hM : b.Moves E tau fext o T q dq) (hq : q 0 = b.q) (hdq : dq 0 = b.dq) :
    ∃ C h0 : ℝ, 0 < h0 ∧ ∀ dt, 0 < dt → dt ≤ h0 → ∀ k : ℕ, k * dt ≤ T →
      ∃ b1 b2 b3, steps E tau dt fext o k b = .ok b1 ∧ b1.setDq (b1.dq.map (- ·)) = .ok b2 ∧
        steps E tau dt fext o k b2 = .ok b3 ∧ ∀ i < b.dof,
          |b3.q.getD i 0 - b.q.getD i 0| ≤ C * dt ^ o.method.order ∧
          |b3.dq.getD i 0 + b.dq.getD i 0| ≤ C * dt ^ o.method.order := by
  have hm := hd.massive h.inv.tree
  obtain ⟨-, hS⟩ := (moves_iff h hm cache0_clear tau fext o).1 hM
  obtain ⟨-, hS'⟩ := (moves_iff h hm cache0_clear tau fext o).1 (C107_reversible h hd ho hM)
  obtain ⟨C, h0, hC, hpos, hle, hb⟩ := steps_near h hd tau fext o ho hl hS
  obtain ⟨C', h0', hC', hpos', hle', hb'⟩ := steps_near h hd tau fext o ho hl hS'
  refine ⟨C' * (1 + C), min h0 (h0' / (C + 1)), lt_min hpos (by positivity), fun dt h1 h2 k hk => ?_⟩
  simp only [le_min_iff] at h2
  have hp : dt ^ o.method.order ≤ dt := by
    have : 1 ≤ o.method.order := by cases o.method <;> simp [Method.order]
    simpa using pow_le_pow_of_le_one h1.le (h2.1.trans hle) this
  have hp0 : 0 ≤ dt ^ o.method.order := by positivity
  have h3 : dt * (C + 1) ≤ h0' := (le_div_iff₀ (by positivity)).1 h2.2
  have e0 : stateOf b q dq 0 = b.state := by unfold stateOf Body.state; rw [hq, hdq]
  obtain ⟨b1, s1, f1, f2, f3⟩ := hb dt h1 h2.1 0 le_rfl hpos.le b.state b 0 (atState_self h.inv) le_rfl
    (by rw [e0, sub_self, norm_zero]) k (by rwa [zero_add])
  rw [zero_add, add_zero] at f3
  obtain ⟨b2, f4, -⟩ := setDq_total (b := b1) (q := b1.dq.map (- ·))
    (by rw [List.length_map, f2.inv.tree.ldq])
  have f5 := f2.turned f4
  have e1 : T - (T - k * dt) = k * dt := by ring
  obtain ⟨b3, s3, f6, f7, f8⟩ := hb' dt h1 (by nlinarith) (C * dt ^ o.method.order) (by positivity)
    (by nlinarith) _ b2 (T - k * dt) f5 (by linarith) (by
      rw [stateOf_turned, e1]
      rw [Prod.norm_def] at f3 ⊢
      simpa [← norm_neg (s1.2 - _), neg_sub, neg_add_eq_sub, ← sub_eq_add_neg] using f3) k (by linarith)
  refine ⟨b1, b2, b3, f1, f4, f6, fun i hi => ?_⟩
  rw [show T - k * dt + k * dt = T by ring, stateOf_turned, sub_self, e0] at f8
  have g := f7.near f8 hi
  rw [show C' * (dt ^ o.method.order + C * dt ^ o.method.order) = C' * (1 + C) * dt ^ o.method.order by ring] at g
  refine ⟨g.1, ?_⟩
  have := g.2
  simp only [Pi.neg_apply, sub_neg_eq_add] at this
  exact this

/-- C145: the same with rounded arithmetic, up to `C (dt^p + u / dt)`. -/
theorem C145_back_rounded (h : Reach E b d) (hd : b.Definite) (tau : ℕ → ℝ) (fext : FExt) (o : IntOpts)
    (ho : o.friction = false) {T : ℝ}
    {q dq : ℝ → List ℝ} (hM : b.Moves E tau fext o T q dq) (hq : q 0 = b.q) (hdq : dq 0 = b.dq) :
    ∃ C h0 : ℝ, 0 < h0 ∧ ∀ dt, 0 < dt → dt ≤ h0 → ∀ (F : Fl) (u l : ℝ), F.Within u l → u ≤ h0 * dt →
      ∀ k : ℕ, k * dt ≤ T → ∀ y y' : (ℕ → ℝ) × (ℕ → ℝ),
        y = (F.integrate b tau dt fext o)^[k] (b.qFun, b.dqFun) →
        y' = (F.integrate b tau dt fext o)^[k] (y.1, fun i => -y.2 i) → ∀ i < b.dof,
          |y'.1 i - b.q.getD i 0| ≤ C * (dt ^ o.method.order + u / dt) ∧
          |y'.2 i + b.dq.getD i 0| ≤ C * (dt ^ o.method.order + u / dt) := by
  have hm := hd.massive h.inv.tree
  obtain ⟨-, hS⟩ := (moves_iff h hm cache0_clear tau fext o).1 hM
  obtain ⟨-, hS'⟩ := (moves_iff h hm cache0_clear tau fext o).1 (C107_reversible h hd ho hM)
  obtain ⟨C, h0, hC, hpos, hle, hb⟩ := rounded_near h hd tau fext o ho hS
  obtain ⟨C', h0', hC', hpos', hle', hb'⟩ := rounded_near h hd tau fext o ho hS'
  refine ⟨C' * (1 + C), min h0 (h0' / (2 * (C + 1))), lt_min hpos (by positivity),
    fun dt h1 h2 F u l hF hu k hk y y' hy hy' i hi => ?_⟩
  have hu0 := hF.nonneg.1
  have hw0 : 0 ≤ u / dt := by positivity
  have hw := (div_le_iff₀ h1).2 hu
  simp only [le_min_iff] at h2 hw
  have hp : dt ^ o.method.order ≤ dt := by
    have : 1 ≤ o.method.order := by cases o.method <;> simp [Method.order]
    simpa using pow_le_pow_of_le_one h1.le (h2.1.trans hle) this
  have hp0 : 0 ≤ dt ^ o.method.order := by positivity
  have h3 : dt * (2 * (C + 1)) ≤ h0' := (le_div_iff₀ (by positivity)).1 h2.2
  have h4 : u / dt * (2 * (C + 1)) ≤ h0' := (le_div_iff₀ (by positivity)).1 hw.2
  have e0 : cut b.dof (b.qFun, b.dqFun) = stateOf b q dq 0 := by
    unfold cut stateOf qFun dqFun
    rw [hq, hdq]
  have f3 := hb dt h1 h2.1 F u l 0 hF le_rfl (by rw [zero_add]; exact hw.1) (b.qFun, b.dqFun) 0
    le_rfl (by rw [e0, sub_self, norm_zero]) k (by rwa [zero_add])
  rw [add_zero, zero_add, ← hy] at f3
  have e1 : T - (T - k * dt) = k * dt := by ring
  have f8 := hb' dt h1 (by nlinarith) F u l (C * (dt ^ o.method.order + u / dt)) hF (by positivity)
    (by nlinarith) (y.1, fun i => -y.2 i) (T - k * dt) (by linarith) (by
      rw [stateOf_turned, e1]
      rw [cut_near (by positivity)] at f3 ⊢
      refine fun i => ⟨(f3 i).1, ?_⟩
      have := (f3 i).2
      rw [← abs_neg] at this
      simpa [neg_sub, neg_add_eq_sub] using this) k (by linarith)
  rw [show T - k * dt + k * dt = T by ring, stateOf_turned, sub_self, ← e0, ← hy',
    show C' * (dt ^ o.method.order + C * (dt ^ o.method.order + u / dt) + u / dt) =
      C' * (1 + C) * (dt ^ o.method.order + u / dt) by ring] at f8
  have g := (cut_near (by positivity)).1 f8 ⟨i, hi⟩
  refine ⟨g.1, ?_⟩
  have := g.2
  simp only [Pi.neg_apply, sub_neg_eq_add] at this
  exact this

/-- The hypotheses are met by the loaded demo robot, which moves, and by a state near its start. -/
example (E : Ext) : ∃ d b1 B, Reach E demoLoaded d ∧ demoLoaded.Definite ∧
    (∃ q dq : ℝ → List ℝ, q 0 = demoLoaded.q ∧ dq 0 = demoLoaded.dq ∧ ∀ T, demoLoaded.Moves E (fun _ => 1)
      (fun _ => none) ⟨true, true, false, false, .heuns, false, 0⟩ T q dq) ∧
    demoLoaded.setQ (demoLoaded.q.map (· + 1 / 1000)) = .ok b1 ∧ b1.setDq demoLoaded.dq = .ok B ∧
    (∀ i < demoLoaded.dof, |(demoLoaded.q.map (· + 1 / 1000)).getD i 0 - demoLoaded.q.getD i 0| ≤ 1 / 1000) ∧
    (Fl.digits true (fun _ _ => 1) 5).Within ((1 + (1 / 2) ^ 5) ^ 6 - 1) 0 := by
  obtain ⟨d, h⟩ := demoLoaded_reach E
  have l1 := h.inv.tree.lq
  have l2 := h.inv.tree.ldq
  obtain ⟨b1, h1, e1⟩ := setQ_total (b := demoLoaded) (q := demoLoaded.q.map (· + 1 / 1000))
    (by rw [List.length_map, l1])
  obtain ⟨B, h2, e2⟩ := setDq_total (b := b1) (q := demoLoaded.dq) (by rw [e1, l2])
  refine ⟨d, b1, B, h, demoLoaded_definite, C78_exists h demoLoaded_definite demo_axesOK _ _ _ rfl rfl l1 l2,
    h1, h2, fun i hi => ?_, C144_digits true _ le_rfl⟩
  have hi : i < demoLoaded.q.length := l1.symm ▸ hi
  simp [List.getD_eq_getElem?_getD, hi]

end SpatialDyn
