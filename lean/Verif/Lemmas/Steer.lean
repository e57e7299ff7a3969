import Verif.Lemmas.TaskPlant
import Verif.Props.ClosedLoop

/-!
# Controllers that steer to a goal

A controller which, near a goal, answers torques that depend smoothly on the state: stability of the
linear part gives stability of the motions under its torques and of repeated calls.
-/

namespace SpatialDyn
open Set Body OneStep Matrix
open scoped ContDiff

variable {E : Ext} {b : Body} {d : Bool} {α : Type}

/-- Within `ρ` of `y0` the controller answers the torques `u`. -/
def Steers (E : Ext) (b : Body) (P : Body → Prop) (u : State b.dof → Fin b.dof → ℝ) (y0 : State b.dof)
    (ρ : ℝ) (ctl : Body → Out (Answer α)) : Prop :=
  ∀ y B, ‖y - y0‖ ≤ ρ → AtState E b y B → P B → ∃ r, ctl B = .ok r ∧ vec b.dof r.1.1 = u y

/-- Within `ρ` of `y0` the controller moves the body with the torques `u` for a time `dt`. -/
def Shifts (E : Ext) (b : Body) (P : Body → Prop) (u : State b.dof → Fin b.dof → ℝ) (y0 : State b.dof)
    (ρ dt : ℝ) (ctl : Body → Out (Answer α)) : Prop :=
  ∀ y B, ‖y - y0‖ ≤ ρ → AtState E b y B → P B → ∃ r, ctl B = .ok r ∧ P r.2 ∧
    AtState E b (rk4 (fun z => b.plant true (u y, z)) id dt y) r.2

variable {P : Body → Prop} {u : State b.dof → Fin b.dof → ℝ} {goal : List ℝ} {ρ0 : ℝ}
  {A : State b.dof →L[ℝ] State b.dof} {ctl : Body → Out (Answer α)}

theorem Steers.stable (hS : Steers E b P u (vecOf b.dof goal, 0) ρ0 ctl) (hρ : 0 < ρ0)
    (h : Reach E b d) (hd : b.Definite)
    (hP : ∀ q dq b1 B, b.setQ q = .ok b1 → b1.setDq dq = .ok B → P B) {o : IntOpts}
    (hf : o.friction = false) (hg : o.gravity = true) (hbase : o.aba = false ∨ b.T0.R.mulVec b.g = b.g)
    (h0 : b.plant o.cc (u (vecOf b.dof goal, 0), (vecOf b.dof goal, 0)) = 0)
    (hF : HasFDerivAt (fun y => b.plant o.cc (u y, y)) A (vecOf b.dof goal, 0)) (L : Lyap A) :
    ∃ r > 0, ∃ K, ∃ w > 0, ∀ T q dq, b.Driven E ctl o T q dq →
      ∀ ρ, 0 ≤ ρ → ρ ≤ r → Near b.dof goal (q 0) (dq 0) ρ →
      ∀ t ∈ Icc 0 T, Near b.dof goal (q t) (dq t) (K * ρ * Real.exp (-(w * t))) := by
  have hm := hd.massive h.inv.tree
  obtain ⟨r, hr, K, w, hw, key⟩ := L.stable_near (F := fun y => b.plant o.cc (u y, y)) h0 hF hρ
  refine ⟨r, hr, |K|, w, hw, fun T q dq hD ρ hρ' hρr hN t ht => ?_⟩
  have h1 := near_norm hρ' hN
  have hz : ∀ t ∈ Icc 0 T, ∃ z, HasDerivWithinAt (stateOf b q dq) z (Icc 0 T) t ∧
      (‖stateOf b q dq t - (vecOf b.dof goal, 0)‖ ≤ ρ0 →
        z = b.plant o.cc (u (stateOf b q dq t), stateOf b q dq t)) := by
    intro t ht
    obtain ⟨b1, B, rr, e1, e2, e3, e4⟩ := hD t ht
    refine ⟨(fun i : Fin b.dof => (dq t).getD i 0,
      fun i : Fin b.dof => B.acceleration E rr.1.1 noExt o i), ?_, fun hn => ?_⟩
    · exact (hasDerivWithinAt_pi.2 fun i : Fin b.dof => (e4 i i.2).1).prodMk
        (hasDerivWithinAt_pi.2 fun i : Fin b.dof => (e4 i i.2).2)
    · have hA := atState_of_set h e1 e2
      obtain ⟨r', a1, a2⟩ := hS _ _ hn hA (hP _ _ _ _ e1 e2)
      have hr' : rr = r' := Out.ok.inj (e3.symm.trans a1)
      refine Prod.ext rfl (funext fun i => ?_)
      show B.acceleration E rr.1.1 noExt o i = _
      rw [field_of_set h hm cache0_clear rr.1.1 noExt o e1 e2 i,
        field_plant h hd cache0_clear hf hg hbase (hr' ▸ a2)]
      rfl
  choose! Z z1 z2 using hz
  refine norm_near (((key T (stateOf b q dq) Z z1 z2 (h1.trans hρr) t ht).2).trans ?_)
  have := le_abs_self K
  gcongr
  exact h1

theorem Steers.exists (hS : Steers E b P u (vecOf b.dof goal, 0) ρ0 ctl) (hρ : 0 < ρ0)
    (h : Reach E b d) (hd : b.Definite)
    (hP : ∀ q dq b1 B, b.setQ q = .ok b1 → b1.setDq dq = .ok B → P B) {o : IntOpts}
    (hf : o.friction = false) (hg : o.gravity = true) (hbase : o.aba = false ∨ b.T0.R.mulVec b.g = b.g)
    (hu : ContDiffAt ℝ 1 u (vecOf b.dof goal, 0))
    (h0 : b.plant o.cc (u (vecOf b.dof goal, 0), (vecOf b.dof goal, 0)) = 0)
    (hF : HasFDerivAt (fun y => b.plant o.cc (u y, y)) A (vecOf b.dof goal, 0)) (L : Lyap A) :
    ∃ r > 0, ∀ q0 dq0 : List ℝ, q0.length = b.dof → dq0.length = b.dof → Near b.dof goal q0 dq0 r →
      ∃ q dq : ℝ → List ℝ, q 0 = q0 ∧ dq 0 = dq0 ∧ ∀ T, b.Driven E ctl o T q dq := by
  have hm := hd.massive h.inv.tree
  obtain ⟨u', hu', ρ1, hρ1, e1⟩ := exists_global hu
  have e0 : u' (vecOf b.dof goal, 0) = u (vecOf b.dof goal, 0) := e1 _ (by simpa using hρ1.le)
  have hloc : (fun y => b.plant o.cc (u y, y)) =ᶠ[nhds (vecOf b.dof goal, 0)]
      fun y => b.plant o.cc (u' y, y) := by
    filter_upwards [Metric.closedBall_mem_nhds _ hρ1] with y hy
    rw [e1 y (by rwa [mem_closedBall_iff_norm] at hy)]
  have hF' := hF.congr_of_eventuallyEq hloc.symm
  have h0' : b.plant o.cc (u' (vecOf b.dof goal, 0), (vecOf b.dof goal, 0)) = 0 := by rw [e0, h0]
  have hs : ContDiff ℝ 1 (fun y => b.plant o.cc (u' y, y)) :=
    ((plant_smooth h hd o.cc).of_le (by simp)).comp (hu'.prodMk contDiff_id)
  obtain ⟨r1, hr1, k1⟩ := L.exists_forever (F := fun y => b.plant o.cc (u' y, y)) h0' hF' hs
  obtain ⟨r2, hr2, K, w, -, k2⟩ := L.stable_near (F := fun y => b.plant o.cc (u' y, y)) h0' hF'
    (lt_min hρ hρ1)
  refine ⟨min r1 r2, lt_min hr1 hr2, fun q0 dq0 hq hdq hN => ?_⟩
  have hn := near_norm (lt_min hr1 hr2).le hN
  obtain ⟨Y, hY0, hY⟩ := k1 _ (hn.trans (min_le_left _ _))
  have hin : ∀ T, ∀ t ∈ Icc 0 T, ‖Y t - (vecOf b.dof goal, 0)‖ ≤ min ρ0 ρ1 := fun T t ht =>
    (k2 T Y (fun t => b.plant o.cc (u' (Y t), Y t)) (hY T) (fun _ _ _ => rfl)
      (by rw [hY0]; exact hn.trans (min_le_right _ _)) t ht).1
  refine ⟨fun t => List.ofFn (Y t).1, fun t => List.ofFn (Y t).2, ?_, ?_, fun T t ht => ?_⟩
  · simp only [hY0]; exact stateOf_ofFn hq
  · simp only [hY0]; exact stateOf_ofFn hdq
  · obtain ⟨b1, h1, g1⟩ := setQ_total (b := b) (q := List.ofFn (Y t).1) (by simp)
    obtain ⟨B, h2, g2⟩ := setDq_total (b := b1) (q := List.ofFn (Y t).2) (by simp [g1])
    have hA := atState_of_set h h1 h2
    have e : ((fun i => (List.ofFn (Y t).1).getD i 0, fun i => (List.ofFn (Y t).2).getD i 0) :
        State b.dof) = Y t :=
      Prod.ext (funext fun i => getD_ofFn _ i) (funext fun i => getD_ofFn _ i)
    rw [e] at hA
    have hYt := hin T t ht
    obtain ⟨r', a1, a2⟩ := hS _ _ (hYt.trans (min_le_left _ _)) hA (hP _ _ _ _ h1 h2)
    rw [← e1 _ (hYt.trans (min_le_right _ _))] at a2
    refine ⟨b1, B, r', h1, h2, a1, fun i hi => ?_⟩
    have hs := hY T t ht
    have g1 : ∀ s, (List.ofFn (Y s).1).getD i 0 = (Y s).1 ⟨i, hi⟩ := fun s => getD_ofFn _ ⟨i, hi⟩
    have g2 : ∀ s, (List.ofFn (Y s).2).getD i 0 = (Y s).2 ⟨i, hi⟩ := fun s => getD_ofFn _ ⟨i, hi⟩
    simp only [g1, g2]
    constructor
    · exact hasDerivWithinAt_pi.1 ((hasFDerivAt_fst (𝕜 := ℝ)).comp_hasDerivWithinAt t hs) ⟨i, hi⟩
    · rw [field_of_set h hm cache0_clear r'.1.1 noExt o h1 h2 ⟨i, hi⟩,
        field_plant h hd cache0_clear hf hg hbase a2, e]
      exact hasDerivWithinAt_pi.1 ((hasFDerivAt_snd (𝕜 := ℝ)).comp_hasDerivWithinAt t hs) ⟨i, hi⟩

/-- Repeated calls. -/
theorem steer_sampled (hρ : 0 < ρ0) (h : Reach E b d) (hd : b.Definite)
    (hP : ∀ q dq b1 B, b.setQ q = .ok b1 → b1.setDq dq = .ok B → P B)
    (hu : ContDiffAt ℝ 1 u (vecOf b.dof goal, 0))
    (h0 : b.plant true (u (vecOf b.dof goal, 0), (vecOf b.dof goal, 0)) = 0)
    (hF : HasFDerivAt (fun y => b.plant true (u y, y)) A (vecOf b.dof goal, 0)) (L : Lyap A) :
    ∃ r > 0, ∃ K, ∃ w > 0, ∃ h0 > 0, ∀ dt, 0 < dt → dt ≤ h0 → ∀ {α : Type}
      (ctl : Body → Out (Answer α)), Shifts E b P u (vecOf b.dof goal, 0) ρ0 dt ctl →
      ∀ b1 B q dq, b.setQ q = .ok b1 →
      b1.setDq dq = .ok B → ∀ ρ, 0 ≤ ρ → ρ ≤ r → Near b.dof goal q dq ρ → ∀ k : ℕ,
      ∃ b' y, calls ctl k B = .ok b' ∧ P b' ∧ AtState E b y b' ∧
        ‖y - (vecOf b.dof goal, 0)‖ ≤ ρ0 ∧
        Near b.dof goal b'.q b'.dq (K * ρ * Real.exp (-(w * (k * dt)))) := by
  obtain ⟨u', hu', ρ1, hρ1, e1⟩ := exists_global hu
  have e0 : u' (vecOf b.dof goal, 0) = u (vecOf b.dof goal, 0) := e1 _ (by simpa using hρ1.le)
  have hloc : (fun y => b.plant true (u y, y)) =ᶠ[nhds (vecOf b.dof goal, 0)]
      fun y => b.plant true (u' y, y) := by
    filter_upwards [Metric.closedBall_mem_nhds _ hρ1] with y hy
    rw [e1 y (by rwa [mem_closedBall_iff_norm] at hy)]
  have hF' := hF.congr_of_eventuallyEq hloc.symm
  have h0' : b.plant true (u' (vecOf b.dof goal, 0), (vecOf b.dof goal, 0)) = 0 := by rw [e0, h0]
  have hG : ContDiff ℝ 1 (b.plant true) := (plant_smooth h hd true).of_le (by simp)
  obtain ⟨ρ2, hρ2, h1, hh1, K0, hK0⟩ := rk4_frozen (y0 := (vecOf b.dof goal, 0)) hG hu' h0'
  obtain ⟨r, hr, K, w, hw, h2, hh2, key⟩ := L.stable_discrete
    (F := fun y => b.plant true (u' y, y)) h0' hF'
    (Φ := fun dt y => rk4 (fun z => b.plant true (u' y, z)) id dt y) hρ2 hh1 hK0
  set r' := min r (min ρ0 ρ1 / (|K| + 1)) with hr'
  have hr0 : 0 < r' := lt_min hr (div_pos (lt_min hρ hρ1) (by positivity))
  have hKr : |K| * r' ≤ min ρ0 ρ1 := by
    have h3 : r' ≤ min ρ0 ρ1 / (|K| + 1) := min_le_right _ _
    rw [le_div_iff₀ (by positivity)] at h3
    nlinarith [abs_nonneg K]
  refine ⟨r', hr0, |K|, w, hw, h2, hh2, fun dt hdt hdt' α ctl hS b1 B q dq s1 s2 ρ hρ' hρr hN k => ?_⟩
  have hA := atState_of_set h s1 s2
  have hn := near_norm hρ' hN
  set y1 : State b.dof := (fun i => q.getD i 0, fun i => dq.getD i 0) with hy1
  set Φ : State b.dof → State b.dof := fun y => rk4 (fun z => b.plant true (u' y, z)) id dt y with hΦ
  have hb : ∀ k : ℕ, ‖Φ^[k] y1 - (vecOf b.dof goal, 0)‖ ≤ |K| * ρ * Real.exp (-(w * (k * dt))) := by
    intro k
    refine (key dt hdt hdt' _ (hn.trans (hρr.trans (min_le_left _ _))) k).trans ?_
    have := le_abs_self K
    gcongr
  have hb' : ∀ k : ℕ, ‖Φ^[k] y1 - (vecOf b.dof goal, 0)‖ ≤ min ρ0 ρ1 := by
    intro k
    refine (hb k).trans ?_
    have : Real.exp (-(w * (k * dt))) ≤ 1 := by
      rw [Real.exp_le_one_iff]
      have : 0 ≤ w * (k * dt) := by positivity
      linarith
    have h3 : |K| * ρ ≤ |K| * r' := by gcongr
    have h4 : 0 ≤ |K| * ρ := by positivity
    nlinarith
  have hc : ∀ k : ℕ, ∃ b', calls ctl k B = .ok b' ∧ P b' ∧ AtState E b (Φ^[k] y1) b' := by
    intro k
    induction k with
    | zero => exact ⟨B, rfl, hP _ _ _ _ s1 s2, hA⟩
    | succ k ih =>
      obtain ⟨b', c1, c2, c3⟩ := ih
      obtain ⟨r, a1, a2, a3⟩ := hS _ _ ((hb' k).trans (min_le_left _ _)) c3 c2
      refine ⟨r.2, by simp only [calls, c1, a1], a2, ?_⟩
      rw [Function.iterate_succ_apply', hΦ]
      dsimp only
      rw [e1 _ ((hb' k).trans (min_le_right _ _))]
      exact a3
  obtain ⟨b', c1, c2, c3⟩ := hc k
  refine ⟨b', _, c1, c2, c3, (hb' k).trans (min_le_left _ _), norm_near ?_⟩
  have e : ((fun i => b'.q.getD i 0, fun i => b'.dq.getD i 0) : State b.dof) = Φ^[k] y1 := by
    rw [c3.q, c3.dq]
    exact Prod.ext (funext fun i => getD_ofFn _ i) (funext fun i => getD_ofFn _ i)
  rw [e]
  exact hb k

end SpatialDyn
