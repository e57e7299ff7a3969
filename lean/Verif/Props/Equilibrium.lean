import Verif.Props.Converge
import Verif.Props.ClosedLoop
import Verif.Props.PyObjects

/-!
# C139: where a robot rests, and when it stays near
-/

namespace SpatialDyn
open Set Body OneStep
open scoped ContDiff Topology

variable {E : Ext} {b : Body} {d : Bool}

/-! ## Rest of the one-step methods -/

section RK
variable {n : ℕ} {F : State n → State n}

theorem scheme_rest (m : Method) (h2 : ∀ y, (F y).1 = y.2) {y : State n} (hy : F y = 0) (dt : ℝ) :
    scheme m F id dt y = y := by
  have hv : y.2 = 0 := by rw [← h2 y, hy]; rfl
  cases m
  · show taylor F id dt y = y
    unfold taylor
    rw [hy, hv]
    ext i <;> simp [hv]
  · show heun F id dt y = y
    simp [heun, rkStep, rkSlopes, lin, hy]
  · show rk4 F id dt y = y
    simp [rk4, rkStep, rkSlopes, lin, hy]

/-- A continuous increment that vanishes for small steps vanishes at zero. -/
theorem increment_zero {Φ : ℝ → State n} (hΦ : Continuous Φ) {h0 : ℝ} (hpos : 0 < h0) {y : State n}
    (h : ∀ dt, 0 < dt → dt ≤ h0 → y + dt • Φ dt = y) : Φ 0 = 0 := by
  have h1 : Filter.Tendsto Φ (𝓝[>] 0) (𝓝 (Φ 0)) := (hΦ.tendsto 0).mono_left nhdsWithin_le_nhds
  refine tendsto_nhds_unique h1 (Filter.Tendsto.congr' ?_ tendsto_const_nhds)
  filter_upwards [Ioc_mem_nhdsGT hpos] with dt hdt
  have := add_eq_left.1 (h dt hdt.1 hdt.2)
  exact ((smul_eq_zero.1 this).resolve_left hdt.1.ne').symm

theorem rest_scheme (m : Method) (hF : Continuous F) (h2 : ∀ y, (F y).1 = y.2) {y : State n} {h0 : ℝ}
    (hpos : 0 < h0) (h : ∀ dt, 0 < dt → dt ≤ h0 → scheme m F id dt y = y) : F y = 0 := by
  cases m
  · have key := h h0 hpos le_rfl
    have e2 : y.2 + h0 • (F y).2 = y.2 := congrArg Prod.snd key
    have z2 : (F y).2 = 0 := (smul_eq_zero.1 (add_eq_left.1 e2)).resolve_left hpos.ne'
    have e1 : y.1 + h0 • y.2 + (h0 ^ 2 / 2) • (F y).2 = y.1 := congrArg Prod.fst key
    rw [z2, smul_zero, add_zero] at e1
    have z1 : y.2 = 0 := (smul_eq_zero.1 (add_eq_left.1 e1)).resolve_left hpos.ne'
    exact Prod.ext (by rw [h2, z1]; rfl) z2
  · have := increment_zero (Φ := fun dt => (1 / 2 : ℝ) • F y + (1 / 2 : ℝ) • F (y + dt • F y)) (y := y)
      (by fun_prop) hpos fun dt h1 h3 => by
        have := h dt h1 h3
        simpa [scheme, heun, rkStep, rkSlopes, lin] using this
    simp only [zero_smul, add_zero, ← add_smul] at this
    exact (smul_eq_zero.1 this).resolve_left (by norm_num)
  · have := increment_zero (y := y) (Φ := fun dt =>
        let k2 := F (y + dt • (1 / 2 : ℝ) • F y)
        let k3 := F (y + dt • (1 / 2 : ℝ) • k2)
        let k4 := F (y + dt • k3)
        (1 / 6 : ℝ) • F y + ((1 / 3 : ℝ) • k2 + ((1 / 3 : ℝ) • k3 + (1 / 6 : ℝ) • k4)))
      (by fun_prop) hpos fun dt h1 h3 => by
        have := h dt h1 h3
        simpa [scheme, rk4, rkStep, rkSlopes, lin] using this
    simp only [zero_smul, add_zero, ← add_smul] at this
    exact (smul_eq_zero.1 this).resolve_left (by norm_num)

end RK

theorem field_fst (tau : ℕ → ℝ) (fext : FExt) (o : IntOpts) (y : State b.dof) :
    (b.field E cache0 tau fext o y).1 = y.2 := rfl

/-- The equations of motion stand still exactly where the robot does and the torques balance. -/
theorem field_zero (h : Reach E b d) (hd : b.Definite) (tau : ℕ → ℝ) (fext : FExt) {o : IntOpts}
    (hf : o.friction = false) (hbase : o.aba = false ∨ b.T0.R.mulVec b.g = b.g) :
    b.field E cache0 tau fext o b.state = 0 ↔ (∀ i < b.dof, b.dq.getD i 0 = 0) ∧
      ∀ i < b.dof, tau i = (b.inverseDynamics (fun _ => 0) fext ⟨o.gravity, o.cc, false, o.eps⟩).1 i := by
  have hm := hd.massive h.inv.tree
  have e : (if o.aba = true then b.T0.R.mulVec b.g else b.g) = b.g := by
    rcases hbase with h | h
    · simp [h]
    · split
      · exact h
      · rfl
  have hA := atState_self h.inv
  have hp : padFin b.state.1 = b.pos := by unfold Body.pos; rw [← getD_ofFn_pad, ← hA.q]
  have hv : padFin b.state.2 = b.vel := by unfold Body.vel; rw [← getD_ofFn_pad, ← hA.dq]
  have hid : ∀ i < b.dof, (b.inverseDynamics (fun _ => 0) fext ⟨o.gravity, o.cc, false, o.eps⟩).1 i =
      b.fresh.idSpec (fun _ => 0) fext o.cc o.gravity i := fun i hi => by
    rw [inverseDynamics_val h.inv hm.symI (hm.posMass h.inv.tree) _ _ _ i hi]
    simp [Sys.addFriction]
  have hs : ∀ i < b.dof, ∑ j ∈ Finset.range b.dof, b.fresh.massSpec i j *
      padFin (b.accAt b.g tau fext o.cc o.gravity b.state) j =
      tau i - b.fresh.idSpec (fun _ => 0) fext o.cc o.gravity i := fun i hi => by
    have := accAt_solves h hd b.g tau fext o.cc o.gravity b.state hi
    rw [hp, hv] at this
    exact this
  rw [field_val h hd cache0_clear _ _ o hf, e]
  constructor
  · intro hz
    have z1 : b.state.2 = 0 := congrArg Prod.fst hz
    have z2 : b.accAt b.g tau fext o.cc o.gravity b.state = 0 := congrArg Prod.snd hz
    refine ⟨fun i hi => congrFun z1 ⟨i, hi⟩, fun i hi => ?_⟩
    have := hs i hi
    rw [z2] at this
    rw [hid i hi]
    simp [padFin] at this
    linarith
  · rintro ⟨r1, r2⟩
    refine Prod.ext (funext fun i => r1 i i.2) ?_
    show b.accAt b.g tau fext o.cc o.gravity b.state = 0
    unfold accAt
    have : vec b.dof tau - vec b.dof (((b.setG b.g).sysAt (padFin b.state.1) (padFin b.state.2)).idSpec
        (fun _ => 0) fext o.cc o.gravity) = 0 := by
      rw [hp, hv]
      funext i
      show tau i - b.fresh.idSpec (fun _ => 0) fext o.cc o.gravity i = 0
      rw [r2 i i.2, hid i i.2, sub_self]
    rw [this, Matrix.mulVec_zero]

/-- C139: a robot at rest whose torques are those of `InverseDynamics` for no acceleration stays as it
is, whatever the method, the length of the steps and their number. -/
theorem C139_rests (h : Reach E b d) (hd : b.Definite) (tau : ℕ → ℝ) (fext : FExt) {o : IntOpts}
    (hf : o.friction = false) (hl : o.jointLimits = false)
    (hbase : o.aba = false ∨ b.T0.R.mulVec b.g = b.g) (h0 : ∀ i < b.dof, b.dq.getD i 0 = 0)
    (ht : ∀ i < b.dof, tau i = (b.inverseDynamics (fun _ => 0) fext ⟨o.gravity, o.cc, false, o.eps⟩).1 i)
    (dt : ℝ) (n : ℕ) : ∃ b', steps E tau dt fext o n b = .ok b' ∧ b'.q = b.q ∧ b'.dq = b.dq := by
  have hm := hd.massive h.inv.tree
  obtain ⟨b', e1, e2⟩ := steps_scheme h hm cache0_clear tau dt fext o hl n
  have hz := (field_zero (E := E) h hd tau fext hf hbase).2 ⟨h0, ht⟩
  have hfix : (scheme o.method (b.field E cache0 tau fext o) id dt)^[n] b.state = b.state :=
    Function.iterate_fixed (scheme_rest o.method (fun _ => rfl) hz dt) n
  rw [hfix] at e2
  have hA := atState_self h.inv
  exact ⟨b', e1, by rw [e2.q, ← hA.q], by rw [e2.dq, ← hA.dq]⟩

/-- C139: no other states stay as they are for all short steps. -/
theorem C139_only (h : Reach E b d) (hd : b.Definite) (tau : ℕ → ℝ) (fext : FExt) {o : IntOpts}
    (hf : o.friction = false) (hl : o.jointLimits = false)
    (hbase : o.aba = false ∨ b.T0.R.mulVec b.g = b.g) {h0 : ℝ} (hpos : 0 < h0)
    (hs : ∀ dt, 0 < dt → dt ≤ h0 → ∃ b', b.integrate E tau dt fext o = .ok b' ∧ b'.q = b.q ∧ b'.dq = b.dq) :
    (∀ i < b.dof, b.dq.getD i 0 = 0) ∧
      ∀ i < b.dof, tau i = (b.inverseDynamics (fun _ => 0) fext ⟨o.gravity, o.cc, false, o.eps⟩).1 i := by
  have hm := hd.massive h.inv.tree
  refine (field_zero (E := E) h hd tau fext hf hbase).1
    (rest_scheme o.method (field_smooth h hd cache0_clear tau fext o hf).continuous (fun _ => rfl) hpos
      fun dt h1 h2 => ?_)
  obtain ⟨b', e1, e2, e3⟩ := hs dt h1 h2
  obtain ⟨b1, g1, g2⟩ := steps_scheme h hm cache0_clear tau dt fext o hl 1
  have eb : b1 = b' := by
    have : steps E tau dt fext o 1 b = b.integrate E tau dt fext o := rfl
    rw [this, e1] at g1
    exact (Out.ok.inj g1).symm
  subst eb
  rw [Function.iterate_one] at g2
  have k1 := g2.q
  have k2 := g2.dq
  rw [e2, (atState_self h.inv).q] at k1
  rw [e3, (atState_self h.inv).dq] at k2
  exact Prod.ext (List.ofFn_injective k1).symm (List.ofFn_injective k2).symm

/-! ## Staying near -/

theorem pad_at {n : ℕ} (v : Fin n → ℝ) (i : Fin n) : padFin v i = v i := by simp [padFin]

/-- A curve along which a function does not grow stays near a strict minimum of it. -/
theorem stay_near {V : Type*} [NormedAddCommGroup V] [NormedSpace ℝ V] [ProperSpace V] {f : V → ℝ}
    (hf : Continuous f) {y0 : V} {r : ℝ} (hr : 0 < r) (hmin : ∀ y, ‖y - y0‖ ≤ r → y ≠ y0 → f y0 < f y)
    {ε : ℝ} (hε : 0 < ε) : ∃ δ > 0, ∀ (T : ℝ) (Y : ℝ → V), ContinuousOn Y (Icc 0 T) →
      (∀ t ∈ Icc 0 T, f (Y t) ≤ f (Y 0)) → ‖Y 0 - y0‖ ≤ δ → ∀ t ∈ Icc 0 T, ‖Y t - y0‖ ≤ ε := by
  set e := min ε r with he
  have he0 : 0 < e := lt_min hε hr
  have hS : IsCompact (Metric.sphere y0 e) := isCompact_sphere y0 e
  obtain ⟨m, hm0, hm⟩ : ∃ m, f y0 < m ∧ ∀ y ∈ Metric.sphere y0 e, m ≤ f y := by
    rcases (Metric.sphere y0 e).eq_empty_or_nonempty with hE | hne
    · exact ⟨f y0 + 1, by linarith, fun y hy => by rw [hE] at hy; exact hy.elim⟩
    · obtain ⟨z, hz, hz'⟩ := hS.exists_isMinOn hne hf.continuousOn
      have hz1 : ‖z - y0‖ = e := by rwa [← dist_eq_norm]
      refine ⟨f z, hmin z (by rw [hz1]; exact min_le_right _ _) ?_, fun y hy => hz' hy⟩
      rintro rfl
      simp at hz1
      exact he0.ne hz1
  obtain ⟨δ, hδ, hball⟩ := Metric.eventually_nhds_iff.1 (hf.continuousAt.eventually (gt_mem_nhds hm0))
  refine ⟨min (δ / 2) (e / 2), by positivity, fun T Y hY hfY h0 t ht => ?_⟩
  have hlow : f (Y 0) < m := hball (by
    rw [dist_eq_norm]
    exact (h0.trans (min_le_left _ _)).trans_lt (by linarith))
  by_contra hcon
  have hgt : e < ‖Y t - y0‖ := lt_of_le_of_lt (min_le_left _ _) (not_le.1 hcon)
  have hlt : ‖Y 0 - y0‖ < e := (h0.trans (min_le_right _ _)).trans_lt (by linarith)
  have hc : ContinuousOn (fun s => ‖Y s - y0‖) (Icc 0 t) :=
    ((hY.mono (Icc_subset_Icc le_rfl ht.2)).sub continuousOn_const).norm
  obtain ⟨s, hs, hse⟩ := intermediate_value_Icc ht.1 hc ⟨hlt.le, hgt.le⟩
  have h1 := hm (Y s) (by rw [Metric.mem_sphere, dist_eq_norm]; exact hse)
  have h2 := hfY s ⟨hs.1, hs.2.trans ht.2⟩
  linarith

theorem kin_pos (h : Reach E b d) (hd : b.Definite) (y : State b.dof) (hy : y.2 ≠ 0) :
    0 < (b.sysAt (padFin y.1) (padFin y.2)).energy2 (padFin y.2) := by
  obtain ⟨B, d', hB, hA, hf⟩ := exists_at h y
  have hn : B.dof = b.dof := hA.dof
  rw [← hf]
  refine (hA.only.definite hd).massPD hB.inv _ ?_
  obtain ⟨i, hi⟩ := Function.ne_iff.1 hy
  refine ⟨i, ?_, ?_⟩
  · show (i : ℕ) < B.dof
    rw [hn]; exact i.2
  · simpa [padFin] using hi

/-- Along a motion the energy grows by the work of the torques. -/
theorem field_work (h : Reach E b d) (hd : b.Definite) (ha : b.AxesOK) (tau : ℕ → ℝ) {o : IntOpts}
    (hf : o.friction = false) (hcc : o.cc = true) (hg : o.gravity = true)
    (hbase : o.aba = false ∨ b.T0.R.mulVec b.g = b.g) {T : ℝ} {Y : ℝ → State b.dof}
    (hY : Solves (b.field E cache0 tau (fun _ => none) o) T Y) : ∀ t ∈ Icc 0 T,
      b.total (Y t) - ∑ i : Fin b.dof, tau i * (Y t).1 i =
        b.total (Y 0) - ∑ i : Fin b.dof, tau i * (Y 0).1 i := by
  have hs := (total_smooth h).differentiable (by simp)
  have e : (if o.aba = true then b.T0.R.mulVec b.g else b.g) = b.g := by
    rcases hbase with h | h
    · simp [h]
    · split
      · exact h
      · rfl
  have hder : ∀ t ∈ Icc 0 T, HasDerivWithinAt
      (fun t => b.total (Y t) - ∑ i : Fin b.dof, tau i * (Y t).1 i) 0 (Icc 0 T) t := by
    intro t ht
    have h1 := (hs (Y t)).hasFDerivAt.comp_hasDerivWithinAt t (hY t ht)
    have h2 : HasDerivWithinAt (fun t => ∑ i : Fin b.dof, tau i * (Y t).1 i)
        (∑ i : Fin b.dof, tau i * (Y t).2 i) (Icc 0 T) t := by
      refine HasDerivWithinAt.fun_sum fun i _ => ?_
      have := (hasDerivWithinAt_pi.1 (hY t ht).fst) i
      exact this.const_mul (tau i)
    refine (h1.sub h2).congr_deriv ?_
    rw [field_val h hd cache0_clear _ _ o hf, hcc, hg, e, total_rate h hd ha]
    rw [Finset.sum_range]
    simp only [pad_at, Option.getD_none, Motion.dot_zero, Finset.sum_const_zero, add_zero]
    rw [sub_eq_zero]
    exact Finset.sum_congr rfl fun i _ => mul_comm _ _
  exact constant_of_has_deriv_right_zero (fun t ht => (hder t ht).continuousWithinAt)
    fun t ht => within_right ht (hder t (Ico_subset_Icc_self ht))

/-- Kinetic energy plus potential energy minus the work of constant torques. -/
noncomputable def worked (b : Body) (tau : ℕ → ℝ) (y : State b.dof) : ℝ :=
  b.total y - ∑ i : Fin b.dof, tau i * y.1 i

theorem worked_continuous (h : Reach E b d) (tau : ℕ → ℝ) : Continuous (worked b tau) := by
  have := (total_smooth h).continuous
  unfold worked
  fun_prop

/-- Potential energy through `Position(q, link)`. -/
theorem potential_at (h : Reach E b d) {u : ℕ → ℝ} {P : ℕ → Vec3 → Vec3}
    (hP : ∀ k < b.dof, ∀ x, b.positionQ u k x = .ok (P k x)) :
    b.potential P = b.potential fun k x => (b.twAt u k).app x := by
  unfold Body.potential
  congr 1
  refine Finset.sum_congr rfl fun k hk => ?_
  have hk := Finset.mem_range.1 hk
  congr 1
  refine List.map_congr_left fun I _ => ?_
  obtain ⟨X, hX⟩ := linkPose_exists h.inv.tree u k hk
  have := C17_position_q h (i := k) ⟨hk, Or.inl rfl⟩ hX I.com
  rw [hP k hk] at this
  beta_reduce
  rw [hX.twAt h.inv.tree hk, Out.ok.inj this]

/-- A strict minimum of the potential energy (less the work of the torques) is one of the energy. -/
theorem worked_min (h : Reach E b d) (hd : b.Definite) (tau : ℕ → ℝ) {q0 : List ℝ}
    (hl0 : q0.length = b.dof) {P : (ℕ → ℝ) → ℕ → Vec3 → Vec3}
    (hP : ∀ u, ∀ k < b.dof, ∀ x, b.positionQ u k x = .ok (P u k x)) {r : ℝ}
    (hmin : ∀ u : ℕ → ℝ, (∀ i < b.dof, |u i - q0.getD i 0| ≤ r) → (∃ i < b.dof, u i ≠ q0.getD i 0) →
      b.potential (P fun i => q0.getD i 0) - ∑ i ∈ Finset.range b.dof, tau i * q0.getD i 0 <
        b.potential (P u) - ∑ i ∈ Finset.range b.dof, tau i * u i)
    (y : State b.dof) (hy : ‖y - (vecOf b.dof q0, 0)‖ ≤ r) (hne : y ≠ (vecOf b.dof q0, 0)) :
    worked b tau (vecOf b.dof q0, 0) < worked b tau y := by
  have hp0 : padFin (vecOf b.dof q0) = fun i => q0.getD i 0 := by
    funext i
    unfold padFin vecOf
    split
    · rfl
    · simp [List.getD, List.getElem?_eq_none (show q0.length ≤ i by omega)]
  have e0 : worked b tau (vecOf b.dof q0, 0) = b.potential (P fun i => q0.getD i 0) -
      ∑ i ∈ Finset.range b.dof, tau i * q0.getD i 0 := by
    unfold worked total
    rw [potential_at h (hP _), Finset.sum_range, hp0]
    have hz : (b.sysAt (fun i => q0.getD i 0) (padFin (0 : Fin b.dof → ℝ))).energy2
        (padFin (0 : Fin b.dof → ℝ)) = 0 := by
      have hz : padFin (0 : Fin b.dof → ℝ) = fun _ => 0 := by
        funext i; unfold padFin; split <;> rfl
      rw [hz, Sys.energy2_eq]
      simp
    simp only [hz, mul_zero, zero_add]
    rfl
  have e1 : worked b tau y = 1 / 2 * (b.sysAt (padFin y.1) (padFin y.2)).energy2 (padFin y.2) +
      (b.potential (P (padFin y.1)) - ∑ i ∈ Finset.range b.dof, tau i * padFin y.1 i) := by
    unfold worked total
    rw [potential_at h (hP _), Finset.sum_range]
    simp only [pad_at]
    ring
  have hk0 : 0 ≤ (b.sysAt (padFin y.1) (padFin y.2)).energy2 (padFin y.2) :=
    energy2_nonneg h.inv hd _ _
  rw [e0, e1]
  by_cases hq : ∃ i < b.dof, padFin y.1 i ≠ q0.getD i 0
  · have := hmin (padFin y.1) (fun i hi => ?_) hq
    · linarith
    · have h1 := (state_coord (y - (vecOf b.dof q0, 0)) ⟨i, hi⟩).1.trans hy
      simpa [vecOf, padFin, hi] using h1
  · push Not at hq
    have hy1 : y.1 = vecOf b.dof q0 := funext fun i => by
      have := hq i i.2
      rwa [pad_at] at this
    have hy2 : y.2 ≠ 0 := fun hz => hne (Prod.ext hy1 hz)
    have h1 := kin_pos h hd y hy2
    have h3 : padFin y.1 = fun i => q0.getD i 0 := by rw [hy1, hp0]
    have h4 : ∑ i ∈ Finset.range b.dof, tau i * padFin y.1 i =
        ∑ i ∈ Finset.range b.dof, tau i * q0.getD i 0 :=
      Finset.sum_congr rfl fun i hi => by rw [hq i (Finset.mem_range.1 hi)]
    rw [h4, h3]
    rw [h3] at h1
    linarith

/-- C139 (Lagrange and Dirichlet): where the potential energy, less the work of the torques, has a
strict local minimum, the robot is stable: for every `ε` there is a `δ` such that every motion, however
long, that starts within `δ` of the place at speeds within `δ` stays within `ε` of it. -/
theorem C139_stable (h : Reach E b d) (hd : b.Definite) (ha : b.AxesOK) (tau : ℕ → ℝ) {o : IntOpts}
    (hf : o.friction = false) (hcc : o.cc = true) (hg : o.gravity = true)
    (hbase : o.aba = false ∨ b.T0.R.mulVec b.g = b.g) {q0 : List ℝ} (hl0 : q0.length = b.dof)
    {P : (ℕ → ℝ) → ℕ → Vec3 → Vec3}
    (hP : ∀ u, ∀ k < b.dof, ∀ x, b.positionQ u k x = .ok (P u k x)) {r : ℝ} (hr : 0 < r)
    (hmin : ∀ u : ℕ → ℝ, (∀ i < b.dof, |u i - q0.getD i 0| ≤ r) → (∃ i < b.dof, u i ≠ q0.getD i 0) →
      b.potential (P fun i => q0.getD i 0) - ∑ i ∈ Finset.range b.dof, tau i * q0.getD i 0 <
        b.potential (P u) - ∑ i ∈ Finset.range b.dof, tau i * u i) {ε : ℝ} (hε : 0 < ε) :
    ∃ δ > 0, ∀ T q dq, b.Moves E tau (fun _ => none) o T q dq → Near b.dof q0 (q 0) (dq 0) δ →
      ∀ t ∈ Icc 0 T, Near b.dof q0 (q t) (dq t) ε := by
  have hm := hd.massive h.inv.tree
  obtain ⟨δ, hδ, key⟩ := stay_near (worked_continuous h tau) (y0 := ((vecOf b.dof q0, 0) : State b.dof)) hr
    (fun y hy hne => worked_min h hd tau hl0 hP hmin y hy hne) hε
  refine ⟨δ, hδ, fun T q dq hM hN t ht => ?_⟩
  obtain ⟨-, hS⟩ := (moves_iff h hm cache0_clear tau _ o).1 hM
  exact norm_near (key T (stateOf b q dq) hS.cont
    (fun s hs => (field_work h hd ha tau hf hcc hg hbase hS s hs).le) (near_norm hδ.le hN) t ht)

theorem atState_steps (h : Reach E b d) (hm : b.Massive) {y : State b.dof} {B : Body}
    (hA : AtState E b y B) (tau : ℕ → ℝ) (dt : ℝ) (fext : FExt) (o : IntOpts)
    (ho : o.jointLimits = false) (n : ℕ) : ∃ b', steps E tau dt fext o n B = .ok b' ∧
      AtState E b ((scheme o.method (b.field E cache0 tau fext o) id dt)^[n] y) b' := by
  have e : b.codeFilter o.jointLimits = id := by
    funext y
    unfold codeFilter
    simp [ho]
  induction n with
  | zero => exact ⟨B, rfl, hA⟩
  | succ n ih =>
    obtain ⟨b1, h1, h2⟩ := ih
    obtain ⟨b2, h3, h4⟩ := h2.integrate h.inv hm.symI (hm.posMass h.inv.tree) cache0_clear tau dt fext o
    refine ⟨b2, by simp [steps, h1, h3], ?_⟩
    rw [Function.iterate_succ_apply']
    rw [e] at h4
    exact h4

/-- C139 for the simulation: near such a place repeated calls of `Integrate` stay near for as long as
wanted, if the steps are short enough. -/
theorem C139_simulation (h : Reach E b d) (hd : b.Definite) (ha : b.AxesOK) (tau : ℕ → ℝ) {o : IntOpts}
    (hf : o.friction = false) (hl : o.jointLimits = false) (hcc : o.cc = true) (hg : o.gravity = true)
    (hbase : o.aba = false ∨ b.T0.R.mulVec b.g = b.g) {q0 : List ℝ} (hl0 : q0.length = b.dof)
    {P : (ℕ → ℝ) → ℕ → Vec3 → Vec3}
    (hP : ∀ u, ∀ k < b.dof, ∀ x, b.positionQ u k x = .ok (P u k x)) {r : ℝ} (hr : 0 < r)
    (hmin : ∀ u : ℕ → ℝ, (∀ i < b.dof, |u i - q0.getD i 0| ≤ r) → (∃ i < b.dof, u i ≠ q0.getD i 0) →
      b.potential (P fun i => q0.getD i 0) - ∑ i ∈ Finset.range b.dof, tau i * q0.getD i 0 <
        b.potential (P u) - ∑ i ∈ Finset.range b.dof, tau i * u i) {ε : ℝ} (hε : 0 < ε) :
    ∃ δ > 0, ∀ q dq b1 B, b.setQ q = .ok b1 → b1.setDq dq = .ok B → Near b.dof q0 q dq δ →
      ∀ T : ℝ, ∃ h0 > (0 : ℝ), ∀ dt : ℝ, 0 < dt → dt ≤ h0 → ∀ k : ℕ, k * dt ≤ T →
        ∃ B', steps E tau dt (fun _ => none) o k B = .ok B' ∧ Near b.dof q0 B'.q B'.dq ε := by
  have hm := hd.massive h.inv.tree
  obtain ⟨δ, hδ, key⟩ := stay_near (worked_continuous h tau) (y0 := ((vecOf b.dof q0, 0) : State b.dof)) hr
    (fun y hy hne => worked_min h hd tau hl0 hP hmin y hy hne) (half_pos hε)
  refine ⟨δ, hδ, fun q dq b1 B h1 h2 hN T => ?_⟩
  have hA := atState_of_set h h1 h2
  set y : State b.dof := (fun i => q.getD i 0, fun i => dq.getD i 0) with hy
  obtain ⟨Y, hY0, hY⟩ := field_forever h hd ha cache0_clear tau (fun _ => none) o hf hcc y
  obtain ⟨C, e0, hpos, hC⟩ := scheme_converge (field_smooth h hd cache0_clear tau (fun _ => none) o hf)
    (fun _ => rfl) (hY T) o.method
  have hstay := key T Y (hY T).cont (fun s hs => (field_work h hd ha tau hf hcc hg hbase (hY T) s hs).le)
    (by rw [hY0]; exact near_norm hδ.le hN)
  refine ⟨min (min e0 1) (ε / (2 * (|C| + 1))), by positivity, fun dt d1 d2 k hk => ?_⟩
  obtain ⟨B', s1, s2⟩ := atState_steps h hm hA tau dt (fun _ => none) o hl k
  refine ⟨B', s1, ?_⟩
  have h3 := hC dt d1 (d2.trans ((min_le_left _ _).trans (min_le_left _ _))) k hk
  have h4 := hstay (k * dt) ⟨by positivity, hk⟩
  rw [hY0, order_eq] at h3
  have h5 : C * dt ^ o.method.order ≤ ε / 2 := by
    have p1 : dt ≤ 1 := d2.trans ((min_le_left _ _).trans (min_le_right _ _))
    have p2 : dt ≤ ε / (2 * (|C| + 1)) := d2.trans (min_le_right _ _)
    have p3 : dt ^ o.method.order ≤ dt := by
      cases o.method
      · exact (pow_one dt).le
      · exact pow_le_of_le_one d1.le p1 (by decide)
      · exact pow_le_of_le_one d1.le p1 (by decide)
    have p4 : dt * (2 * (|C| + 1)) ≤ ε := (le_div_iff₀ (by positivity)).1 p2
    have p5 : 0 ≤ dt ^ o.method.order := by positivity
    nlinarith [le_abs_self C, abs_nonneg C]
  set z := (scheme o.method (b.field E cache0 tau (fun _ => none) o) id dt)^[k] y with hz
  have e : ((fun i => B'.q.getD i 0, fun i => B'.dq.getD i 0) : State b.dof) = z := by
    rw [s2.q, s2.dq]
    exact Prod.ext (funext fun i => getD_ofFn _ i) (funext fun i => getD_ofFn _ i)
  refine norm_near ?_
  rw [e]
  calc ‖z - (vecOf b.dof q0, 0)‖ ≤ ‖z - Y (k * dt)‖ + ‖Y (k * dt) - (vecOf b.dof q0, 0)‖ :=
        norm_sub_le_norm_sub_add_norm_sub _ _ _
    _ ≤ ε / 2 + ε / 2 := add_le_add (h3.trans h5) h4
    _ = ε := by ring

/-- C139: at a minimum of the potential energy less the work of the torques, strict or not, the torques
are those of `Gravity`. -/
theorem C139_minimum (h : Reach E b d) (hd : b.Definite) (ha : b.AxesOK) (tau : ℕ → ℝ)
    {P : (ℕ → ℝ) → ℕ → Vec3 → Vec3}
    (hP : ∀ u, ∀ k < b.dof, ∀ x, b.positionQ u k x = .ok (P u k x)) {r : ℝ} (hr : 0 < r)
    (hmin : ∀ u : ℕ → ℝ, (∀ i < b.dof, |u i - b.q.getD i 0| ≤ r) →
      b.potential (P fun i => b.q.getD i 0) - ∑ i ∈ Finset.range b.dof, tau i * b.q.getD i 0 ≤
        b.potential (P u) - ∑ i ∈ Finset.range b.dof, tau i * u i) :
    ∀ i < b.dof, tau i = b.gravity.1 i := by
  intro i hi
  have hm := hd.massive h.inv.tree
  have h1 := C25_gradient h ha hm hi (P := fun s => P (Function.update b.pos i s))
    fun s k hk x => hP _ k hk x
  have h2 : HasDerivAt (fun s => ∑ j ∈ Finset.range b.dof, tau j * Function.update b.pos i s j) (tau i)
      (b.pos i) := by
    have e : (fun s => ∑ j ∈ Finset.range b.dof, tau j * Function.update b.pos i s j) =
        fun s => tau i * s + ∑ j ∈ (Finset.range b.dof).erase i, tau j * b.pos j := by
      funext s
      rw [← Finset.add_sum_erase _ _ (Finset.mem_range.2 hi), Function.update_self]
      congr 1
      exact Finset.sum_congr rfl fun j hj => by rw [Function.update_of_ne (Finset.ne_of_mem_erase hj)]
    rw [e]
    simpa using ((hasDerivAt_id' (b.pos i)).const_mul (tau i)).add_const
      (∑ j ∈ (Finset.range b.dof).erase i, tau j * b.pos j)
  have h3 : IsLocalMin (fun s => b.potential (P (Function.update b.pos i s)) -
      ∑ j ∈ Finset.range b.dof, tau j * Function.update b.pos i s j) (b.pos i) := by
    filter_upwards [Metric.closedBall_mem_nhds (b.pos i) hr] with s hs
    rw [Function.update_eq_self]
    refine hmin (Function.update b.pos i s) fun j _ => ?_
    by_cases hij : j = i
    · subst hij
      rw [Function.update_self]
      exact hs
    · rw [Function.update_of_ne hij]
      show |b.pos j - b.pos j| ≤ r
      rw [sub_self, abs_zero]
      exact hr.le
  have := h3.hasDerivAt_eq_zero (h1.sub h2)
  linarith

/-! ## Witness -/

/-- A link that turns about the x axis, with a mass of one at distance one below the axis. -/
noncomputable def pendRB : RB := { ballRB .rx with inertia := ⟨1, ⟨0, 0, -1⟩, 1⟩ }

/-- A pendulum. -/
noncomputable def pendulum : Body :=
  { solo .rx with rbs := [{ pendRB with id := 0, idParent := -1 }] }

theorem pendulum_exec (E : Ext) :
    execAll E (Body.init cache0) [.addRigidBody pendRB (-1)] = some pendulum := by
  simp [execAll, Op.exec, Op.step, addRigidBody, Out.map, Out.bind, Body.init, pushSub, pendulum, solo]

theorem pendulum_reach (E : Ext) : ∃ d, Reach E pendulum d := by
  refine reach_execAll _ (Reach.init cache0) ?_ (pendulum_exec E)
  intro op hop
  simp only [List.mem_cons, List.not_mem_nil, or_false] at hop
  subst hop
  exact Iso.valid_one

theorem pendulum_definite : pendulum.Definite := by
  have h0 : ∀ k < pendulum.dof, k = 0 := fun k hk => Nat.lt_one_iff.1 hk
  refine ⟨fun k hk => ?_, fun k hk => ?_, fun k hk v hv => ?_, fun k hk L hL => ?_, fun k hk => ?_⟩
  all_goals first | cases hL | (rw [h0 k hk])
  · show (0 : ℝ) < 1; norm_num
  · exact ball_phys.2.1
  · exact ball_pd v hv
  · intro h
    have := congrArg (fun m : Motion => m.ang.x) h
    simp [pendulum, pendRB, Body.rb, ballRB, mkJoint, JType.subspace] at this

theorem pendulum_axes : pendulum.AxesOK := by
  intro k hk
  have h0 : k = 0 := Nat.lt_one_iff.1 hk
  subst h0
  rfl

theorem positionQ_twAt (h : Reach E b d) (u : ℕ → ℝ) : ∀ k < b.dof, ∀ x, b.positionQ u k x =
    .ok ((b.twAt u k).app x) := by
  intro k hk x
  obtain ⟨X, hX⟩ := linkPose_exists h.inv.tree u k hk
  rw [C17_position_q h (i := k) ⟨hk, Or.inl rfl⟩ hX x, hX.twAt h.inv.tree hk]

theorem pendulum_potential (u : ℕ → ℝ) :
    pendulum.potential (fun k x => (pendulum.twAt u k).app x) = -(9.81 * Real.cos (u 0)) := by
  obtain ⟨d, h⟩ := pendulum_reach ext0
  have h1 : pendulum.LinkPose u 0 ((pendulum.rb 0).T * (pendulum.rb 0).joint.type.Tjoint (u 0)) :=
    .root (by show (-1 : ℤ) < 0; norm_num)
  have h2 := h1.twAt h.inv.tree Nat.one_pos
  unfold Body.potential
  show -∑ k ∈ Finset.range 1, _ = _
  rw [Finset.sum_range_one]
  have h3 : pendulum.parts 0 = [⟨1, ⟨0, 0, -1⟩, 1⟩] := rfl
  rw [h3]
  simp only [List.map_cons, List.map_nil, List.sum_cons, List.sum_nil, h2]
  have e1 : pendulum.T0 = 1 := rfl
  have e2 : (pendulum.rb 0).T = 1 := rfl
  have e3 : (pendulum.rb 0).joint.type = .rx := rfl
  have e4 : pendulum.g = ⟨0, 0, -9.81⟩ := rfl
  rw [e1, e2, e3, e4]
  simp [Iso.app, JType.Tjoint, Mat3.mulVec, Vec3.dot]

/-- The hypotheses hold for the pendulum hanging down, without torques. -/
example (E : Ext) : ∃ d, ∃ P : (ℕ → ℝ) → ℕ → Vec3 → Vec3, Reach E pendulum d ∧ pendulum.Definite ∧
    pendulum.AxesOK ∧ pendulum.T0.R.mulVec pendulum.g = pendulum.g ∧ [0].length = pendulum.dof ∧
    (∀ u, ∀ k < pendulum.dof, ∀ x, pendulum.positionQ u k x = .ok (P u k x)) ∧
    ∀ u : ℕ → ℝ, (∀ i < pendulum.dof, |u i - ([0] : List ℝ).getD i 0| ≤ 1) →
      (∃ i < pendulum.dof, u i ≠ ([0] : List ℝ).getD i 0) →
      pendulum.potential (P fun i => ([0] : List ℝ).getD i 0) -
          ∑ i ∈ Finset.range pendulum.dof, 0 * ([0] : List ℝ).getD i 0 <
        pendulum.potential (P u) - ∑ i ∈ Finset.range pendulum.dof, 0 * u i := by
  obtain ⟨d, h⟩ := pendulum_reach E
  refine ⟨d, fun u k x => (pendulum.twAt u k).app x, h, pendulum_definite, pendulum_axes,
    Mat3.one_mulVec _, rfl, fun u => positionQ_twAt h u, fun u h1 h2 => ?_⟩
  obtain ⟨i, hi, hne⟩ := h2
  have h0 : i = 0 := Nat.lt_one_iff.1 hi
  subst h0
  have hb := h1 0 Nat.one_pos
  simp only [pendulum_potential, zero_mul, Finset.sum_const_zero, sub_zero, List.getD_cons_zero,
    Real.cos_zero] at hne hb ⊢
  have hc : Real.cos (u 0) < 1 := by
    refine lt_of_le_of_ne (Real.cos_le_one _) fun hc => hne ?_
    have hpi := Real.two_le_pi
    obtain ⟨a, b⟩ := abs_le.1 hb
    exact (Real.cos_eq_one_iff_of_lt_of_lt (by linarith) (by linarith)).1 hc
  linarith

end SpatialDyn
