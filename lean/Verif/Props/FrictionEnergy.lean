import Verif.Props.Equilibrium
import Verif.Props.Friction
import Verif.Props.Sliding

/-! # Property C140: what friction does to the energy -/

namespace SpatialDyn
open Finset Body Set OneStep
open Sys (signum frictionJoint)

variable {E : Ext} {b : Body} {d : Bool}

/-- `(q, dq)` is a motion of `b` during `[0, T]`, followed forwards in time: positions and velocities
are continuous, and at every time their rates from then on are the velocities and the accelerations
answered by the body in that state (`set_q`, `set_dq`).  Joints may come to rest and start again. -/
def Body.MovesOn (E : Ext) (b : Body) (tau : ℕ → ℝ) (fext : FExt) (o : IntOpts) (T : ℝ)
    (q dq : ℝ → List ℝ) : Prop :=
  (∀ i < b.dof, ContinuousOn (fun s => (q s).getD i 0) (Icc 0 T) ∧
    ContinuousOn (fun s => (dq s).getD i 0) (Icc 0 T)) ∧
  ∀ t ∈ Icc 0 T, ∃ b1 B, b.setQ (q t) = .ok b1 ∧ b1.setDq (dq t) = .ok B ∧ (t < T → ∀ i < b.dof,
    HasDerivWithinAt (fun s => (q s).getD i 0) ((dq t).getD i 0) (Ici t) t ∧
    HasDerivWithinAt (fun s => (dq s).getD i 0) (B.acceleration E tau fext o i) (Ici t) t)

/-- Kinetic energy from `Inertia` plus potential energy from `Position`. -/
def Body.EnergyIs (b : Body) (e : ℝ) : Prop :=
  ∃ P : ℕ → Vec3 → Vec3, (∀ k < b.dof, ∀ x, (b.position k x).map Prod.fst = .ok (P k x)) ∧
    e = 1 / 2 * (∑ i ∈ range b.dof, ∑ j ∈ range b.dof,
      b.dq.getD i 0 * b.inertia.1 i j * b.dq.getD j 0) + b.potential P

/-- Torques left over after gravity and velocity products, which friction resists. -/
noncomputable def Body.net (b : Body) (tau : ℕ → ℝ) (eps : ℝ) : ℕ → ℝ := fun i =>
  tau i - (b.inverseDynamics (fun _ => 0) (fun _ => none) ⟨true, true, false, eps⟩).1 i

theorem moves_on {tau : ℕ → ℝ} {fext : FExt} {o : IntOpts} {T : ℝ} {q dq : ℝ → List ℝ}
    (hM : b.Moves E tau fext o T q dq) : b.MovesOn E tau fext o T q dq := by
  refine ⟨fun i hi => ⟨fun t ht => ?_, fun t ht => ?_⟩, fun t ht => ?_⟩
  · obtain ⟨b1, B, h1, h2, h3⟩ := hM t ht
    exact (h3 i hi).1.continuousWithinAt
  · obtain ⟨b1, B, h1, h2, h3⟩ := hM t ht
    exact (h3 i hi).2.continuousWithinAt
  · obtain ⟨b1, B, h1, h2, h3⟩ := hM t ht
    exact ⟨b1, B, h1, h2, fun hlt i hi =>
      ⟨within_right ⟨ht.1, hlt⟩ (h3 i hi).1, within_right ⟨ht.1, hlt⟩ (h3 i hi).2⟩⟩

/-- Friction acts as torques against the motion. -/
theorem fric_acc (h : Reach E b d) (hd : b.Definite) {y : State b.dof} {B : Body} {d' : Bool}
    (hB : Reach E B d') (hA : AtState E b y B) (tau : ℕ → ℝ) {o : IntOpts} (hf : o.friction = true)
    (hcc : o.cc = true) (hg : o.gravity = true) (ha : o.aba = false) :
    (fun i : Fin b.dof => B.acceleration E tau (fun _ => none) o i) =
      b.accAt b.g (fun i => tau i - B.friction (B.net tau o.eps) false o.eps i) (fun _ => none) true true y := by
  have hn : B.dof = b.dof := hA.dof
  have hD := hA.only.definite hd
  have hm := hD.massive hB.inv.tree
  have hv : B.vel = padFin y.2 := by
    unfold Body.vel; rw [hA.dq, getD_ofFn_pad]
  have hp : B.pos = padFin y.1 := by
    unfold Body.pos; rw [hA.q, getD_ofFn_pad]
  have hfr : B.fresh = b.sysAt (padFin y.1) (padFin y.2) := by
    rw [hA.only.fresh, hp, hv]
  funext i
  have hi : (i : ℕ) < B.dof := by rw [hn]; exact i.2
  have key := Sys.solve_unique (n := B.dof) (A := B.fresh.massSpec)
    (x := B.acceleration E tau (fun _ => none) o)
    (y := padFin (b.accAt b.g (fun i => tau i - B.friction (B.net tau o.eps) false o.eps i)
      (fun _ => none) true true y)) (fresh_det hB hm (hD.form hB)) (fun k hk => ?_) i hi
  · rw [key, pad_at]
  · have e2 := accAt_solves h hd b.g (fun i => tau i - B.friction (B.net tau o.eps) false o.eps i)
      (fun _ => none) true true y (i := k) (by rw [← hn]; exact hk)
    have e1 := fd_solves hB hm (hD.form hB) tau (fun _ => none)
      ⟨o.gravity, o.cc, o.friction, o.eps⟩ k hk
    unfold Body.acceleration
    rw [ha]
    simp only [Bool.false_eq_true, if_false]
    rw [e1]
    have e2' : ∑ j ∈ range B.dof, B.fresh.massSpec k j *
        padFin (b.accAt b.g (fun i => tau i - B.friction (B.net tau o.eps) false o.eps i)
          (fun _ => none) true true y) j = tau k - B.friction (B.net tau o.eps) false o.eps k -
          ((b.setG b.g).sysAt (padFin y.1) (padFin y.2)).idSpec (fun _ => 0) (fun _ => none) true true k := by
      rw [hn, hfr]; exact e2
    rw [e2']
    unfold Sys.fdRhs
    simp only [hf, if_true, hcc, hg]
    have e3 : ((b.setG b.g).sysAt (padFin y.1) (padFin y.2)) = B.fresh := hfr.symm
    rw [e3]
    have e4 : ∀ j < B.dof, B.net tau o.eps j =
        tau j - B.fresh.idSpec (fun _ => 0) (fun _ => none) true true j := by
      intro j hj
      have e := inverseDynamics_val hB.inv hm.symI (hm.posMass hB.inv.tree) (fun _ => 0)
        (fun _ => none) ⟨true, true, false, o.eps⟩ j hj
      unfold Sys.addFriction at e
      simp only [Bool.false_eq_true, if_false] at e
      unfold Body.net
      rw [e]
    have e5 : B.fresh.friction (fun i => tau i - B.fresh.idSpec (fun _ => 0) (fun _ => none) true true i)
        false o.eps k = B.friction (B.net tau o.eps) false o.eps k := by
      show frictionJoint _ _ _ _ _ = frictionJoint _ _ _ _ _
      rw [e4 k hk]
      rfl
    rw [e5]
    ring

theorem fric_rate (h : Reach E b d) (hd : b.Definite) (hx : b.AxesOK) {y : State b.dof} {B : Body}
    {d' : Bool} (hB : Reach E B d') (hA : AtState E b y B) (tau : ℕ → ℝ) {o : IntOpts}
    (hf : o.friction = true) (hcc : o.cc = true) (hg : o.gravity = true) (ha : o.aba = false) :
    fderiv ℝ b.total y (y.2, fun i : Fin b.dof => B.acceleration E tau (fun _ => none) o i) =
      ∑ i ∈ range b.dof, B.vel i * (tau i - B.friction (B.net tau o.eps) false o.eps i) := by
  rw [fric_acc h hd hB hA tau hf hcc hg ha, total_rate h hd hx]
  have hv : B.vel = padFin y.2 := by
    unfold Body.vel; rw [hA.dq, getD_ofFn_pad]
  simp [hv]

/-- Power that friction takes from one joint. -/
theorem fric_power (B : Body) (t : ℕ → ℝ) {eps : ℝ} (heps : 0 ≤ eps) {i : ℕ} {c v s : ℝ}
    (hc : Coef (B.rb i).joint c v s) (hok : c ≠ 0 ∨ s = 0) :
    |B.vel i * B.friction t false eps i - (v * B.vel i ^ 2 + c * |B.vel i|)| ≤ eps * (2 * c + s) ∧
    v * B.vel i ^ 2 - eps * (c + s) ≤ B.vel i * B.friction t false eps i := by
  have hc0 := hc.c0
  have hs0 := hc.s0
  by_cases hq : Slow (B.vel i) eps
  · obtain ⟨-, h2, -⟩ := C32_rest_bounds t hc hq
    set w := B.vel i
    set F := B.friction t false eps i
    have hw : |w| ≤ eps := hq
    have e1 : w * F = v * w ^ 2 + w * (F - v * w) := by ring
    have e2 : |w * (F - v * w)| ≤ eps * (c + s) := by
      rw [abs_mul]
      exact mul_le_mul hw h2 (abs_nonneg _) heps
    have e3 : c * |w| ≤ eps * c := by nlinarith
    have e4 : 0 ≤ c * |w| := mul_nonneg hc0 (abs_nonneg _)
    obtain ⟨e5, e6⟩ := abs_le.1 e2
    refine ⟨abs_le.2 ⟨?_, ?_⟩, ?_⟩ <;> rw [e1] <;> nlinarith
  · have e : B.vel i * B.friction t false eps i = v * B.vel i ^ 2 + c * |B.vel i| := by
      rcases hc0.eq_or_lt with h0 | h0
      · have hs : s = 0 := hok.resolve_left fun hne => hne h0.symm
        rw [friction_joint B t false eps i hc, ← h0, hs]
        have : min 0 |t i| = 0 := min_eq_left (abs_nonneg _)
        simp [frictionJoint, this]
        ring
      · exact (C32_moving_partial t false hc heps hq h0).1
    have h1 : 0 ≤ eps * (2 * c + s) := by positivity
    have h2 : 0 ≤ eps * (c + s) := by positivity
    have h3 : 0 ≤ c * |B.vel i| := mul_nonneg hc0 (abs_nonneg _)
    rw [e, sub_self, abs_zero]
    exact ⟨h1, by linarith⟩

theorem energyIs_at {y : State b.dof} {B : Body} (hA : AtState E b y B) (hm : b.Massive) {e : ℝ}
    (he : B.EnergyIs e) : e = b.total y := by
  obtain ⟨P, hP, rfl⟩ := he
  have hn : B.dof = b.dof := hA.dof
  rw [← hA.energy hm (P := P) (by rw [← hn]; exact hP), hn]
  congr 1
  unfold Body.potential Body.parts
  rw [hn, hA.rb, hA.only.load, hA.only.g]

/-- State of a motion followed forwards, and its rate. -/
theorem movesOn_state (h : Reach E b d) {tau : ℕ → ℝ} {fext : FExt} {o : IntOpts} {T : ℝ}
    {q dq : ℝ → List ℝ} (hM : b.MovesOn E tau fext o T q dq) {t : ℝ} (ht : t ∈ Ico 0 T) {B : Body}
    (hB : ∃ b1, b.setQ (q t) = .ok b1 ∧ b1.setDq (dq t) = .ok B) :
    HasDerivWithinAt (stateOf b q dq)
      ((stateOf b q dq t).2, fun i : Fin b.dof => B.acceleration E tau fext o i) (Ici t) t := by
  obtain ⟨b1, h1, h2⟩ := hB
  obtain ⟨b1', B', h1', h2', h3⟩ := hM.2 t ⟨ht.1, ht.2.le⟩
  rw [h1] at h1'; cases h1'
  rw [h2] at h2'; cases h2'
  exact HasDerivWithinAt.prodMk (hasDerivWithinAt_pi.2 fun i => (h3 ht.2 i i.2).1)
    (hasDerivWithinAt_pi.2 fun i => (h3 ht.2 i i.2).2)

theorem movesOn_continuous {tau : ℕ → ℝ} {fext : FExt} {o : IntOpts} {T : ℝ}
    {q dq : ℝ → List ℝ} (hM : b.MovesOn E tau fext o T q dq) :
    ContinuousOn (stateOf b q dq) (Icc 0 T) :=
  ContinuousOn.prodMk (continuousOn_pi.2 fun i => (hM.1 i i.2).1)
    (continuousOn_pi.2 fun i => (hM.1 i i.2).2)

/-- C140: the energy changes at the rate of the power of the torques less that of the friction. -/
theorem C140_rate (h : Reach E b d) (hd : b.Definite) (hx : b.AxesOK) (tau : ℕ → ℝ) {o : IntOpts}
    (hf : o.friction = true) (hcc : o.cc = true) (hg : o.gravity = true) (ha : o.aba = false) {T : ℝ}
    {q dq : ℝ → List ℝ} (hM : b.MovesOn E tau (fun _ => none) o T q dq) {e : ℝ → ℝ}
    (he : ∀ t ∈ Icc 0 T, ∀ b1 B, b.setQ (q t) = .ok b1 → b1.setDq (dq t) = .ok B → B.EnergyIs (e t))
    {t : ℝ} (ht : t ∈ Ico 0 T) {b1 B : Body} (h1 : b.setQ (q t) = .ok b1) (h2 : b1.setDq (dq t) = .ok B) :
    HasDerivWithinAt e (∑ i ∈ range b.dof, (dq t).getD i 0 *
      (tau i - B.friction (fun i => tau i - (B.inverseDynamics (fun _ => 0) (fun _ => none)
        ⟨true, true, false, o.eps⟩).1 i) false o.eps i)) (Ici t) t := by
  have hm := hd.massive h.inv.tree
  obtain ⟨hS, hn, -, -, -, d', hB⟩ := h.after_set ⟨b1, h1, h2⟩
  have hA := atState_of_set h h1 h2
  have hs := (total_smooth h).differentiable (by simp)
  have k1 := (hs (stateOf b q dq t)).hasFDerivAt.comp_hasDerivWithinAt t
    (movesOn_state h hM ht ⟨b1, h1, h2⟩)
  have k2 := fric_rate h hd hx hB (y := stateOf b q dq t) hA tau hf hcc hg ha
  rw [k2] at k1
  have hv : ∀ i, B.vel i = (dq t).getD i 0 := fun i => by
    unfold Body.vel; rw [setDq_dq h2]
  simp only [hv] at k1
  have hE : ∀ s ∈ Icc 0 T, e s = (b.total ∘ stateOf b q dq) s := by
    intro s hs
    obtain ⟨b2, B2, g1, g2, -⟩ := hM.2 s hs
    exact energyIs_at (atState_of_set h g1 g2) hm (he s hs b2 B2 g1 g2)
  refine k1.congr_of_eventuallyEq ?_ (hE t ⟨ht.1, ht.2.le⟩)
  filter_upwards [Icc_mem_nhdsGE ht.2] with s hs
  exact hE s ⟨ht.1.trans hs.1, hs.2⟩

theorem energy_continuous (h : Reach E b d) (hd : b.Definite) {tau : ℕ → ℝ} {o : IntOpts} {T : ℝ}
    {q dq : ℝ → List ℝ} (hM : b.MovesOn E tau (fun _ => none) o T q dq) {e : ℝ → ℝ}
    (he : ∀ t ∈ Icc 0 T, ∀ b1 B, b.setQ (q t) = .ok b1 → b1.setDq (dq t) = .ok B → B.EnergyIs (e t)) :
    ContinuousOn e (Icc 0 T) := by
  have hm := hd.massive h.inv.tree
  refine ((total_smooth h).continuous.comp_continuousOn (movesOn_continuous hM)).congr fun s hs => ?_
  obtain ⟨b2, B2, g1, g2, -⟩ := hM.2 s hs
  exact energyIs_at (atState_of_set h g1 g2) hm (he s hs b2 B2 g1 g2)

theorem work_rate {tau : ℕ → ℝ} {o : IntOpts} {T : ℝ} {q dq : ℝ → List ℝ}
    (hM : b.MovesOn E tau (fun _ => none) o T q dq) :
    ContinuousOn (fun t => ∑ i ∈ range b.dof, tau i * (q t).getD i 0) (Icc 0 T) ∧
    ∀ t ∈ Ico 0 T, HasDerivWithinAt (fun t => ∑ i ∈ range b.dof, tau i * (q t).getD i 0)
      (∑ i ∈ range b.dof, tau i * (dq t).getD i 0) (Ici t) t := by
  refine ⟨continuousOn_finset_sum _ fun i hi =>
    continuousOn_const.mul (hM.1 i (Finset.mem_range.1 hi)).1, fun t ht => ?_⟩
  obtain ⟨b1, B, h1, h2, h3⟩ := hM.2 t ⟨ht.1, ht.2.le⟩
  exact HasDerivWithinAt.fun_sum fun i hi => ((h3 ht.2 i (Finset.mem_range.1 hi)).1).const_mul (tau i)

theorem energyIs_exists (h : Inv E b) : ∃ e, b.EnergyIs e := by
  refine ⟨_, fun k x => (b.freshTw k).app x, fun k hk x => ?_, rfl⟩
  have hk' : b.LinkIdx (k : ℕ) k := ⟨hk, Or.inl rfl⟩
  unfold Body.position
  rw [hk'.index]
  show Out.ok _ = _
  rw [h.viewTw k hk]

/-- C140: where every joint that has stiction has Coulomb friction as well, the energy lost is the work
done against the torques, plus the viscous and the Coulomb friction on the way, up to an error from
joints slower than the threshold, and exactly if the threshold is zero.  `D` is the friction loss so
far.  Missing: joints with stiction only, where the claim is false (`C140_violated`). -/
theorem C140_loss_partial (h : Reach E b d) (hd : b.Definite) (hx : b.AxesOK) (tau : ℕ → ℝ) {o : IntOpts}
    (hf : o.friction = true) (hcc : o.cc = true) (hg : o.gravity = true) (ha : o.aba = false)
    (heps : 0 ≤ o.eps) {c v s : ℕ → ℝ} (hc : ∀ i < b.dof, Coef (b.rb i).joint (c i) (v i) (s i))
    (hok : ∀ i < b.dof, c i ≠ 0 ∨ s i = 0) {T : ℝ} {q dq : ℝ → List ℝ}
    (hM : b.MovesOn E tau (fun _ => none) o T q dq) {e D : ℝ → ℝ}
    (he : ∀ t ∈ Icc 0 T, ∀ b1 B, b.setQ (q t) = .ok b1 → b1.setDq (dq t) = .ok B → B.EnergyIs (e t))
    (hD : ContinuousOn D (Icc 0 T)) (hD' : ∀ t ∈ Ico 0 T, HasDerivWithinAt D
      (∑ i ∈ range b.dof, (v i * (dq t).getD i 0 ^ 2 + c i * |(dq t).getD i 0|)) (Ici t) t) :
    ∀ t ∈ Icc 0 T, |e t + (D t - D 0) - (e 0 +
      ∑ i ∈ range b.dof, tau i * ((q t).getD i 0 - (q 0).getD i 0))| ≤
        o.eps * (∑ i ∈ range b.dof, (2 * c i + s i)) * t := by
  obtain ⟨w1, w2⟩ := work_rate hM
  have hcont := ((energy_continuous h hd hM he).add hD).sub w1
  intro t ht
  have key := norm_image_sub_le_of_norm_deriv_right_le_segment
    (f' := fun t => (derivWithin e (Ici t) t + ∑ i ∈ range b.dof,
      (v i * (dq t).getD i 0 ^ 2 + c i * |(dq t).getD i 0|)) - ∑ i ∈ range b.dof, tau i * (dq t).getD i 0)
    (C := o.eps * ∑ i ∈ range b.dof, (2 * c i + s i)) hcont (fun t ht => ?_) (fun t ht => ?_) t ht
  · simp only [Pi.add_apply, Pi.sub_apply, Real.norm_eq_abs, sub_zero] at key
    refine le_trans (le_of_eq ?_) key
    congr 1
    simp only [mul_sub, Finset.sum_sub_distrib]
    ring
  · obtain ⟨b1, B, h1, h2, -⟩ := hM.2 t ⟨ht.1, ht.2.le⟩
    have k := C140_rate h hd hx tau hf hcc hg ha hM he ht h1 h2
    rw [k.derivWithin (uniqueDiffOn_Ici t t self_mem_Ici)]
    exact (k.add (hD' t ht)).sub (w2 t ht)
  · obtain ⟨b1, B, h1, h2, -⟩ := hM.2 t ⟨ht.1, ht.2.le⟩
    have k := C140_rate h hd hx tau hf hcc hg ha hM he ht h1 h2
    rw [k.derivWithin (uniqueDiffOn_Ici t t self_mem_Ici), ← Finset.sum_add_distrib,
      ← Finset.sum_sub_distrib, Finset.mul_sum, Real.norm_eq_abs]
    refine (Finset.abs_sum_le_sum_abs _ _).trans (Finset.sum_le_sum fun i hi => ?_)
    have hi := Finset.mem_range.1 hi
    obtain ⟨hS, -⟩ := h.after_set ⟨b1, h1, h2⟩
    have hrb : B.rb = b.rb := (atState_of_set h h1 h2).rb
    have hv : B.vel i = (dq t).getD i 0 := by unfold Body.vel; rw [setDq_dq h2]
    have p := (fric_power B (fun i => tau i - (B.inverseDynamics (fun _ => 0) (fun _ => none)
        ⟨true, true, false, o.eps⟩).1 i) heps (i := i) (by rw [hrb]; exact hc i hi) (hok i hi)).1
    rw [hv] at p
    rw [← abs_neg]
    refine le_trans (le_of_eq ?_) p
    congr 1
    ring

/-- C140: so the energy never grows by more than the work of the torques, the threshold apart.
Missing as in `C140_loss_partial`. -/
theorem C140_no_gain_partial (h : Reach E b d) (hd : b.Definite) (hx : b.AxesOK) (tau : ℕ → ℝ)
    {o : IntOpts} (hf : o.friction = true) (hcc : o.cc = true) (hg : o.gravity = true)
    (ha : o.aba = false) (heps : 0 ≤ o.eps) {c v s : ℕ → ℝ}
    (hc : ∀ i < b.dof, Coef (b.rb i).joint (c i) (v i) (s i))
    (hok : ∀ i < b.dof, c i ≠ 0 ∨ s i = 0) {T : ℝ} {q dq : ℝ → List ℝ}
    (hM : b.MovesOn E tau (fun _ => none) o T q dq) {e : ℝ → ℝ}
    (he : ∀ t ∈ Icc 0 T, ∀ b1 B, b.setQ (q t) = .ok b1 → b1.setDq (dq t) = .ok B → B.EnergyIs (e t)) :
    ∀ t ∈ Icc 0 T, e t ≤ e 0 + ∑ i ∈ range b.dof, tau i * ((q t).getD i 0 - (q 0).getD i 0) +
      o.eps * (∑ i ∈ range b.dof, (c i + s i)) * t := by
  obtain ⟨w1, w2⟩ := work_rate hM
  have hcont := (energy_continuous h hd hM he).sub w1
  intro t ht
  set K := o.eps * ∑ i ∈ range b.dof, (c i + s i) with hK
  have key := image_le_of_deriv_right_le_deriv_boundary
    (f' := fun t => derivWithin e (Ici t) t - ∑ i ∈ range b.dof, tau i * (dq t).getD i 0)
    (B := fun t => (e 0 - ∑ i ∈ range b.dof, tau i * (q 0).getD i 0) + K * t) (B' := fun _ => K)
    hcont (fun t ht => ?_) (by simp) (by fun_prop) (fun t ht => ?_) (fun t ht => ?_) ht
  · simp only [Pi.sub_apply] at key
    simp only [mul_sub, Finset.sum_sub_distrib]
    linarith
  · obtain ⟨b1, B, h1, h2, -⟩ := hM.2 t ⟨ht.1, ht.2.le⟩
    have k := C140_rate h hd hx tau hf hcc hg ha hM he ht h1 h2
    rw [k.derivWithin (uniqueDiffOn_Ici t t self_mem_Ici)]
    exact k.sub (w2 t ht)
  · have := ((hasDerivAt_id t).const_mul K).const_add (e 0 - ∑ i ∈ range b.dof, tau i * (q 0).getD i 0)
    simpa using this.hasDerivWithinAt
  · obtain ⟨b1, B, h1, h2, -⟩ := hM.2 t ⟨ht.1, ht.2.le⟩
    have k := C140_rate h hd hx tau hf hcc hg ha hM he ht h1 h2
    rw [k.derivWithin (uniqueDiffOn_Ici t t self_mem_Ici), ← Finset.sum_sub_distrib, hK, Finset.mul_sum]
    refine Finset.sum_le_sum fun i hi => ?_
    have hi := Finset.mem_range.1 hi
    have hrb : B.rb = b.rb := (atState_of_set h h1 h2).rb
    have hv : B.vel i = (dq t).getD i 0 := by unfold Body.vel; rw [setDq_dq h2]
    have hci := hc i hi
    have p := (fric_power B (fun i => tau i - (B.inverseDynamics (fun _ => 0) (fun _ => none)
        ⟨true, true, false, o.eps⟩).1 i) heps (i := i) (by rw [hrb]; exact hci) (hok i hi)).2
    rw [hv] at p
    have : 0 ≤ v i * (dq t).getD i 0 ^ 2 := mul_nonneg hci.v0 (sq_nonneg _)
    nlinarith

/-! ## Stiction without Coulomb friction -/

theorem slow_or_none (B : Body) (t : ℕ → ℝ) (eps : ℝ) {i : ℕ} {s : ℝ}
    (hc : Coef (B.rb i).joint 0 0 s) (hle : |t i| ≤ s) : B.friction t false eps i = t i := by
  rw [friction_joint B t false eps i hc]
  unfold frictionJoint
  simp only [zero_mul, if_true, zero_add, Bool.not_false]
  rw [signum_zero, min_eq_right hle]
  rcases lt_trichotomy (t i) 0 with h | h | h
  · rw [abs_of_neg h, if_neg (not_lt.2 h.le), if_pos h]; ring
  · simp [h]
  · rw [abs_of_pos h, if_pos h]; ring

/-- A sliding robot needs, for no acceleration, the torques against gravity, in every state. -/
theorem glide_id (h : Reach E b d) (hs : b.Sliding) (hx : b.AxesOK) (cc : Bool) (u w : ℕ → ℝ) {i : ℕ}
    (hi : i < b.dof) :
    (b.sysAt u w).idSpec (fun _ => 0) (fun _ => none) cc true i = b.gravity.1 i := by
  have e1 : (b.sysAt u w).extSpec (fun _ => none) i = 0 := by
    unfold Sys.extSpec Sys.genForce
    rw [neg_eq_zero]
    refine Finset.sum_eq_zero fun k hk => ?_
    simp [Motion.dot]
  unfold Sys.idSpec
  rw [e1, hs.coriolis hx h.inv.tree, (gravity_run h.inv).2 i hi, fresh_eq_sysAt,
    hs.weight hx h.inv.tree h.inv.rigid u w b.pos b.vel]
  simp

/-- Vector field of a sliding robot whose stiction exceeds the driving torques. -/
theorem glide_field (h : Reach E b d) (hD : b.Definite) (hs : b.Sliding) (hx : b.AxesOK)
    (tau : ℕ → ℝ) (o : IntOpts) (hf : o.friction = true) (ha : o.aba = false) {s : ℕ → ℝ}
    (hc : ∀ i < b.dof, Coef (b.rb i).joint 0 0 (s i)) (hg : o.gravity = true)
    (hle : ∀ i < b.dof, |tau i - b.gravity.1 i| ≤ s i) (y : State b.dof) :
    b.field E cache0 tau (fun _ => none) o y = (y.2, 0) := by
  obtain ⟨B, d', hB, hA, hfr⟩ := exists_at h y
  have hm := hD.massive h.inv.tree
  have hDB := hA.only.definite hD
  have hmB := hDB.massive hB.inv.tree
  have hn : B.dof = b.dof := hA.dof
  refine Prod.ext rfl (funext fun i => ?_)
  rw [← (hA.accel h.inv hm.symI (hm.posMass h.inv.tree) cache0_clear tau (fun _ => none) o).1 i]
  unfold Body.accel
  rw [ha]
  simp only [Bool.false_eq_true, if_false]
  refine Sys.solve_unique (y := fun _ => 0) (fresh_det hB hmB (hDB.form hB)) (fun k hk => ?_) i
    (by rw [hn]; exact i.2)
  rw [fd_solves hB hmB (hDB.form hB) _ _ _ k hk]
  simp only [mul_zero, sum_const_zero]
  have hk' : k < b.dof := by rw [← hn]; exact hk
  have e1 : B.fresh.idSpec (fun _ => 0) (fun _ => none) o.cc o.gravity k = b.gravity.1 k := by
    rw [hfr, hg]
    exact glide_id h hs hx o.cc _ _ hk'
  have e2 : B.fresh.friction (fun i => tau i - B.fresh.idSpec (fun _ => 0) (fun _ => none) o.cc o.gravity i)
      false o.eps k = _ :=
    slow_or_none B (fun i => tau i - B.fresh.idSpec (fun _ => 0) (fun _ => none) o.cc o.gravity i) o.eps
      (by rw [hA.rb]; exact hc k hk') (by rw [e1]; exact hle k hk')
  unfold Sys.fdRhs IntOpts.fd
  simp only [hf, if_true]
  rw [e2, sub_self]

/-- Along a straight line of states of a sliding robot the energy grows at a constant rate. -/
theorem glide_energy (h : Reach E b d) (hD : b.Definite) (hs : b.Sliding) (hx : b.AxesOK)
    (y : State b.dof) (t : ℝ) : b.total (y.1 + t • y.2, y.2) =
      b.total y + t * ∑ i ∈ range b.dof, b.gravity.1 i * padFin y.2 i := by
  set K := ∑ i ∈ range b.dof, b.gravity.1 i * padFin y.2 i
  have hacc : ∀ z : State b.dof, b.accAt b.g b.gravity.1 (fun _ => none) true true z = 0 := by
    intro z
    unfold accAt
    have : vec b.dof b.gravity.1 - vec b.dof (((b.setG b.g).sysAt (padFin z.1) (padFin z.2)).idSpec
        (fun _ => 0) (fun _ => none) true true) = 0 := by
      funext i
      show b.gravity.1 i - (b.sysAt (padFin z.1) (padFin z.2)).idSpec _ _ _ _ i = 0
      rw [glide_id h hs hx true _ _ i.2, sub_self]
    rw [this, Matrix.mulVec_zero]
  have hder : ∀ t, HasDerivAt (fun t : ℝ => b.total (y.1 + t • y.2, y.2) - t * K) 0 t := by
    intro t
    have h1 : HasDerivAt (fun t : ℝ => ((y.1 + t • y.2, y.2) : State b.dof)) (y.2, 0) t := by
      have := (((hasDerivAt_id t).smul_const y.2).const_add y.1).prodMk (hasDerivAt_const t y.2)
      simpa using this
    have h2 := ((total_smooth h).differentiable (by simp) (y.1 + t • y.2, y.2)).hasFDerivAt.comp_hasDerivAt t h1
    have h3 := total_rate h hD hx b.gravity.1 (fun _ => none) (y.1 + t • y.2, y.2)
    rw [hacc] at h3
    simp only at h3
    rw [h3] at h2
    refine (h2.sub ((hasDerivAt_id t).mul_const K)).congr_deriv ?_
    simp only [Option.getD_none, Motion.dot_zero, Finset.sum_const_zero, add_zero, one_mul]
    rw [sub_eq_zero]
    exact Finset.sum_congr rfl fun i _ => mul_comm _ _
  have := is_const_of_deriv_eq_zero (fun t => (hder t).differentiableAt) (fun t => (hder t).deriv) t 0
  simp only [zero_smul, add_zero, zero_mul, sub_zero] at this
  linarith

/-- C140 is false of joints with stiction and without Coulomb friction, which is what the attribute
`friction` of a URDF file gives: on every sliding robot of such joints, if the stiction is larger than
the torques to be resisted, every velocity lasts for ever, with every method, step and threshold.  So
the robot can rise without any work done on it, at constant speed, its energy growing without bound. -/
theorem C140_violated (h : Reach E b d) (hD : b.Definite) (hs : b.Sliding) (hx : b.AxesOK)
    (tau : ℕ → ℝ) (dt : ℝ) (o : IntOpts) (hf : o.friction = true) (ha : o.aba = false)
    (hg : o.gravity = true) (hl : o.jointLimits = false) {s : ℕ → ℝ}
    (hc : ∀ i < b.dof, Coef (b.rb i).joint 0 0 (s i))
    (hle : ∀ i < b.dof, |tau i - b.gravity.1 i| ≤ s i) (n : ℕ) :
    ∃ b', steps E tau dt (fun _ => none) o n b = .ok b' ∧
      (∀ i < b.dof, b'.q.getD i 0 = b.q.getD i 0 + n * dt * b.dq.getD i 0 ∧
        b'.dq.getD i 0 = b.dq.getD i 0) ∧
      ∀ e e', b.EnergyIs e → b'.EnergyIs e' →
        e' = e + n * dt * ∑ i ∈ range b.dof, b.gravity.1 i * b.dq.getD i 0 := by
  have hm := hD.massive h.inv.tree
  obtain ⟨b', h1, h2⟩ := steps_scheme h hm cache0_clear tau dt (fun _ => none) o hl n
  rw [scheme_const_iter o.method _ (glide_field h hD hs hx tau o hf ha hc hg hle)] at h2
  simp only [smul_zero, add_zero] at h2
  refine ⟨b', h1, fun i hi => ?_, fun e e' he he' => ?_⟩
  · have g1 := congrArg (fun l => l.getD i 0) h2.q
    have g2 := congrArg (fun l => l.getD i 0) h2.dq
    have k1 := getD_ofFn (b.state.1 + (n * dt) • b.state.2) ⟨i, hi⟩
    have k2 := getD_ofFn b.state.2 ⟨i, hi⟩
    simp only at g1 g2 k1 k2
    rw [g1, g2, k1, k2]
    exact ⟨rfl, rfl⟩
  · rw [energyIs_at h2 hm he', energyIs_at (atState_self h.inv) hm he, glide_energy h hD hs hx]
    congr 2
    refine Finset.sum_congr rfl fun i hi => ?_
    rw [show padFin b.state.2 i = b.dq.getD i 0 from pad_at b.state.2 ⟨i, Finset.mem_range.1 hi⟩]

/-- A curve along which a function hardly grows stays near a strict minimum of it. -/
theorem stay_close {V : Type*} [NormedAddCommGroup V] [NormedSpace ℝ V] [ProperSpace V] {f : V → ℝ}
    (hf : Continuous f) {y0 : V} {r : ℝ} (hr : 0 < r) (hmin : ∀ y, ‖y - y0‖ ≤ r → y ≠ y0 → f y0 < f y)
    {ε : ℝ} (hε : 0 < ε) : ∃ δ > 0, ∀ (T : ℝ) (Y : ℝ → V), ContinuousOn Y (Icc 0 T) →
      (∀ t ∈ Icc 0 T, f (Y t) ≤ f (Y 0) + δ) → ‖Y 0 - y0‖ ≤ δ → ∀ t ∈ Icc 0 T, ‖Y t - y0‖ ≤ ε := by
  set e := min ε r with he
  have he0 : 0 < e := lt_min hε hr
  have hS : IsCompact (Metric.sphere y0 e) := isCompact_sphere y0 e
  obtain ⟨m, hm0, hm⟩ : ∃ m, f y0 < m ∧ ∀ y ∈ Metric.sphere y0 e, m ≤ f y := by
    rcases (Metric.sphere y0 e).eq_empty_or_nonempty with hE | hne
    · exact ⟨f y0 + 1, by linarith, fun y hy => by rw [hE] at hy; exact hy.elim⟩
    · obtain ⟨z, hz, hz'⟩ := hS.exists_isMinOn hne hf.continuousOn
      have hz1 : ‖z - y0‖ = e := by rwa [← dist_eq_norm]
      refine ⟨f z, hmin z (by rw [hz1]; exact min_le_right _ _) ?_, fun y hy => hz' hy⟩
      rintro rfl
      simp at hz1
      exact he0.ne hz1
  obtain ⟨δ, hδ, hball⟩ := Metric.eventually_nhds_iff.1 (hf.continuousAt.eventually
    (gt_mem_nhds (show f y0 < f y0 + (m - f y0) / 2 by linarith)))
  refine ⟨min (min (δ / 2) (e / 2)) ((m - f y0) / 2), lt_min (by positivity) (by linarith),
    fun T Y hY hfY h0 t ht => ?_⟩
  have h0' := h0.trans (min_le_left _ _)
  have hlow : f (Y 0) < f y0 + (m - f y0) / 2 := hball (by
    rw [dist_eq_norm]
    exact (h0'.trans (min_le_left _ _)).trans_lt (by linarith))
  by_contra hcon
  have hgt : e < ‖Y t - y0‖ := lt_of_le_of_lt (min_le_left _ _) (not_le.1 hcon)
  have hlt : ‖Y 0 - y0‖ < e := (h0'.trans (min_le_right _ _)).trans_lt (by linarith)
  have hc : ContinuousOn (fun s => ‖Y s - y0‖) (Icc 0 t) :=
    ((hY.mono (Icc_subset_Icc le_rfl ht.2)).sub continuousOn_const).norm
  obtain ⟨s, hs, hse⟩ := intermediate_value_Icc ht.1 hc ⟨hlt.le, hgt.le⟩
  have h1 := hm (Y s) (by rw [Metric.mem_sphere, dist_eq_norm]; exact hse)
  have h2 := hfY s ⟨hs.1, hs.2.trans ht.2⟩
  have h3 : min (min (δ / 2) (e / 2)) ((m - f y0) / 2) ≤ (m - f y0) / 2 := min_le_right _ _
  linarith

/-- C140: friction does not unsettle a robot.  Where the potential energy, less the work of the torques,
has a strict local minimum, for every `ε` there is a `δ` such that every motion with friction that starts
within `δ` of the place at speeds within `δ` stays within `ε` of it, for as long as the activation speed
times the friction torques times the duration is at most `δ` (for activation speed zero: forever).
Missing, because false: joints with stiction only. -/
theorem C140_stable_partial (h : Reach E b d) (hd : b.Definite) (hx : b.AxesOK) (tau : ℕ → ℝ)
    (gr : Method) {c v s : ℕ → ℝ} (hc : ∀ i < b.dof, Coef (b.rb i).joint (c i) (v i) (s i))
    (hok : ∀ i < b.dof, c i ≠ 0 ∨ s i = 0) {q0 : List ℝ} (hl0 : q0.length = b.dof)
    {P : (ℕ → ℝ) → ℕ → Vec3 → Vec3}
    (hP : ∀ u, ∀ k < b.dof, ∀ x, b.positionQ u k x = .ok (P u k x)) {r : ℝ} (hr : 0 < r)
    (hmin : ∀ u : ℕ → ℝ, (∀ i < b.dof, |u i - q0.getD i 0| ≤ r) → (∃ i < b.dof, u i ≠ q0.getD i 0) →
      b.potential (P fun i => q0.getD i 0) - ∑ i ∈ Finset.range b.dof, tau i * q0.getD i 0 <
        b.potential (P u) - ∑ i ∈ Finset.range b.dof, tau i * u i) {ε : ℝ} (hε : 0 < ε) :
    ∃ δ > 0, ∀ (T eps : ℝ) q dq, 0 ≤ eps → eps * (∑ i ∈ range b.dof, (c i + s i)) * T ≤ δ →
      b.MovesOn E tau (fun _ => none) ⟨true, true, true, false, gr, false, eps⟩ T q dq →
      Near b.dof q0 (q 0) (dq 0) δ → ∀ t ∈ Icc 0 T, Near b.dof q0 (q t) (dq t) ε := by
  have hm := hd.massive h.inv.tree
  obtain ⟨δ, hδ, key⟩ := stay_close (worked_continuous h tau)
    (y0 := ((vecOf b.dof q0, 0) : State b.dof)) hr
    (fun y hy hne => worked_min h hd tau hl0 hP hmin y hy hne) hε
  refine ⟨δ, hδ, fun T eps q dq he0 heps hM hN t ht => ?_⟩
  have hE : ∀ t ∈ Icc 0 T, ∀ b1 B, b.setQ (q t) = .ok b1 → b1.setDq (dq t) = .ok B →
      B.EnergyIs (b.total (stateOf b q dq t)) := by
    intro t ht b1 B h1 h2
    have hA := atState_of_set h h1 h2
    obtain ⟨e, he⟩ := energyIs_exists hA.inv
    rwa [energyIs_at (y := stateOf b q dq t) hA hm he] at he
  have hng := C140_no_gain_partial h hd hx tau rfl rfl rfl rfl he0 hc hok hM hE
  refine norm_near (key T (stateOf b q dq) (movesOn_continuous hM) (fun w hw => ?_)
    (near_norm hδ.le hN) t ht)
  have k := hng w hw
  have k0 : 0 ≤ ∑ i ∈ range b.dof, (c i + s i) := Finset.sum_nonneg fun i hi =>
    add_nonneg (hc i (Finset.mem_range.1 hi)).c0 (hc i (Finset.mem_range.1 hi)).s0
  have k2 : eps * (∑ i ∈ range b.dof, (c i + s i)) * w ≤ δ :=
    (mul_le_mul_of_nonneg_left hw.2 (mul_nonneg he0 k0)).trans heps
  unfold worked
  simp only [mul_sub, Finset.sum_sub_distrib, Finset.sum_range] at k k2
  show b.total (stateOf b q dq w) - ∑ i : Fin b.dof, tau i * (q w).getD i 0 ≤
    b.total (stateOf b q dq 0) - ∑ i : Fin b.dof, tau i * (q 0).getD i 0 + δ
  linarith

/-! ## Examples -/

theorem sticky_sliding (s w : ℝ) : (sticky s w).Sliding := by
  intro k hk
  rw [Nat.lt_one_iff.1 hk]
  rfl

theorem sticky_axes (s w : ℝ) : (sticky s w).AxesOK := by
  intro k hk
  rw [Nat.lt_one_iff.1 hk]
  rfl

theorem sticky_gravity (E : Ext) (s w : ℝ) : (sticky s w).gravity.1 0 = 19.62 := by
  obtain ⟨d, h⟩ := sticky_reach E s w
  have hTp : (sticky s w).fresh.Tp 0 = 1 := by
    rw [fresh_Tp (b := sticky s w) Nat.one_pos]
    show (1 : Iso) * JType.pz.Tjoint 0 = 1
    rw [one_mul]
    ext <;> simp [JType.Tjoint]
  have hTw : (sticky s w).fresh.Tw 0 = 1 := by
    rw [fresh_Tw (b := sticky s w) Nat.one_pos]
    have := worldLoop_spec h.inv.tree.parLt (sticky s w).T0 (sticky s w).freshTp (fun _ => 1) 0
      Nat.one_pos
    rw [show (sticky s w).par 0 = none from rfl] at this
    refine this.trans ?_
    rw [← fresh_Tp (b := sticky s w) Nat.one_pos, hTp]
    exact one_mul _
  rw [(gravity_run h.inv).2 0 Nat.one_pos]
  change ∑ k ∈ range 1, ((sticky s w).fresh.Jw k 0).dot ((sticky s w).fresh.Iw k
    (-⟨⟨0, 0, -9.81⟩, 0⟩)) = _
  rw [sum_range_one]
  unfold Sys.Jw Sys.Iw Sys.axis
  rw [if_pos Anc.refl, hTw, show (sticky s w).fresh.Itot 0 = unitInertia from rfl,
    show (sticky s w).fresh.S 0 = JType.pz.subspace from rfl]
  simp [Iso.actM, Iso.actF, Iso.inv, Mat3.mulVec, Mat3.T, Vec3.cross, Inertia.app,
    Motion.dot, unitInertia, JType.subspace]
  norm_num

/-- C140: a mass of two kilograms on a vertical slider with a stiction of 100 newtons, started upwards
at one metre per second and left alone, rises at that speed for ever, for every method, step and
threshold, and gains 19.62 joules every second. -/
theorem C140_violated_witness (E : Ext) (dt : ℝ) (m : Method) (eps : ℝ) (n : ℕ) : ∃ e b',
    (sticky 100 1).EnergyIs e ∧ steps E (fun _ => 0) dt (fun _ => none)
      ⟨true, true, true, false, m, false, eps⟩ n (sticky 100 1) = .ok b' ∧
    b'.q.getD 0 0 = n * dt ∧ b'.dq.getD 0 0 = 1 ∧ b'.EnergyIs (e + 19.62 * (n * dt)) := by
  obtain ⟨d, h⟩ := sticky_reach E 100 1
  have hD := sticky_definite 100 1
  have hg := sticky_gravity E 100 1
  obtain ⟨e, he⟩ := energyIs_exists h.inv
  have hl : ∀ k < (sticky 100 1).dof, k = 0 := fun k hk => Nat.lt_one_iff.1 hk
  obtain ⟨b', h1, h2, h3⟩ := C140_violated h hD (sticky_sliding 100 1) (sticky_axes 100 1) (fun _ => 0) dt
    ⟨true, true, true, false, m, false, eps⟩ rfl rfl rfl rfl (s := fun _ => 100)
    (fun i hi => by rw [hl i hi]; exact sticky_coef (by norm_num))
    (fun i hi => by rw [hl i hi, hg]; norm_num [abs_le]) n
  obtain ⟨b2, g1, g2⟩ := steps_scheme h (hD.massive h.inv.tree) cache0_clear (fun _ => 0) dt
    (fun _ => none) ⟨true, true, true, false, m, false, eps⟩ rfl n
  rw [h1] at g1
  cases g1
  obtain ⟨q1, q2⟩ := h2 0 Nat.one_pos
  obtain ⟨e', he'⟩ : ∃ e', b'.EnergyIs e' := by
    exact energyIs_exists g2.inv
  refine ⟨e, b', he, h1, ?_, ?_, ?_⟩
  · rw [q1]; show (0 : ℝ) + n * dt * 1 = _; ring
  · rw [q2]; rfl
  · rw [← show e' = e + 19.62 * (n * dt) from ?_]
    · exact he'
    · rw [h3 e e' he he', show (sticky 100 1).dof = 1 from rfl, sum_range_one, hg]
      show e + n * dt * (19.62 * 1) = _
      ring

/-- A level rail with friction. -/
noncomputable def blockJoint : Joint :=
  { type := .px, subspace := JType.px.subspace, fCoulomb := .fin 2, fStiction := .fin 1 }

namespace Body

/-- A mass of two kilograms on a level rail with Coulomb friction 2 and stiction 1, at speed 1. -/
noncomputable def block : Body where
  rbs := [{ ({ T := 1, inertia := unitInertia, joint := blockJoint } : RB) with
    id := 0, idParent := -1 }]
  q := [0]
  dq := [1]
  g := ⟨0, 0, -9.81⟩
  load := fun _ => none
  T0 := 1
  inertiaBase := ⟨1, 0, 0⟩
  anc := [[0]]
  sub := [[0]]
  c := ((init cache0).c.expand 0).clearDq

theorem block_reach (E : Ext) : ∃ d, Reach E block d := by
  refine reach_execAll [.addRigidBody { T := 1, inertia := unitInertia, joint := blockJoint } (-1),
    .setDq [1]] (Reach.init cache0) ?_ ?_
  · intro op hop
    simp only [List.mem_cons, List.not_mem_nil, or_false] at hop
    rcases hop with rfl | rfl
    · exact Iso.valid_one
    · trivial
  · simp [execAll, Op.exec, Op.step, addRigidBody, Out.map, Out.bind, init, dof, pushSub, block,
        setDq]

theorem block_coef : Coef (block.rb 0).joint 2 0 1 :=
  ⟨rfl, rfl, rfl, by norm_num, le_rfl, zero_le_one⟩

theorem block_definite : block.Definite := by
  have hl : ∀ k < block.dof, k = 0 := fun k hk => Nat.lt_one_iff.1 hk
  refine ⟨fun k hk => ?_, fun k hk => ?_, fun k hk v hv => ?_, fun k hk L hL => ?_, fun k hk h0 => ?_⟩
  · rw [hl k hk]; show 0 < unitInertia.mass; norm_num [unitInertia]
  · rw [hl k hk]; exact unitInertia_phys.2.1
  · rw [hl k hk]; exact unitInertia_pd v hv
  · cases hL
  · rw [hl k hk] at h0
    have := congrArg (fun m : Motion => m.lin.x) h0
    simp [block, rb, blockJoint, JType.subspace] at this

theorem block_sliding : block.Sliding := by
  intro k hk
  rw [Nat.lt_one_iff.1 hk]
  rfl

theorem block_axes : block.AxesOK := by
  intro k hk
  rw [Nat.lt_one_iff.1 hk]
  rfl

theorem block_Tw : block.fresh.Tw 0 = 1 := by
  obtain ⟨d, h⟩ := block_reach ext0
  have hTp : block.fresh.Tp 0 = 1 := by
    rw [fresh_Tp (b := block) Nat.one_pos]
    show (1 : Iso) * JType.px.Tjoint 0 = 1
    rw [one_mul]
    ext <;> simp [JType.Tjoint]
  rw [fresh_Tw (b := block) Nat.one_pos]
  have := worldLoop_spec h.inv.tree.parLt block.T0 block.freshTp (fun _ => 1) 0 Nat.one_pos
  rw [show block.par 0 = none from rfl] at this
  refine this.trans ?_
  rw [← fresh_Tp (b := block) Nat.one_pos, hTp]
  exact one_mul _

theorem block_gravity : block.gravity.1 0 = 0 := by
  obtain ⟨d, h⟩ := block_reach ext0
  rw [(gravity_run h.inv).2 0 Nat.one_pos]
  change ∑ k ∈ range 1, (block.fresh.Jw k 0).dot (block.fresh.Iw k (-⟨⟨0, 0, -9.81⟩, 0⟩)) = _
  rw [sum_range_one]
  unfold Sys.Jw Sys.Iw Sys.axis
  rw [if_pos Anc.refl, block_Tw, show block.fresh.Itot 0 = unitInertia from rfl,
    show block.fresh.S 0 = JType.px.subspace from rfl]
  simp [Iso.actM, Iso.actF, Iso.inv, Mat3.mulVec, Mat3.T, Vec3.cross, Inertia.app,
    Motion.dot, unitInertia, JType.subspace]

theorem block_mass : block.fresh.massSpec 0 0 = 2 := by
  change ∑ k ∈ range 1, (block.fresh.Jw k 0).dot (block.fresh.Iw k (block.fresh.Jw k 0)) = _
  rw [sum_range_one]
  unfold Sys.Jw Sys.Iw Sys.axis
  rw [if_pos Anc.refl, block_Tw, show block.fresh.Itot 0 = unitInertia from rfl,
    show block.fresh.S 0 = JType.px.subspace from rfl]
  simp [Iso.actM, Iso.actF, Iso.inv, Mat3.mulVec, Mat3.T, Vec3.cross, Inertia.app,
    Motion.dot, unitInertia, JType.subspace]

/-- What slows the block down. -/
theorem block_acceleration {q : ℝ} {w : ℝ} (hw : 0 ≤ w) {b1 B : Body} (h1 : block.setQ [q] = .ok b1)
    (h2 : b1.setDq [w] = .ok B) : B.acceleration E (fun _ => 0) (fun _ => none)
      ⟨true, true, true, false, .euler, false, 0⟩ 0 = if 0 < w then -1 else 0 := by
  obtain ⟨d, h⟩ := block_reach E
  obtain ⟨hS, hn, hf, -, -, d', hB⟩ := h.after_set ⟨b1, h1, h2⟩
  have hD := hS.definite block_definite
  have hm := hD.massive hB.inv.tree
  have hv : B.vel 0 = w := by unfold Body.vel; rw [setDq_dq h2]; rfl
  have k := fd_solves hB hm (hD.form hB) (fun _ => 0) (fun _ => none) ⟨true, true, true, 0⟩ 0
    (by rw [hn]; exact Nat.one_pos)
  rw [hn, show block.dof = 1 from rfl, sum_range_one] at k
  have e1 : B.fresh.massSpec 0 0 = 2 := by
    rw [hf, block_sliding.mass block_axes h.inv.tree h.inv.rigid _ _ block.pos block.vel,
      ← fresh_eq_sysAt, block_mass]
  have e2 : B.fresh.idSpec (fun _ => 0) (fun _ => none) true true 0 = 0 := by
    rw [hf, glide_id h block_sliding block_axes true _ _ Nat.one_pos, block_gravity]
  have e3 : B.friction (fun i => 0 - B.fresh.idSpec (fun _ => 0) (fun _ => none) true true i) false 0 0 =
      if 0 < w then 2 else 0 := by
    rw [friction_joint B _ false 0 0 (by
      rw [show B.rb = block.rb from (atState_of_set h h1 h2).rb]; exact block_coef), hv, e2]
    unfold frictionJoint signum
    by_cases h0 : 0 < w
    · simp [h0]
    · have : w = 0 := le_antisymm (not_lt.1 h0) hw
      simp [this]
  unfold Sys.fdRhs at k
  simp only [if_true] at k
  have e4 : B.fresh.friction (fun i => 0 - B.fresh.idSpec (fun _ => 0) (fun _ => none) true true i)
      false 0 0 = if 0 < w then 2 else 0 := e3
  rw [e1, e2, e4] at k
  unfold acceleration
  simp only [Bool.false_eq_true, if_false]
  split_ifs at k ⊢ <;> linarith

end Body

/-- C140 applies to motions that end: the block slides for a second and half a metre, and then rests;
its energy of one joule is lost to friction, in equal parts along the way. -/
example (E : Ext) (T : ℝ) : ∃ d, ∃ q dq : ℝ → List ℝ, Reach E block d ∧ block.Definite ∧
    block.AxesOK ∧ (∀ i < block.dof, Coef (block.rb i).joint 2 0 1) ∧
    block.MovesOn E (fun _ => 0) (fun _ => none) ⟨true, true, true, false, .euler, false, 0⟩ T q dq ∧
    q 0 = block.q ∧ dq 0 = block.dq ∧ ∀ t, 1 ≤ t → q t = [1 / 2] ∧ dq t = [0] := by
  obtain ⟨d, h⟩ := block_reach E
  have hmax : ∀ t : ℝ, HasDerivWithinAt (fun s : ℝ => max (1 - s) 0) (if 0 < max (1 - t) 0 then -1 else 0)
      (Ici t) t := by
    intro t
    rcases lt_or_ge t 1 with h1 | h1
    · rw [if_pos (by rw [lt_max_iff]; left; linarith)]
      have k : HasDerivAt (fun s : ℝ => 1 - s) (-1) t := by
        simpa using (hasDerivAt_id t).const_sub 1
      refine (k.congr_of_eventuallyEq ?_).hasDerivWithinAt
      filter_upwards [Iio_mem_nhds h1] with s hs
      exact max_eq_left (by have : s < 1 := hs; linarith)
    · rw [if_neg (by rw [max_eq_right (by linarith)]; exact lt_irrefl 0)]
      refine (hasDerivWithinAt_const t (Ici t) (0 : ℝ)).congr (fun s hs => ?_) ?_
      · exact max_eq_right (by have : t ≤ s := hs; linarith)
      · exact max_eq_right (by linarith)
  have hq : ∀ t : ℝ, HasDerivWithinAt (fun s : ℝ => 1 / 2 - max (1 - s) 0 ^ 2 / 2) (max (1 - t) 0)
      (Ici t) t := by
    intro t
    have k := (((hmax t).pow 2).div_const 2).const_sub (1 / 2)
    refine k.congr_deriv ?_
    rcases lt_or_ge t 1 with h1 | h1
    · rw [max_eq_left (by linarith), if_pos (by linarith)]; norm_num; ring
    · rw [max_eq_right (by linarith)]; simp
  refine ⟨d, fun t => [1 / 2 - max (1 - t) 0 ^ 2 / 2], fun t => [max (1 - t) 0], h, block_definite,
    block_axes, fun i hi => ?_, ⟨fun i hi => ?_, fun t _ => ?_⟩, ?_, ?_, fun t ht => ?_⟩
  · rw [Nat.lt_one_iff.1 hi]; exact block_coef
  · rw [Nat.lt_one_iff.1 hi]
    simp only [List.getD_cons_zero]
    constructor <;> fun_prop
  · obtain ⟨b1, h1, e1⟩ := setQ_total (b := block) (q := [1 / 2 - max (1 - t) 0 ^ 2 / 2]) rfl
    obtain ⟨B, h2, e2⟩ := setDq_total (b := b1) (q := [max (1 - t) 0]) (by rw [e1]; rfl)
    refine ⟨b1, B, h1, h2, fun _ i hi => ?_⟩
    rw [Nat.lt_one_iff.1 hi]
    simp only [List.getD_cons_zero]
    refine ⟨hq t, ?_⟩
    rw [block_acceleration (le_max_right _ _) h1 h2]
    exact hmax t
  · norm_num [block]
  · norm_num [block]
  · have e : max (1 - t) 0 = 0 := max_eq_right (by linarith)
    simp only [e]
    norm_num

/-- A link on a rusty hinge. -/
noncomputable def hingeRB : RB := { ballRB .rx with
  inertia := ⟨1, ⟨0, 0, -1⟩, 1⟩,
  joint := { mkJoint .rx with fCoulomb := .fin 1, fViscous := .fin 2, fStiction := .fin 3 } }

/-- A pendulum on that hinge. -/
noncomputable def hinge : Body :=
  { solo .rx with rbs := [{ hingeRB with id := 0, idParent := -1 }] }

theorem hinge_exec (E : Ext) :
    execAll E (Body.init cache0) [.addRigidBody hingeRB (-1)] = some hinge := by
  simp [execAll, Op.exec, Op.step, addRigidBody, Out.map, Out.bind, Body.init, pushSub, hinge, solo]

theorem hinge_reach (E : Ext) : ∃ d, Reach E hinge d := by
  refine reach_execAll _ (Reach.init cache0) ?_ (hinge_exec E)
  intro op hop
  simp only [List.mem_cons, List.not_mem_nil, or_false] at hop
  subst hop
  exact Iso.valid_one

theorem hinge_definite : hinge.Definite := by
  have h0 : ∀ k < hinge.dof, k = 0 := fun k hk => Nat.lt_one_iff.1 hk
  refine ⟨fun k hk => ?_, fun k hk => ?_, fun k hk v hv => ?_, fun k hk L hL => ?_, fun k hk => ?_⟩
  all_goals first | cases hL | (rw [h0 k hk])
  · show (0 : ℝ) < 1; norm_num
  · exact ball_phys.2.1
  · exact ball_pd v hv
  · intro h
    have := congrArg (fun m : Motion => m.ang.x) h
    simp [hinge, hingeRB, Body.rb, ballRB, mkJoint, JType.subspace] at this

theorem hinge_axes : hinge.AxesOK := by
  intro k hk
  have h0 : k = 0 := Nat.lt_one_iff.1 hk
  subst h0
  rfl

theorem hinge_potential (u : ℕ → ℝ) :
    hinge.potential (fun k x => (hinge.twAt u k).app x) = -(9.81 * Real.cos (u 0)) := by
  obtain ⟨d, h⟩ := hinge_reach ext0
  have h1 : hinge.LinkPose u 0 ((hinge.rb 0).T * (hinge.rb 0).joint.type.Tjoint (u 0)) :=
    .root (by show (-1 : ℤ) < 0; norm_num)
  have h2 := h1.twAt h.inv.tree Nat.one_pos
  unfold Body.potential
  show -∑ k ∈ Finset.range 1, _ = _
  rw [Finset.sum_range_one]
  have h3 : hinge.parts 0 = [⟨1, ⟨0, 0, -1⟩, 1⟩] := rfl
  rw [h3]
  simp only [List.map_cons, List.map_nil, List.sum_cons, List.sum_nil, h2]
  have e1 : hinge.T0 = 1 := rfl
  have e2 : (hinge.rb 0).T = 1 := rfl
  have e3 : (hinge.rb 0).joint.type = .rx := rfl
  have e4 : hinge.g = ⟨0, 0, -9.81⟩ := rfl
  rw [e1, e2, e3, e4]
  simp [Iso.app, JType.Tjoint, Mat3.mulVec, Vec3.dot]

/-- The hypotheses of `C140_stable_partial` hold for the rusty pendulum hanging down. -/
example (E : Ext) : ∃ d, ∃ P : (ℕ → ℝ) → ℕ → Vec3 → Vec3, Reach E hinge d ∧ hinge.Definite ∧
    hinge.AxesOK ∧ (∀ i < hinge.dof, Coef (hinge.rb i).joint 1 2 3) ∧ [0].length = hinge.dof ∧
    (∀ u, ∀ k < hinge.dof, ∀ x, hinge.positionQ u k x = .ok (P u k x)) ∧
    ∀ u : ℕ → ℝ, (∀ i < hinge.dof, |u i - ([0] : List ℝ).getD i 0| ≤ 1) →
      (∃ i < hinge.dof, u i ≠ ([0] : List ℝ).getD i 0) →
      hinge.potential (P fun i => ([0] : List ℝ).getD i 0) -
          ∑ i ∈ Finset.range hinge.dof, 0 * ([0] : List ℝ).getD i 0 <
        hinge.potential (P u) - ∑ i ∈ Finset.range hinge.dof, 0 * u i := by
  obtain ⟨d, h⟩ := hinge_reach E
  refine ⟨d, fun u k x => (hinge.twAt u k).app x, h, hinge_definite, hinge_axes,
    fun i hi => by
      rw [Nat.lt_one_iff.1 hi]
      exact ⟨rfl, rfl, rfl, by norm_num, by norm_num, by norm_num⟩, rfl, fun u => positionQ_twAt h u, fun u h1 h2 => ?_⟩
  obtain ⟨i, hi, hne⟩ := h2
  have h0 : i = 0 := Nat.lt_one_iff.1 hi
  subst h0
  have hb := h1 0 Nat.one_pos
  simp only [hinge_potential, zero_mul, Finset.sum_const_zero, sub_zero, List.getD_cons_zero,
    Real.cos_zero] at hne hb ⊢
  have hc : Real.cos (u 0) < 1 := by
    refine lt_of_le_of_ne (Real.cos_le_one _) fun hc => hne ?_
    have hpi := Real.two_le_pi
    obtain ⟨a, b⟩ := abs_le.1 hb
    exact (Real.cos_eq_one_iff_of_lt_of_lt (by linarith) (by linarith)).1 hc
  linarith

end SpatialDyn
