import Verif.Spec.ComputedTorque
import Verif.Lemmas.Jury
import Verif.Props.Sliding
import Verif.Props.ClosedLoop

/-! # Properties C119, C120: computed-torque control -/

namespace SpatialDyn
open Finset Matrix Body Filter Topology

variable {E : Ext} {b : Body} {d : Bool} {C : Ctl} {U : C.Quat → Prop}

/-- Accelerations by the torques of `InverseDynamics`. -/
theorem Body.AtState.torque (h : Reach E b d) (hD : b.Definite) {y : State b.dof} {B : Body}
    (hA : AtState E b y B) (acc : ℕ → ℝ) (fext : FExt) (o : IntOpts) (hf : o.friction = false)
    (ha : o.aba = false ∨ b.T0.R.mulVec b.g = b.g) :
    b.field E cache0 (B.inverseDynamics acc fext ⟨o.gravity, o.cc, false, o.eps⟩).1 fext o y =
      (y.2, fun i : Fin b.dof => acc i) := by
  obtain ⟨B', d', hB', hA', hf'⟩ := exists_at h y
  have hDB := hA.only.definite hD
  have hDB' := hA'.only.definite hD
  have hmB := hDB.massive hA.inv.tree
  have hmB' := hDB'.massive hB'.inv.tree
  have hn : B.dof = b.dof := hA.dof
  have hn' : B'.dof = b.dof := hA'.dof
  rw [field_val h hD cache0_clear _ _ _ hf]
  refine Prod.ext rfl ?_
  have e0 : (if o.aba then b.T0.R.mulVec b.g else b.g) = b.g := by
    rcases ha with ha | ha
    · rw [ha]; rfl
    · rw [ha, ite_self]
  rw [e0]
  show b.accAt b.g _ fext o.cc o.gravity y = _
  have e : b.accAt b.g (B.inverseDynamics acc fext ⟨o.gravity, o.cc, false, o.eps⟩).1 fext o.cc o.gravity y =
      b.accAt b.g (B'.inverseDynamics acc fext ⟨o.gravity, o.cc, false, o.eps⟩).1 fext o.cc o.gravity y := by
    unfold accAt
    congr 2
    funext i
    show (B.inverseDynamics acc fext ⟨o.gravity, o.cc, false, o.eps⟩).1 i =
      (B'.inverseDynamics acc fext ⟨o.gravity, o.cc, false, o.eps⟩).1 i
    rw [inverseDynamics_val hA.inv hmB.symI (hmB.posMass hA.inv.tree) _ _ _ i (by rw [hn]; exact i.2),
      inverseDynamics_val hB'.inv hmB'.symI (hmB'.posMass hB'.inv.tree) _ _ _ i
        (by rw [hn']; exact i.2), hA.fresh_eq, hf']
  rw [e]
  funext i
  rw [← hA'.fd_val hB' hD hf' _ fext ⟨o.gravity, o.cc, false, o.eps⟩ rfl i]
  exact C29_forward_inverse hB' hmB' (hDB'.form hB') acc fext ⟨o.gravity, o.cc, false, o.eps⟩
    o.eps rfl i (by rw [hn']; exact i.2)

/-- One cycle with Euler's method. -/
theorem Body.AtState.torqueCycle (h : Reach E b d) (hD : b.Definite) {y : State b.dof} {B : Body}
    (hA : AtState E b y B) (acc : ℕ → ℝ) (fext : FExt) (o : IntOpts) (hf : o.friction = false)
    (ha : o.aba = false ∨ b.T0.R.mulVec b.g = b.g) (hl : o.jointLimits = false) (hm : o.method = .euler) (dt : ℝ) :
    ∃ B', B.torqueCycle E acc fext o dt = .ok B' ∧ AtState E b
      (y.1 + dt • y.2 + (dt ^ 2 / 2) • (fun i : Fin b.dof => acc i),
        y.2 + dt • (fun i : Fin b.dof => acc i)) B' := by
  have hma := hD.massive h.inv.tree
  unfold Body.torqueCycle
  set r := B.inverseDynamics acc fext ⟨o.gravity, o.cc, false, o.eps⟩ with hr
  have hs : B.Same r.2 := inverseDynamics_same acc fext _
  have hA2 : AtState E b y r.2 := ⟨hA.only.trans hs.stateOnly,
    hA.inv.step (inverseDynamics_step hA.inv acc fext _), by rw [hs]; exact hA.q, by rw [hs]; exact hA.dq⟩
  obtain ⟨B', h1, h2⟩ := hA2.integrate h.inv hma.symI (hma.posMass h.inv.tree) cache0_clear r.1 dt fext o
  refine ⟨B', h1, ?_⟩
  have hflt : b.codeFilter o.jointLimits = id := by
    funext y
    unfold codeFilter
    rw [hl]
    rfl
  rw [hflt, hm] at h2
  have e := hA.torque h hD acc fext o hf ha
  rw [← hr] at e
  unfold scheme taylor at h2
  simp only [id] at h2
  rw [e] at h2
  exact h2

/-- C119: whatever accelerations a program wants, the simulation with Euler's method gives it exactly
those: the joints move as independent double integrators, in every state and for every robot, with
gravity, velocity products and external forces. -/
theorem C119_cycles (h : Reach E b d) (hD : b.Definite) (wish : Wish) (fext : ℕ → FExt) (o : IntOpts)
    (hf : o.friction = false) (ha : o.aba = false ∨ b.T0.R.mulVec b.g = b.g)
    (hl : o.jointLimits = false) (hm : o.method = .euler) (dt : ℝ) :
    ∃ S : ℕ → Body, S 0 = b ∧ (∀ n, b.torqueLoop E wish fext o dt n = .ok (S n)) ∧
      ∀ n, ∀ i < b.dof, (let a := wish n (S n).q (S n).dq i
        (S (n + 1)).q.getD i 0 = (S n).q.getD i 0 + dt * (S n).dq.getD i 0 + dt ^ 2 / 2 * a ∧
        (S (n + 1)).dq.getD i 0 = (S n).dq.getD i 0 + dt * a) := by
  have key : ∀ n, ∃ B y, b.torqueLoop E wish fext o dt n = .ok B ∧ AtState E b y B := by
    intro n
    induction n with
    | zero => exact ⟨b, b.state, rfl, atState_self h.inv⟩
    | succ n ih =>
      obtain ⟨B, y, h1, hA⟩ := ih
      obtain ⟨B', h2, hA'⟩ := hA.torqueCycle h hD (wish n B.q B.dq) (fext n) o hf ha hl hm dt
      refine ⟨B', _, ?_, hA'⟩
      unfold torqueLoop
      rw [h1]
      exact h2
  choose S Y h1 hA using key
  refine ⟨S, ?_, h1, fun n i hi => ?_⟩
  · have := h1 0
    unfold torqueLoop at this
    cases this
    rfl
  · obtain ⟨B', h2, hA'⟩ := (hA n).torqueCycle h hD (wish n (S n).q (S n).dq) (fext n) o hf ha hl hm dt
    have e : S (n + 1) = B' := by
      have := h1 (n + 1)
      unfold torqueLoop at this
      rw [h1 n] at this
      change (S n).torqueCycle E _ _ o dt = _ at this
      rw [h2] at this
      cases this
      rfl
    rw [e]
    have q1 := (hA n).qFun ⟨i, hi⟩
    have q2 := (hA n).dqFun ⟨i, hi⟩
    have q3 := hA'.qFun ⟨i, hi⟩
    have q4 := hA'.dqFun ⟨i, hi⟩
    unfold Body.qFun at q1 q3
    unfold Body.dqFun at q2 q4
    simp only at q1 q2 q3 q4 ⊢
    rw [q3, q4, q1, q2]
    exact ⟨rfl, rfl⟩

/-- C119: with accelerations that correct the deviation from a reference, the deviation tends to zero
from every state, whenever `0 < kp`, `kp dt < 2 kv` and `kv dt < 2` at every joint.  The reference is
any sequence of positions and velocities that belongs to accelerations held over the steps. -/
theorem C119_tracks (h : Reach E b d) (hD : b.Definite) (fext : ℕ → FExt) (o : IntOpts)
    (hf : o.friction = false) (ha : o.aba = false ∨ b.T0.R.mulVec b.g = b.g)
    (hl : o.jointLimits = false) (hm : o.method = .euler) {dt : ℝ} (hdt : 0 < dt) {kp kv : ℕ → ℝ}
    (hg : ∀ i < b.dof, 0 < kp i ∧ kp i * dt < 2 * kv i ∧ kv i * dt < 2)
    {x w a : ℕ → ℕ → ℝ} (hr : ∀ n, ∀ i < b.dof,
      x (n + 1) i = x n i + dt * w n i + dt ^ 2 / 2 * a n i ∧ w (n + 1) i = w n i + dt * a n i) :
    ∃ S : ℕ → Body, (∀ n, b.torqueLoop E (fun n q dq i =>
        a n i - kp i * (q.getD i 0 - x n i) - kv i * (dq.getD i 0 - w n i)) fext o dt n = .ok (S n)) ∧
      ∀ i < b.dof, Tendsto (fun n => (S n).q.getD i 0 - x n i) atTop (𝓝 0) ∧
        Tendsto (fun n => (S n).dq.getD i 0 - w n i) atTop (𝓝 0) := by
  obtain ⟨S, -, h1, h2⟩ := C119_cycles (E := E) h hD (fun n q dq i =>
        a n i - kp i * (q.getD i 0 - x n i) - kv i * (dq.getD i 0 - w n i)) fext o hf ha hl hm dt
  refine ⟨S, h1, fun i hi => ?_⟩
  refine PdRec.tendsto (kp := kp i) (kv := kv i) (dt := dt) (fun n => ?_) hdt (hg i hi).1 (hg i hi).2.1
    (hg i hi).2.2
  obtain ⟨g1, g2⟩ := h2 n i hi
  obtain ⟨r1, r2⟩ := hr n i hi
  rw [g1, g2, r1, r2]
  constructor <;> ring

/-- The errors of one joint under proportional-derivative accelerations. -/
theorem pd_sol {kp kv goal : ℕ → ℝ} {dt : ℝ} {S : ℕ → Body} {i : ℕ}
    (h : ∀ n, (let a := pdWish kp kv goal n (S n).q (S n).dq i
        (S (n + 1)).q.getD i 0 = (S n).q.getD i 0 + dt * (S n).dq.getD i 0 + dt ^ 2 / 2 * a ∧
        (S (n + 1)).dq.getD i 0 = (S n).dq.getD i 0 + dt * a)) (n : ℕ) :
    ((S n).q.getD i 0 - goal i, (S n).dq.getD i 0) =
      pdSol (kp i) (kv i) dt ((S 0).q.getD i 0 - goal i, (S 0).dq.getD i 0) n := by
  induction n with
  | zero => rfl
  | succ n ih =>
    obtain ⟨h1, h2⟩ := h n
    unfold pdSol
    rw [← ih]
    dsimp only [pdWish] at h1 h2 ⊢
    rw [h1, h2]
    refine Prod.ext ?_ ?_ <;> simp only
    ring

/-- Sequences of bodies whose joints follow the recursion settle from every state exactly under Jury's
conditions. -/
theorem settles_iff {n : ℕ} {kp kv goal : ℕ → ℝ} {dt : ℝ} (hdt : 0 < dt)
    {S : (ℕ → ℝ) → (ℕ → ℝ) → ℕ → Body}
    (h0 : ∀ x w, ∀ i < n, (S x w 0).q.getD i 0 = x i ∧ (S x w 0).dq.getD i 0 = w i)
    (h : ∀ x w, ∀ i < n, ∀ k, (let a := pdWish kp kv goal k (S x w k).q (S x w k).dq i
        (S x w (k + 1)).q.getD i 0 = (S x w k).q.getD i 0 + dt * (S x w k).dq.getD i 0 + dt ^ 2 / 2 * a ∧
        (S x w (k + 1)).dq.getD i 0 = (S x w k).dq.getD i 0 + dt * a)) :
    (∀ x w, Settles n (S x w) goal) ↔
      ∀ i < n, 0 < kp i ∧ kp i * dt < 2 * kv i ∧ kv i * dt < 2 := by
  have hiff : ∀ x w, ∀ i < n, (Tendsto (fun k => (S x w k).q.getD i 0) atTop (𝓝 (goal i)) ∧
      Tendsto (fun k => (S x w k).dq.getD i 0) atTop (𝓝 0)) ↔
      (Tendsto (fun k => (pdSol (kp i) (kv i) dt (x i - goal i, w i) k).1) atTop (𝓝 0) ∧
      Tendsto (fun k => (pdSol (kp i) (kv i) dt (x i - goal i, w i) k).2) atTop (𝓝 0)) := by
    intro x w i hi
    have e := pd_sol (h x w i hi)
    rw [(h0 x w i hi).1, (h0 x w i hi).2] at e
    simp only [← e]
    rw [tendsto_sub_nhds_zero_iff]
  constructor
  · intro hs i hi
    refine (pd_iff hdt).1 fun z => ?_
    have := (hiff (fun j => goal j + z.1) (fun _ => z.2) i hi).1 (hs _ _ i hi)
    rwa [show goal i + z.1 - goal i = z.1 by ring] at this
  · intro hg x w i hi
    exact (hiff x w i hi).2 ((pd_iff hdt).2 (hg i hi) _)

/-- Programs that settle from every state to which the body can be set. -/
theorem settles_set_iff (h : Reach E b d) {kp kv goal : ℕ → ℝ} {dt : ℝ} (hdt : 0 < dt)
    {run : Body → ℕ → Out Body}
    (hrun : ∀ q dq b1 B, b.setQ q = .ok b1 → b1.setDq dq = .ok B → ∃ S : ℕ → Body, S 0 = B ∧
      (∀ n, run B n = .ok (S n)) ∧ ∀ i < b.dof, ∀ k,
        (let a := pdWish kp kv goal k (S k).q (S k).dq i
        (S (k + 1)).q.getD i 0 = (S k).q.getD i 0 + dt * (S k).dq.getD i 0 + dt ^ 2 / 2 * a ∧
        (S (k + 1)).dq.getD i 0 = (S k).dq.getD i 0 + dt * a)) :
    (∀ q dq b1 B, b.setQ q = .ok b1 → b1.setDq dq = .ok B → ∃ S : ℕ → Body,
      (∀ n, run B n = .ok (S n)) ∧ Settles b.dof S goal) ↔
      ∀ i < b.dof, 0 < kp i ∧ kp i * dt < 2 * kv i ∧ kv i * dt < 2 := by
  have hset : ∀ x w : ℕ → ℝ, ∃ b1 B, b.setQ (List.ofFn fun i : Fin b.dof => x i) = .ok b1 ∧
      b1.setDq (List.ofFn fun i : Fin b.dof => w i) = .ok B := by
    intro x w
    obtain ⟨b1, h1, hn⟩ := setQ_total (b := b) (q := List.ofFn fun i : Fin b.dof => x i) (by simp)
    obtain ⟨B, h2, -⟩ := setDq_total (b := b1) (q := List.ofFn fun i : Fin b.dof => w i) (by simp [hn])
    exact ⟨b1, B, h1, h2⟩
  choose b1 B s1 s2 using hset
  choose S h0 hr hrec using fun x w => hrun _ _ _ _ (s1 x w) (s2 x w)
  have hat : ∀ x w, ∀ i < b.dof, (B x w).q.getD i 0 = x i ∧ (B x w).dq.getD i 0 = w i := by
    intro x w i hi
    rw [setDq_q (s2 x w), setQ_q (s1 x w), setDq_dq (s2 x w)]
    exact ⟨getD_ofFn (fun i : Fin b.dof => x i) ⟨i, hi⟩, getD_ofFn (fun i : Fin b.dof => w i) ⟨i, hi⟩⟩
  rw [← settles_iff hdt (S := S) (fun x w i hi => by rw [h0]; exact hat x w i hi) hrec]
  constructor
  · intro H x w
    obtain ⟨S', g1, g2⟩ := H _ _ _ _ (s1 x w) (s2 x w)
    have e : S' = S x w := funext fun n => Out.ok.inj ((g1 n).symm.trans (hr x w n))
    rwa [← e]
  · intro H q dq c1 c2 t1 t2
    have hA := atState_of_set h t1 t2
    obtain ⟨S', g0, g1, g2⟩ := hrun _ _ _ _ t1 t2
    refine ⟨S', g1, fun i hi => ?_⟩
    have hc : 0 < kp i ∧ kp i * dt < 2 * kv i ∧ kv i * dt < 2 :=
      (settles_iff hdt (S := S) (fun x w i hi => by rw [h0]; exact hat x w i hi) hrec).1 H i hi
    have e := pd_sol (g2 i hi)
    have := (pd_iff hdt).2 hc ((S' 0).q.getD i 0 - goal i, (S' 0).dq.getD i 0)
    simp only [← e] at this
    rwa [tendsto_sub_nhds_zero_iff] at this

/-- C119: with proportional-derivative accelerations towards a goal, the loop reaches the goal from
every state if and only if `0 < kp`, `kp dt < 2 kv` and `kv dt < 2` at every joint. -/
theorem C119_iff (h : Reach E b d) (hD : b.Definite) (fext : ℕ → FExt) (o : IntOpts)
    (hf : o.friction = false) (ha : o.aba = false ∨ b.T0.R.mulVec b.g = b.g)
    (hl : o.jointLimits = false) (hm : o.method = .euler) {dt : ℝ} (hdt : 0 < dt) (kp kv goal : ℕ → ℝ) :
    (∀ q dq b1 B, b.setQ q = .ok b1 → b1.setDq dq = .ok B → ∃ S : ℕ → Body,
      (∀ n, B.torqueLoop E (pdWish kp kv goal) fext o dt n = .ok (S n)) ∧ Settles b.dof S goal) ↔
      ∀ i < b.dof, 0 < kp i ∧ kp i * dt < 2 * kv i ∧ kv i * dt < 2 := by
  refine settles_set_iff h hdt fun q dq b1 B t1 t2 => ?_
  obtain ⟨hs, hn, -, -, -, d', hr⟩ := h.after_set ⟨b1, t1, t2⟩
  obtain ⟨S, g1, g2, g3⟩ := C119_cycles (E := E) hr (hs.definite hD) (pdWish kp kv goal) fext o hf (by rwa [hs.T0, hs.g]) hl hm dt
  exact ⟨S, g1, g2, fun i hi k => g3 k i (by rw [hn]; exact hi)⟩

/-! ## C120 -/

/-- One call of the controller with an integration step, on a sliding robot. -/
theorem slide_callMap (h : Reach E b d) (hD : b.Definite) (hs : b.Sliding) (ha : b.AxesOK)
    (goal : List ℝ) (kp kv dt : ℝ) (y : State b.dof) :
    callMap b goal kp kv dt y =
      (y.1 + dt • y.2 + (dt ^ 2 / 2) • pdLaw (vecOf b.dof goal) kp kv y,
        y.2 + dt • pdLaw (vecOf b.dof goal) kp kv y) := by
  unfold callMap
  have hF : ∀ z, b.plant true (b.pdTau (vecOf b.dof goal) kp kv y, z) =
      (z.2, pdLaw (vecOf b.dof goal) kp kv y) := by
    intro z
    have e := congrArg Prod.snd (loop_eq h hD (vecOf b.dof goal) kp kv true y)
    have hc : b.ccAcc true y = 0 := by
      unfold ccAcc
      rw [hs.coriolis ha h.inv.tree]
      exact mulVec_zero _
    rw [hc, sub_zero] at e
    refine Prod.ext rfl ?_
    rw [← e]
    exact hs.acc ha h.inv.tree h.inv.rigid _ _ _ _ _ _ _ _
  exact scheme_const .rk4 _ hF dt y

/-- C120: called repeatedly with an integration step, the joint-space controller takes a sliding robot
to the goal from every state if and only if `0 < kp`, `kp dt < 2 kv` and `kv dt < 2`. -/
theorem C120_iff (h : Reach E b d) (hD : b.Definite) (hs : b.Sliding) (hx : b.AxesOK)
    (hd : 0 < b.dof) (hL : C.Law U) {goal : List ℝ} (hgl : goal.length = b.dof) (kp kv : ℝ)
    {maxAcc : Option ℝ} (ha : maxAcc.getD 0 ≤ 0) (thr : Option (ℝ × ℝ)) {dt : ℝ} (hdt : 0 < dt) :
    (∀ q dq b1 B, b.setQ q = .ok b1 → b1.setDq dq = .ok B → ∃ S : ℕ → Body,
      (∀ n, calls (fun B => B.jointSpaceControl E C (some goal) (kp, kv) maxAcc thr (step := some dt))
        n B = .ok (S n)) ∧ Settles b.dof S (fun i => goal.getD i 0)) ↔
      0 < kp ∧ kp * dt < 2 * kv ∧ kv * dt < 2 := by
  have key := settles_set_iff (E := E) (d := d) h (kp := fun _ => kp) (kv := fun _ => kv)
    (goal := fun i => goal.getD i 0) hdt
    (run := fun B n => calls (fun B => B.jointSpaceControl E C (some goal) (kp, kv) maxAcc thr
      (step := some dt)) n B) (fun q dq b1 B t1 t2 => by
    have hA := atState_of_set h t1 t2
    choose S g1 g2 using fun n => calls_map (E := E) h hD hL hgl kp kv ha thr dt hA n
    refine ⟨S, (Out.ok.inj (g1 0)).symm, g1, fun i hi n => ?_⟩
    have A := g2 n
    have A' := g2 (n + 1)
    rw [Function.iterate_succ_apply', slide_callMap h hD hs hx] at A'
    have q1 := A.qFun ⟨i, hi⟩
    have q2 := A.dqFun ⟨i, hi⟩
    have q3 := A'.qFun ⟨i, hi⟩
    have q4 := A'.dqFun ⟨i, hi⟩
    unfold Body.qFun at q1 q3
    unfold Body.dqFun at q2 q4
    simp only at q1 q2 q3 q4 ⊢
    rw [q3, q4]
    unfold pdWish
    rw [q1, q2]
    simp [pdLaw, vecOf])
  refine key.trans ⟨fun H => H 0 hd, fun H _ _ => H⟩

/-- C120: with the default gains, exactly for steps below a fifth of a second. -/
theorem C120_defaults (h : Reach E b d) (hD : b.Definite) (hs : b.Sliding) (hx : b.AxesOK)
    (hd : 0 < b.dof) (hL : C.Law U) {goal : List ℝ} (hgl : goal.length = b.dof) {dt : ℝ} (hdt : 0 < dt) :
    (∀ q dq b1 B, b.setQ q = .ok b1 → b1.setDq dq = .ok B → ∃ S : ℕ → Body,
      (∀ n, calls (fun B => B.jointSpaceControl E C (some goal) (step := some dt)) n B = .ok (S n)) ∧
        Settles b.dof S (fun i => goal.getD i 0)) ↔ dt < 1 / 5 := by
  refine (C120_iff h hD hs hx hd hL hgl 25 10 (maxAcc := none) (by simp) none hdt).trans ?_
  constructor
  · rintro ⟨-, -, h3⟩
    linarith
  · intro h1
    exact ⟨by norm_num, by linarith, by linarith⟩

/-! ## Witnesses -/

/-- The hypotheses of C119 hold for the loaded witness body with Euler's method, all gravity and
velocity products included, and for a reference that speeds up. -/
example (E : Ext) : ∃ d, ∃ o : IntOpts, Reach E demoLoaded d ∧ demoLoaded.Definite ∧ o.friction = false ∧
    o.aba = false ∧ o.jointLimits = false ∧ o.method = .euler ∧ o.gravity = true ∧ o.cc = true ∧
    demoLoaded.dof = 3 := by
  obtain ⟨d, h⟩ := demoLoaded_reach E
  exact ⟨d, ⟨true, true, false, false, .euler, false, 0⟩, h, demoLoaded_definite, rfl, rfl, rfl, rfl, rfl,
    rfl, rfl⟩

/-- A reference with constant acceleration 2. -/
example (dt : ℝ) : let x : ℕ → ℕ → ℝ := fun n _ => (n * dt) ^ 2
    let w : ℕ → ℕ → ℝ := fun n _ => 2 * (n * dt)
    ∀ n, ∀ i < 3, x (n + 1) i = x n i + dt * w n i + dt ^ 2 / 2 * 2 ∧ w (n + 1) i = w n i + dt * 2 := by
  intro x w n i _
  simp only [x, w]
  push_cast
  constructor <;> ring

/-- Gains for which the loop reaches the goal, and others for which it does not from some states. -/
example : (0 < (25 : ℝ) ∧ (25 : ℝ) * (1 / 10) < 2 * 10 ∧ (10 : ℝ) * (1 / 10) < 2) ∧
    ¬(0 < (25 : ℝ) ∧ (25 : ℝ) * (1 / 2) < 2 * 10 ∧ (10 : ℝ) * (1 / 2) < 2) := by
  norm_num

/-- The hypotheses of C120 hold for the gantry. -/
example (E : Ext) : ∃ d, Reach E gantry0 d ∧ gantry0.Definite ∧ gantry0.Sliding ∧ gantry0.AxesOK ∧
    0 < gantry0.dof ∧ ctl0.Law Mat3.IsRot := by
  obtain ⟨d, h⟩ := gantry_reach E
  refine ⟨d, h, gantry_definite, gantry_sliding, fun i hi => ?_, Nat.zero_lt_succ _, ctl0_law⟩
  rw [gantry_joint i hi]
  rfl

end SpatialDyn
