import Verif.Lemmas.Newton
import Verif.Props.Converge
import Verif.Props.Discrete

/-!
# C112: convergence of the root finding of `discrete::Integrate`

`Integrate` looks for the next position with a fixed number of corrections by the joint-space inertia
and gives up silently when none of them is within the tolerance.  For small time steps it does not
give up: the corrections converge geometrically, with a ratio as small as wanted, to a solution of the
discrete Euler–Lagrange equations, the only one nearby.  Everything is uniform over all bounded
states, whatever the calls that led to them.
-/

namespace SpatialDyn
open Finset Body Filter Topology
variable {E : Ext} {b : Body} {d : Bool}

/-- State and previous configuration are bounded: positions and rates by `M`, the previous
configuration by a motion at rate `M`. -/
def Body.Within (b : Body) (p : Prev) (dt M : ℝ) : Prop :=
  ∀ i < b.dof, |b.pos i| ≤ M ∧ |b.vel i| ≤ M ∧ |b.pos i - b.before p dt i| ≤ M * dt

theorem Body.StateOnly.same_dof {B : Body} (h : StateOnly b B) : B.dof = b.dof := by
  unfold Body.dof; rw [h.rbs]

/-- C112: whatever the ratio `r`, below some step length the defects of the successive candidates
decrease like `r ^ k`, uniformly over all bounded states of the body and all histories. -/
theorem C112_geometric (h : Reach E b d) (hd : b.Definite) (ha : b.AxesOK)
    (hl : ∀ k < b.dof, b.load k = none) (hE : E.NearLog) (tau : ℕ → ℝ) (fext : FExt) (g : Bool)
    (M : ℝ) {r : ℝ} (hr0 : 0 < r) (hr1 : r < 1) :
    ∃ t0 > 0, ∃ C, ∀ (B : Body) (dB : Bool) (p : Prev) (dt : ℝ),
      DReach E B dB p → StateOnly b B → B.Within p dt M → 0 < dt → dt < t0 →
      ∀ k, Real.sqrt (∑ i ∈ range b.dof,
        ((B.discreteID E (B.candidate E tau dt fext g k) dt fext g).1 i - dt * tau i) ^ 2) ≤
          C * r ^ k := by
  obtain ⟨t0, ht0, C, ρ, -, H⟩ := root_uniform h hd ha hl hE tau fext g M hr0 hr1
  refine ⟨t0, ht0, C, fun B dB p dt hB hs hw h1 h2 => ?_⟩
  exact (H B dB p dt hB hs (fun i hi => hw i (hs.same_dof.symm ▸ hi)) h1 h2).1

/-- C112: below some step length the discrete Euler–Lagrange equations through the previous
configuration and the current one have a solution at a distance of the order of the step, it is the
only one within a distance `ρ` that depends neither on the state nor on the step, and the candidates
converge to it. -/
theorem C112_root (h : Reach E b d) (hd : b.Definite) (ha : b.AxesOK)
    (hl : ∀ k < b.dof, b.load k = none) (hE : E.NearLog) (tau : ℕ → ℝ) (fext : FExt) (g : Bool)
    (M : ℝ) {r : ℝ} (hr0 : 0 < r) (hr1 : r < 1) :
    ∃ t0 > 0, ∃ C, ∃ ρ > 0, ∀ (B : Body) (dB : Bool) (p : Prev) (dt : ℝ),
      DReach E B dB p → StateOnly b B → B.Within p dt M → 0 < dt → dt < t0 →
      ∃ x : ℕ → ℝ,
        (∀ i < b.dof, B.discreteSpec E B.linkMomentum dt (B.before p dt) x fext i +
          (if g then dt * B.gravity.1 i else 0) = dt * tau i) ∧
        (∀ i < b.dof, |x i - B.pos i| ≤ C * dt) ∧
        (∀ k, ∀ i < b.dof, |B.candidate E tau dt fext g k i - x i| ≤ C * dt * r ^ k) ∧
        ∀ y : ℕ → ℝ, (∀ i < b.dof, |y i - B.pos i| ≤ ρ) →
          (∀ i < b.dof, B.discreteSpec E B.linkMomentum dt (B.before p dt) y fext i +
            (if g then dt * B.gravity.1 i else 0) = dt * tau i) → ∀ i < b.dof, y i = x i := by
  obtain ⟨t0, ht0, C, ρ, hρ, H⟩ := root_uniform h hd ha hl hE tau fext g M hr0 hr1
  refine ⟨t0, ht0, C, ρ, hρ, fun B dB p dt hB hs hw h1 h2 => ?_⟩
  have hn := hs.same_dof
  have hlB : ∀ k < B.dof, B.load k = none := fun k hk => by rw [hs.load]; exact hl k (hn ▸ hk)
  obtain ⟨-, x, hx, hk, -, hu⟩ :=
    H B dB p dt hB hs (fun i hi => hw i (hn.symm ▸ hi)) h1 h2
  have hz : ∀ (y : ℕ → ℝ) (i : ℕ), i < b.dof → (B.defect E tau dt fext g y i = 0 ↔
      B.discreteSpec E B.linkMomentum dt (B.before p dt) y fext i +
        (if g then dt * B.gravity.1 i else 0) = dt * tau i) := by
    intro y i hi
    unfold Body.defect
    rw [C42_equation hB hlB y dt fext g i (hn.symm ▸ hi), sub_eq_zero]
  refine ⟨x, fun i hi => (hz x i hi).1 (hx i hi).1, fun i hi => (hx i hi).2, hk,
    fun y h1 h2 i hi => ?_⟩
  have h3 := hu y h1 i hi
  rw [sum_eq_zero fun j hj => by rw [(hz y j (mem_range.1 hj)).2 (h2 j (mem_range.1 hj))]; norm_num,
    Real.sqrt_zero, mul_zero] at h3
  exact sub_eq_zero.1 (abs_eq_zero.1 (le_antisymm h3 (abs_nonneg _)))

/-- C112: for every tolerance there is a number of iterations that suffices, for all bounded states
and all steps below some length. -/
theorem C112_converges (h : Reach E b d) (hd : b.Definite) (ha : b.AxesOK)
    (hl : ∀ k < b.dof, b.load k = none) (hE : E.NearLog) (tau : ℕ → ℝ) (fext : FExt) (g : Bool)
    (M : ℝ) :
    ∃ t0 > 0, ∀ eps > 0, ∃ N : ℕ, ∀ (B : Body) (dB : Bool) (p : Prev) (dt : ℝ) (o : DIntOpts),
      DReach E B dB p → StateOnly b B → B.Within p dt M → 0 < dt → dt < t0 →
      o.gravity = g → o.epsV = eps → N ≤ o.maxIter → B.Converges E tau dt fext o := by
  obtain ⟨t0, ht0, C, H⟩ := C112_geometric h hd ha hl hE tau fext g M
    (r := 1 / 2) (by norm_num) (by norm_num)
  refine ⟨t0, ht0, fun eps heps => ?_⟩
  have hlim : Tendsto (fun k : ℕ => C * (1 / 2 : ℝ) ^ k) atTop (𝓝 (C * 0)) :=
    (tendsto_pow_atTop_nhds_zero_of_lt_one (by norm_num) (by norm_num)).const_mul C
  rw [mul_zero] at hlim
  obtain ⟨K, hK⟩ := (hlim.eventually (gt_mem_nhds heps)).exists
  refine ⟨K + 1, fun B dB p dt o hB hs hw h1 h2 hg he hN => ⟨K, by omega, ?_⟩⟩
  subst hg he
  unfold Accepts
  rw [hs.same_dof]
  exact (H B dB p dt hB hs hw h1 h2 K).trans_lt hK

/-- C112: a step of `discrete::Integrate` from any bounded state, shorter than `t0` and with enough
iterations, ends within `C dt epsV` of the exact solution of the discrete Euler–Lagrange equations
(and satisfies them to the tolerance), whichever candidate it stops at. -/
theorem C112_step (h : Reach E b d) (hd : b.Definite) (ha : b.AxesOK)
    (hl : ∀ k < b.dof, b.load k = none) (hE : E.NearLog) (tau : ℕ → ℝ) (fext : FExt) (g : Bool)
    (M : ℝ) :
    ∃ t0 > 0, ∃ C, ∀ eps > 0, ∃ N : ℕ, ∀ (B B' : Body) (dB : Bool) (p : Prev) (dt : ℝ)
      (o : DIntOpts), DReach E B dB p → StateOnly b B → B.Within p dt M → 0 < dt → dt < t0 →
      o.gravity = g → o.epsV = eps → N ≤ o.maxIter →
      B.discreteIntegrate E tau dt fext o = .ok B' →
      StateOnly b B' ∧ DReach E B' true (some (dt, B.pos)) ∧
      ∃ x : ℕ → ℝ,
        (∀ i < b.dof, B.discreteSpec E B.linkMomentum dt (B.before p dt) x fext i +
          (if g then dt * B.gravity.1 i else 0) = dt * tau i) ∧
        (∀ i < b.dof, |x i - B.pos i| ≤ C * dt) ∧
        (∀ i < b.dof, |B'.pos i - x i| ≤ C * dt * eps) := by
  obtain ⟨t0, ht0, C, ρ, hρ, H⟩ := root_uniform h hd ha hl hE tau fext g M
    (r := 1 / 2) (by norm_num) (by norm_num)
  refine ⟨t0, ht0, C, fun eps heps => ?_⟩
  have hlim : Tendsto (fun k : ℕ => C * (1 / 2 : ℝ) ^ k) atTop (𝓝 (C * 0)) :=
    (tendsto_pow_atTop_nhds_zero_of_lt_one (by norm_num) (by norm_num)).const_mul C
  rw [mul_zero] at hlim
  obtain ⟨K, hK⟩ := (hlim.eventually (gt_mem_nhds heps)).exists
  refine ⟨K + 1, fun B B' dB p dt o hB hs hw h1 h2 hg he hN hst => ?_⟩
  subst hg he
  have hn := hs.same_dof
  obtain ⟨hdef, x, hx, hk, hcand, hu⟩ := H B dB p dt hB hs (fun i hi => hw i (hn.symm ▸ hi)) h1 h2
  have hc : B.Converges E tau dt fext o := ⟨K, by omega, by
    unfold Accepts
    rw [hn]
    exact (hdef K).trans_lt hK⟩
  obtain ⟨k, y, -, rfl, -, hacc, hpos, hso, hr⟩ := C42_step hB hc hst
  have hlB : ∀ k < B.dof, B.load k = none := fun k hk => by rw [hs.load]; exact hl k (hn ▸ hk)
  have hC0 : 0 ≤ C * dt := by
    by_contra hneg
    rcases Nat.eq_zero_or_pos b.dof with h0 | h0
    · have h3 := hdef 0
      rw [h0] at h3
      simp only [range_zero, sum_empty, Real.sqrt_zero, pow_zero, mul_one] at h3
      exact hneg (mul_nonneg h3 h1.le)
    · exact hneg ((abs_nonneg _).trans (hx 0 h0).2)
  refine ⟨hs.trans hso, hr, x, fun i hi => ?_, fun i hi => (hx i hi).2, fun i hi => ?_⟩
  · have h3 := (hx i hi).1
    unfold Body.defect at h3
    rw [C42_equation hB hlB x dt fext o.gravity i (hn.symm ▸ hi), sub_eq_zero] at h3
    exact h3
  · rw [(hpos i (hn.symm ▸ hi)).1]
    refine (hu _ (hcand k) i hi).trans (mul_le_mul_of_nonneg_left ?_ hC0)
    rw [hn] at hacc
    exact hacc.le

/-- C112: a body whose previous configuration is not fixed by its history (the state has just been
set) is covered by a bound on its positions and rates. -/
theorem C112_fresh {M dt : ℝ} (hdt : 0 < dt)
    (hM : ∀ i < b.dof, |b.pos i| ≤ M ∧ |b.vel i| ≤ M) : b.Within none dt M := by
  intro i hi
  refine ⟨(hM i hi).1, (hM i hi).2, ?_⟩
  have : b.pos i - b.before none dt i = dt * b.vel i := by
    show b.pos i - (b.pos i - dt * b.vel i) = _
    ring
  rw [this, abs_mul, abs_of_pos hdt, mul_comm]
  exact mul_le_mul_of_nonneg_right (hM i hi).2 hdt.le

/-! ## Witnesses -/

/-- External functions with the displacement itself in place of its logarithm. -/
noncomputable def extN : Ext := { ext0 with log := Iso.twist }

theorem extN_near : extN.NearLog where
  dlogT_add _ _ _ := rfl
  dlogT_smul _ _ _ := rfl
  dlogT_one _ := rfl
  dlogT_lip := ⟨1, one_pos, 0, fun T U _ _ _ _ f => by
    show (f - f).size ≤ _
    rw [sub_self]
    simp [Force.size, Vec3.size]⟩
  log_one := Iso.twist_one
  log_near ε hε := ⟨1, one_pos, fun T U _ _ _ _ => by
    show (T.twist - U.twist - (T.twist - U.twist)).size ≤ _
    rw [sub_self]
    have : 0 ≤ T.gap U := by unfold Iso.gap Mat3.size Vec3.size; positivity
    have := mul_nonneg hε.le this
    simpa [Motion.size, Vec3.size] using this⟩

theorem dreach_execAll : ∀ (h : List Op) {b b' : Body} {d : Bool}, DReach E b d none →
    (∀ op ∈ h, (match op with
      | .addRigidBody rb _ => rb.T.Valid
      | .setQ _ => True
      | .setDq _ => True
      | _ => False : Prop)) → execAll E b h = some b' → ∃ d', DReach E b' d' none
  | [], _, _, _, hr, _, hs => by cases hs; exact ⟨_, hr⟩
  | op :: l, b, b', d, hr, ho, hs => by
    unfold execAll at hs
    obtain ⟨b1, h1, h2⟩ := Option.bind_eq_some_iff.1 hs
    have h0 := ho op (List.mem_cons_self ..)
    have h3 : ∃ d1, DReach E b1 d1 none := by
      cases op with
      | addRigidBody rb p =>
        have := DReach.step (.addRigidBody rb p) hr h0 h1 trivial
        rw [show Op.prev b b1 none (.addRigidBody rb p) = none by simp [Op.prev]] at this
        exact ⟨_, this⟩
      | setQ q =>
        have := DReach.step (.setQ q) hr trivial h1 trivial
        rw [show Op.prev b b1 none (.setQ q) = none by simp [Op.prev]] at this
        exact ⟨_, this⟩
      | setDq q =>
        have := DReach.step (.setDq q) hr trivial h1 trivial
        rw [show Op.prev b b1 none (.setDq q) = none by simp [Op.prev]] at this
        exact ⟨_, this⟩
      | _ => exact h0.elim
    obtain ⟨d1, h3⟩ := h3
    exact dreach_execAll l h3 (fun o h => ho o (List.mem_cons_of_mem _ h)) h2

theorem demo_dreach (E : Ext) : ∃ d, DReach E demo d none := by
  refine dreach_execAll demoOps (DReach.init cache0) ?_ (demo_exec E)
  intro op hop
  simp only [demoOps, List.mem_cons, List.not_mem_nil, or_false] at hop
  rcases hop with rfl | rfl | rfl | rfl | rfl <;> first | trivial | exact quarterTurn_valid

/-- The hypotheses hold for the branching three-joint witness in motion under gravity, and its
discrete steps end near exact solutions of the equations. -/
example : ∃ (d : Bool) (t0 : ℝ) (N : ℕ), DReach extN demo d none ∧ demo.Definite ∧ demo.AxesOK ∧
    (∀ k < demo.dof, demo.load k = none) ∧ extN.NearLog ∧ 0 < t0 ∧ demo.dof = 3 ∧
    (∀ dt, 0 < dt → demo.Within none dt 3) ∧
    ∀ dt, 0 < dt → dt < t0 → demo.Converges extN (fun _ => 1) dt (fun _ => none)
      ⟨true, 1e-6, N⟩ := by
  obtain ⟨d, h⟩ := demo_dreach extN
  have hw : ∀ dt, 0 < dt → demo.Within none dt 3 := fun dt hdt => C112_fresh hdt (by
    intro i hi
    rcases demo_lt hi with rfl | rfl | rfl
    · exact ⟨by show |(1 : ℝ)| ≤ 3; norm_num, by show |(1 : ℝ)| ≤ 3; norm_num⟩
    · exact ⟨by show |(2 : ℝ)| ≤ 3; norm_num, by show |(-1 : ℝ)| ≤ 3; norm_num⟩
    · exact ⟨by show |(3 : ℝ)| ≤ 3; norm_num, by show |(2 : ℝ)| ≤ 3; norm_num⟩)
  obtain ⟨t0, ht0, H⟩ := C112_converges h.reach demo_definite demo_axesOK (fun _ _ => rfl) extN_near
    (fun _ => 1) (fun _ => none) true 3
  obtain ⟨N, hN⟩ := H 1e-6 (by norm_num)
  exact ⟨d, t0, N, h, demo_definite, demo_axesOK, fun _ _ => rfl, extN_near, ht0, rfl, hw,
    fun dt h1 h2 => hN demo d none dt _ h ⟨rfl, rfl, rfl, rfl, rfl, rfl, rfl, rfl, rfl⟩ (hw dt h1) h1 h2 rfl rfl le_rfl⟩

end SpatialDyn
