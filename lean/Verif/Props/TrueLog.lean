import Verif.Props.DiscreteConverge
import Verif.Lemmas.LogExists

/-!
# The variational integrator with the logarithm of the group of rigid motions

C112 and C113 ask of the external logarithm what `Ext.NearLog` and `Ext.NearLog2` say.  Every
logarithm in the sense of `Ext.TrueLog` has these properties, so that both hold for the logarithm the
code means to call; and there is such a logarithm.
-/

namespace SpatialDyn

open Finset Body

variable {E : Ext} {b : Body} {d : Bool}

/-- C112: with the logarithm of rigid motions the root finding succeeds below some step length, for
every tolerance, after a number of iterations that depends neither on the state nor on the step. -/
theorem C112_true_converges (h : Reach E b d) (hd : b.Definite) (ha : b.AxesOK)
    (hl : ∀ k < b.dof, b.load k = none) (hE : E.TrueLog) (tau : ℕ → ℝ) (fext : FExt) (g : Bool)
    (M : ℝ) :
    ∃ t0 > 0, ∀ eps > 0, ∃ N : ℕ, ∀ (B : Body) (dB : Bool) (p : Prev) (dt : ℝ) (o : DIntOpts),
      DReach E B dB p → StateOnly b B → B.Within p dt M → 0 < dt → dt < t0 →
      o.gravity = g → o.epsV = eps → N ≤ o.maxIter → B.Converges E tau dt fext o :=
  C112_converges h hd ha hl hE.near2.toNearLog tau fext g M

/-- C112: with the logarithm of rigid motions a step ends near a solution of the discrete
Euler–Lagrange equations. -/
theorem C112_true_step (h : Reach E b d) (hd : b.Definite) (ha : b.AxesOK)
    (hl : ∀ k < b.dof, b.load k = none) (hE : E.TrueLog) (tau : ℕ → ℝ) (fext : FExt) (g : Bool)
    (M : ℝ) :
    ∃ t0 > 0, ∃ C, ∀ eps > 0, ∃ N : ℕ, ∀ (B B' : Body) (dB : Bool) (p : Prev) (dt : ℝ)
      (o : DIntOpts), DReach E B dB p → StateOnly b B → B.Within p dt M → 0 < dt → dt < t0 →
      o.gravity = g → o.epsV = eps → N ≤ o.maxIter →
      B.discreteIntegrate E tau dt fext o = .ok B' →
      StateOnly b B' ∧ DReach E B' true (some (dt, B.pos)) ∧
      ∃ x : ℕ → ℝ,
        (∀ i < b.dof, B.discreteSpec E B.linkMomentum dt (B.before p dt) x fext i +
          (if g then dt * B.gravity.1 i else 0) = dt * tau i) ∧
        (∀ i < b.dof, |x i - B.pos i| ≤ C * dt) ∧
        (∀ i < b.dof, |B'.pos i - x i| ≤ C * dt * eps) :=
  C112_step h hd ha hl hE.near2.toNearLog tau fext g M

/-- C113: with the logarithm of rigid motions the variational integrator follows the motions of the
body to first order. -/
theorem C113_true_log (h : DReach E b d none) (hd : b.Definite) (ha : b.AxesOK)
    (hl : ∀ k < b.dof, b.load k = none) (hE : E.TrueLog) (tau : ℕ → ℝ) (fext : FExt) (oi : IntOpts)
    (hf : oi.friction = false) (hcc : oi.cc = true) (hab : oi.aba = false) {T : ℝ}
    {q dq : ℝ → List ℝ} (hM : b.Moves E tau fext oi T q dq) (hq : q 0 = b.q) (hdq : dq 0 = b.dq)
    {w : ℝ} (hw : 0 < w) :
    ∃ t0 > 0, ∃ C, ∀ dt, 0 < dt → dt < t0 → ∃ N : ℕ, ∀ o : DIntOpts, o.gravity = oi.gravity →
      o.epsV = w * dt ^ 2 → N ≤ o.maxIter → ∀ k : ℕ, k * dt ≤ T →
      ∃ b', dsteps E tau dt fext o k b = .ok b' ∧ StateOnly b b' ∧
        ∀ i < b.dof, |b'.pos i - (q (k * dt)).getD i 0| ≤ C * dt ∧
          |b'.vel i - (dq (k * dt)).getD i 0| ≤ C * dt :=
  C113_first_order h hd ha hl hE.near2 tau fext oi hf hcc hab hM hq hdq hw

/-- The hypotheses hold for the branching three-joint witness in motion, with the logarithm of the
group of rigid motions. -/
example : ∃ (d : Bool) (q dq : ℝ → List ℝ), DReach extLog demo d none ∧ demo.Definite ∧
    demo.AxesOK ∧ (∀ k < demo.dof, demo.load k = none) ∧ extLog.TrueLog ∧ demo.dof = 3 ∧
    demo.Moves extLog (fun _ => 1) (fun _ => none) ⟨true, true, false, false, .euler, false, 0.01⟩ 5
      q dq ∧ q 0 = demo.q ∧ dq 0 = demo.dq := by
  obtain ⟨d, h⟩ := demo_dreach extLog
  obtain ⟨q, dq, e1, e2, hM⟩ := C78_exists h.reach demo_definite demo_axesOK (fun _ => 1)
    (fun _ => none) ⟨true, true, false, false, .euler, false, 0.01⟩ rfl rfl (q0 := demo.q)
    (dq0 := demo.dq) rfl rfl
  exact ⟨d, q, dq, h, demo_definite, demo_axesOK, fun _ _ => rfl, extLog_true, rfl, hM 5, e1, e2⟩

end SpatialDyn
