import Verif.Spec.DiscreteAction
import Verif.Lemmas.DiscreteAction
import Verif.Props.DiscreteMomentum
import Verif.Props.TrueLog

/-!
# C114: the variational integrator is variational
-/

namespace SpatialDyn
open Finset Body
variable {E : Ext} {b : Body} {d : Bool} {p : Prev}

theorem update_deriv (u : ℕ → ℝ) (i j : ℕ) (s : ℝ) :
    HasDerivAt (fun s => Function.update u i s j) (if j = i then 1 else 0) s := by
  by_cases hij : j = i
  · subst hij
    simpa using hasDerivAt_id' s
  · simpa [Function.update_of_ne hij, hij] using hasDerivAt_const s (u j)

theorem V_single {σ : Sys} {i : ℕ} (hi : i < σ.n) (k : ℕ) :
    σ.V (fun j => if j = i then 1 else 0) k = σ.Jw k i := by
  unfold Sys.V
  rw [Finset.sum_eq_single i]
  · ext <;> simp
  · intro j _ hij; ext <;> simp [hij]
  · intro hn; exact absurd (mem_range.2 hi) hn

/-- Derivatives of the kinetic energy of a link over a step in its two ends. -/
theorem link_deriv (hE : E.TrueLog) : ∃ δ > 0, ∀ {b : Body}, b.Tree → b.Rigid → b.AxesOK →
    ∀ {k i : ℕ}, k < b.dof → i < b.dof → (b.rb k).inertia.Icom.IsSymm → ∀ {dt : ℝ}, dt ≠ 0 →
    ∀ u w x : ℕ → ℝ, (b.disp u w k).gap 1 < δ →
    HasDerivAt (fun s => dt * (1 / 2 * (b.stepVel E dt u (Function.update w i s) k).dot
        ((b.rb k).inertia.app (b.stepVel E dt u (Function.update w i s) k))))
      (((b.sysAt w x).Jw k i).dot ((b.twAt u k).actF (E.dlogT (b.disp u w k)
        ((b.rb k).inertia.app (b.stepVel E dt u w k))))) (w i) ∧
    HasDerivAt (fun s => dt * (1 / 2 * (b.stepVel E dt (Function.update u i s) w k).dot
        ((b.rb k).inertia.app (b.stepVel E dt (Function.update u i s) w k))))
      (-((b.sysAt u x).Jw k i).dot ((b.twAt u k).actF (E.dlogT (b.disp u w k)
        ((b.rb k).inertia.app (b.stepVel E dt u w k))))) (u i) := by
  obtain ⟨δ, hδ, H⟩ := hE.kinetic_deriv
  refine ⟨δ, hδ, ?_⟩
  intro b ht hr ha k i hk hi hI dt h0 u w x hg
  have hv : ∀ u, (b.twAt u k).Valid := fun u => twAt_valid ht hr u k hk
  have tw : ∀ u : ℕ → ℝ, HasTwist (fun s => b.twAt (Function.update u i s) k)
      ((b.sysAt u x).Jw k i) (u i) := by
    intro u
    have := twAt_twist ht hr ha (u := fun s => Function.update u i s)
      (w := fun j => if j = i then 1 else 0) (s := u i) (fun j _ => update_deriv u i j _) x k hk
    beta_reduce at this
    rw [Function.update_eq_self, V_single hi] at this
    exact this
  constructor
  · have h1 := (HasTwist.const (b.twAt u k).inv (w i)).mul (tw w) (hv u).inv
    rw [zero_add] at h1
    have h2 := H _ _ (w i) (b.rb k).inertia dt (fun r => (hv u).inv.mul (hv _)) (by
      beta_reduce; rw [Function.update_eq_self]; exact hg) h1 hI h0
    beta_reduce at h2
    rw [Function.update_eq_self] at h2
    refine h2.congr_deriv ?_
    rw [(hv u).dot_actF]
    rfl
  · have h0' : (b.twAt (Function.update u i (u i)) k).Valid := hv _
    have h1 := ((tw u).inverse h0').mul (HasTwist.const (b.twAt w k) (u i)) h0'.inv
    have z : (b.twAt (Function.update u i (u i)) k).inv.actM 0 = 0 := by
      ext <;> simp [Iso.actM, Mat3.mulVec, Vec3.cross]
    rw [z, add_zero, Function.update_eq_self] at h1
    have h2 := H _ _ (u i) (b.rb k).inertia dt (fun r => (hv _).inv.mul (hv w)) (by
      beta_reduce; rw [Function.update_eq_self]; exact hg) h1 hI h0
    beta_reduce at h2
    rw [Function.update_eq_self] at h2
    refine h2.congr_deriv ?_
    rw [(hv u).dot_actF, Motion.neg_dot]
    rfl

/-- C114: the discrete Euler–Lagrange equations are the conditions of stationary action.  There is a
size of displacements, given by the logarithm alone, below which for every body without loads, after
any history, the derivative of the action of the two steps from the previous configuration through
the current one to `q_next`, with respect to the current position of a joint, is the opposite of
what `discrete::InverseDynamics` returns plus the impulse of the external forces. -/
theorem C114_stationary (hE : E.TrueLog) : ∃ δ > 0, ∀ {b : Body} {d : Bool} {p : Prev},
    DReach E b d p → b.AxesOK → b.Massive → (∀ k < b.dof, b.load k = none) →
    ∀ (qn : ℕ → ℝ) {dt : ℝ} (fext : FExt) (g : Bool), dt ≠ 0 →
    (∀ k < b.dof, (b.disp (b.before p dt) b.pos k).gap 1 < δ ∧ (b.disp b.pos qn k).gap 1 < δ) →
    ∀ i < b.dof, HasDerivAt (fun s =>
        b.stepAction E dt g (b.before p dt) (Function.update b.pos i s) +
          b.stepAction E dt g (Function.update b.pos i s) qn)
      (-((b.discreteID E qn dt fext g).1 i + dt * b.fresh.genForce (fun k => (fext k).getD 0) i))
      (b.pos i) := by
  obtain ⟨δ, hδ, H⟩ := link_deriv hE
  refine ⟨δ, hδ, ?_⟩
  intro b d p h ha hm hl qn dt fext g h0 hg i hi
  have hinv := h.reach.inv
  have hlm : ∀ k < b.dof, ∀ m, b.linkMomentum k m = (b.rb k).inertia.app m := fun k hk m => by
    unfold linkMomentum parts
    rw [hl k hk]
    simp
  set qp := b.before p dt with hqp
  have hact : ∀ u w, b.stepAction E dt g u w = (∑ k ∈ range b.dof, dt * (1 / 2 *
      (b.stepVel E dt u w k).dot ((b.rb k).inertia.app (b.stepVel E dt u w k)))) -
      dt * (if g then b.potential fun k x => (b.twAt u k).app x else 0) := by
    intro u w
    unfold stepAction
    rw [mul_sum]
    congr 1
    exact sum_congr rfl fun k hk => by rw [hlm k (mem_range.1 hk)]
  have hsym : ∀ k < b.dof, (b.rb k).inertia.Icom.IsSymm := fun k hk =>
    hm.symm k hk _ (List.mem_cons_self ..)
  have hk1 := HasDerivAt.fun_sum (u := range b.dof) fun k hk =>
    (H hinv.tree hinv.rigid ha (mem_range.1 hk) hi (hsym k (mem_range.1 hk)) h0 qp b.pos b.vel
      (hg k (mem_range.1 hk)).1).1
  have hk2 := HasDerivAt.fun_sum (u := range b.dof) fun k hk =>
    (H hinv.tree hinv.rigid ha (mem_range.1 hk) hi (hsym k (mem_range.1 hk)) h0 b.pos qn b.vel
      (hg k (mem_range.1 hk)).2).2
  have hpot : HasDerivAt (fun s => if g then b.potential fun k x =>
      (b.twAt (Function.update b.pos i s) k).app x else 0)
      (if g then b.gravity.1 i else 0) (b.pos i) := by
    cases g
    · simpa using hasDerivAt_const (b.pos i) (0 : ℝ)
    · simp only [if_true]
      have := potential_deriv h.reach ha hm (u := fun s => Function.update b.pos i s)
        (w := fun j => if j = i then 1 else 0) (s := b.pos i) (Function.update_eq_self _ _)
        (fun j _ => update_deriv b.pos i j _)
      refine this.congr_deriv ?_
      rw [(gravity_run hinv).2 i hi]
      exact sum_congr rfl fun k _ => by rw [V_single (σ := b.fresh) hi]
  have hc := (hk1.sub (hasDerivAt_const (b.pos i)
    (dt * (if g then b.potential fun k x => (b.twAt qp k).app x else 0)))).add
    (hk2.sub (hpot.const_mul dt))
  have hf : (fun s => b.stepAction E dt g qp (Function.update b.pos i s) +
      b.stepAction E dt g (Function.update b.pos i s) qn) = _ :=
    funext fun s => by rw [hact, hact]
  rw [hf]
  refine hc.congr_deriv ?_
  rw [C42_equation h hl qn dt fext g i hi, ← hqp]
  unfold discreteSpec Sys.genForce
  show _ = -(∑ k ∈ range b.dof, _ + _ + dt * ∑ k ∈ range b.dof, _)
  have e : ∀ k ∈ range b.dof, (b.fresh.Jw k i).dot ((b.twAt b.pos k).actF
      (discMom E b.linkMomentum dt k (b.disp b.pos qn k) - (b.disp qp b.pos k).inv.actF
        (discMom E b.linkMomentum dt k (b.disp qp b.pos k))) - dt • (fext k).getD 0) =
      ((b.sysAt b.pos b.vel).Jw k i).dot ((b.twAt b.pos k).actF (E.dlogT (b.disp b.pos qn k)
        ((b.rb k).inertia.app (b.stepVel E dt b.pos qn k)))) -
      ((b.sysAt b.pos b.vel).Jw k i).dot ((b.twAt qp k).actF (E.dlogT (b.disp qp b.pos k)
        ((b.rb k).inertia.app (b.stepVel E dt qp b.pos k)))) -
      dt * (b.fresh.Jw k i).dot ((fext k).getD 0) := by
    intro k hk
    have hk := mem_range.1 hk
    have e1 : (b.twAt b.pos k).actF ((b.disp qp b.pos k).inv.actF
        (discMom E b.linkMomentum dt k (b.disp qp b.pos k))) =
        (b.twAt qp k).actF (discMom E b.linkMomentum dt k (b.disp qp b.pos k)) := by
      have h1 := twAt_valid hinv.tree hinv.rigid b.pos k hk
      have h2 := twAt_valid hinv.tree hinv.rigid qp k hk
      rw [← Iso.actF_mul _ _ h1]
      congr 1
      unfold disp
      rw [Iso.inv_mul_rev h2.inv h1, h2.inv_inv, ← mul_assoc, h1.mul_inv, one_mul]
    rw [Iso.actF_sub, e1, Motion.dot_sub, Motion.dot_sub, Motion.dot_smul]
    unfold discMom stepVel
    rw [hlm k hk, hlm k hk]
    rfl
  rw [sum_congr rfl e, sum_sub_distrib, sum_sub_distrib, ← mul_sum, sum_neg_distrib]
  cases g <;> simp <;> ring

theorem Body.StateOnly.stepAction {b' : Body} (h : StateOnly b b') :
    b'.stepAction E = b.stepAction E := by
  have h1 : b'.rb = b.rb := by unfold Body.rb; rw [h.rbs]
  have h2 : b'.twAt = b.twAt := by
    unfold Body.twAt Body.TpAt Body.par Body.dof; rw [h1, h.rbs, h.T0]
  have h3 : b'.parts = b.parts := by
    unfold Body.parts
    rw [h1, h.load]
  have h4 : b'.dof = b.dof := h.same_dof
  funext dt g u w
  unfold Body.stepAction Body.stepVel Body.linkMomentum Body.potential
  rw [h2, h3, h4, h.disp, h.g]

/-- What `discrete::InverseDynamics` returns depends on the positions of the joints of the body. -/
theorem discreteID_congr (h : DReach E b d p) {x y : ℕ → ℝ} (hxy : ∀ i < b.dof, x i = y i) (dt : ℝ)
    (fext : FExt) (g : Bool) {i : ℕ} (hi : i < b.dof) :
    (b.discreteID E x dt fext g).1 i = (b.discreteID E y dt fext g).1 i := by
  rw [discreteID_own h x dt fext g i hi, discreteID_own h y dt fext g i hi]
  congr 1
  unfold discreteSpec Sys.genForce
  refine sum_congr rfl fun k hk => ?_
  beta_reduce
  rw [disp_congr h.reach.inv (fun _ _ => rfl) hxy k (mem_range.1 hk)]

/-- Links move little when the joints do. -/
theorem disp_small (h : Inv E b) (M : ℝ) {δ : ℝ} (hδ : 0 < δ) : ∃ ρ > 0, ∀ u w : ℕ → ℝ,
    (∀ i < b.dof, |u i| ≤ M ∧ |w i| ≤ M ∧ |u i - w i| ≤ ρ) →
    ∀ k < b.dof, (b.disp u w k).gap 1 < δ := by
  have hs : ∀ k < b.dof, SmIso fun y : (Fin b.dof → ℝ) × (Fin b.dof → ℝ) =>
      b.disp (padFin y.1) (padFin y.2) k := fun k hk =>
    (twAt_smooth h.tree (fun i _ => padFin_smooth contDiff_fst i) k hk).inv.mul
      (twAt_smooth h.tree (fun i _ => padFin_smooth contDiff_snd i) k hk)
  have hL : ∃ L, 0 ≤ L ∧ ∀ k < b.dof, ∀ x y : (Fin b.dof → ℝ) × (Fin b.dof → ℝ),
      ‖x‖ ≤ |M| → ‖y‖ ≤ |M| → (b.disp (padFin x.1) (padFin x.2) k).gap
        (b.disp (padFin y.1) (padFin y.2) k) ≤ L * ‖x - y‖ := by
    choose L hL0 hL using fun k : Fin b.dof => gap_lip (hs k k.2) |M|
    refine ⟨∑ k, L k, sum_nonneg fun k _ => hL0 k, fun k hk x y hx hy => ?_⟩
    exact (hL ⟨k, hk⟩ x y hx hy).trans (mul_le_mul_of_nonneg_right
      (single_le_sum (f := L) (fun k _ => hL0 k) (mem_univ _)) (norm_nonneg _))
  obtain ⟨L, hL0, hL⟩ := hL
  refine ⟨δ / (L + 1), by positivity, fun u w hb k hk => ?_⟩
  set U : Fin b.dof → ℝ := fun i => u i
  set W : Fin b.dof → ℝ := fun i => w i
  have pad : ∀ (z : ℕ → ℝ) (i : ℕ), i < b.dof → padFin (fun i : Fin b.dof => z i) i = z i := by
    intro z i hi
    unfold padFin
    rw [dif_pos hi]
  have hU : ‖U‖ ≤ |M| := (pi_norm_le_iff_of_nonneg (abs_nonneg M)).2 fun i =>
    (hb i i.2).1.trans (le_abs_self _)
  have hW : ‖W‖ ≤ |M| := (pi_norm_le_iff_of_nonneg (abs_nonneg M)).2 fun i =>
    (hb i i.2).2.1.trans (le_abs_self _)
  have e1 := hL k hk (U, W) (U, U) (by rw [Prod.norm_mk]; exact max_le hU hW)
    (by rw [Prod.norm_mk]; exact max_le hU hU)
  have e2 : b.disp (padFin U) (padFin U) k = 1 := by
    unfold disp
    exact (twAt_valid h.tree h.rigid _ k hk).inv_mul
  have e3 : b.disp (padFin U) (padFin W) k = b.disp u w k :=
    disp_congr h (fun i hi => pad u i hi) (fun i hi => pad w i hi) k hk
  have e4 : ‖(U, W) - (U, U)‖ ≤ δ / (L + 1) := by
    rw [Prod.mk_sub_mk, sub_self, Prod.norm_mk, norm_zero]
    refine max_le (by positivity) ((pi_norm_le_iff_of_nonneg (by positivity)).2 fun i => ?_)
    rw [Pi.sub_apply, norm_sub_rev]
    exact (hb i i.2).2.2
  rw [e2, e3] at e1
  refine e1.trans_lt ((mul_le_mul_of_nonneg_left e4 hL0).trans_lt ?_)
  rw [mul_div_assoc', div_lt_iff₀ (by positivity)]
  nlinarith

theorem pathAction_update {g : Bool} {dt : ℝ} {N n : ℕ} (hn : n + 1 < N) (X : ℕ → ℕ → ℝ) :
    ∃ c, ∀ x, b.pathAction E dt g N (Function.update X (n + 1) x) =
      c + (b.stepAction E dt g (X n) x + b.stepAction E dt g x (X (n + 2))) := by
  refine ⟨∑ m ∈ ((range N).erase n).erase (n + 1), b.stepAction E dt g (X m) (X (m + 1)),
    fun x => ?_⟩
  unfold pathAction
  rw [← add_sum_erase (range N) _ (mem_range.2 (show n < N by omega)),
    ← add_sum_erase ((range N).erase n) _ (mem_erase.2 ⟨show n + 1 ≠ n by omega, mem_range.2 hn⟩)]
  rw [Function.update_self, Function.update_of_ne (show n ≠ n + 1 by omega),
    Function.update_of_ne (show n + 1 + 1 ≠ n + 1 by omega)]
  have : ∑ m ∈ ((range N).erase n).erase (n + 1), b.stepAction E dt g
      (Function.update X (n + 1) x m) (Function.update X (n + 1) x (m + 1)) =
      ∑ m ∈ ((range N).erase n).erase (n + 1), b.stepAction E dt g (X m) (X (m + 1)) := by
    refine sum_congr rfl fun m hm => ?_
    rw [mem_erase, mem_erase] at hm
    rw [Function.update_of_ne hm.1, Function.update_of_ne (show m + 1 ≠ n + 1 by omega)]
  rw [this]
  ring

/-- C114, the discrete principle of Lagrange and d'Alembert: a run of converged steps of equal length
is a path of stationary action.  For positions up to `M` there is a size `ρ` of the moves of the
joints in a step, so that for all runs with smaller moves, of any number of steps, with any torques
and external forces at every step: the derivative of the action of the whole path with respect to the
position of any joint at any inner point of the path is the opposite of the impulse of its torque and
of the external forces there, within the tolerance of the root finding. -/
theorem C114_run (h : DReach E b d p) (ha : b.AxesOK) (hm : b.Massive)
    (hl : ∀ k < b.dof, b.load k = none) (hE : E.TrueLog) (M : ℝ) :
    ∃ ρ > 0, ∀ {B : ℕ → Body} {N : ℕ} {dt : ℝ} {o : DIntOpts} {tau : ℕ → ℕ → ℝ} {fext : ℕ → FExt},
      B 0 = b → dt ≠ 0 → (∀ n < N, (B n).Converges E (tau n) dt (fext n) o) →
      (∀ n < N, (B n).discreteIntegrate E (tau n) dt (fext n) o = .ok (B (n + 1))) →
      (∀ n ≤ N, ∀ i < b.dof, |(B n).pos i| ≤ M) →
      (∀ n < N, ∀ i < b.dof, |(B (n + 1)).pos i - (B n).pos i| ≤ ρ) →
      ∀ n, n + 1 < N → ∀ i < b.dof, ∃ S' : ℝ,
        HasDerivAt (fun s => b.pathAction E dt o.gravity N (Function.update (fun n => (B n).pos)
          (n + 1) (Function.update (B (n + 1)).pos i s))) S' ((B (n + 1)).pos i) ∧
        |S' + dt * (tau (n + 1) i +
          (B (n + 1)).fresh.genForce (fun k => (fext (n + 1) k).getD 0) i)| < o.epsV := by
  obtain ⟨δ, hδ, H⟩ := C114_stationary hE
  obtain ⟨ρ, hρ, hsm⟩ := disp_small h.reach.inv M hδ
  refine ⟨ρ, hρ, ?_⟩
  intro B N dt o tau fext hB0 h0 hc hs hM hmv n hn i hi
  have key : ∀ n < N, StateOnly b (B (n + 1)) ∧
      DReach E (B (n + 1)) true (some (dt, (B n).pos)) := by
    intro n
    induction n with
    | zero =>
      intro hn
      have hr : DReach E (B 0) d p := hB0 ▸ h
      obtain ⟨k, x, -, -, -, hx, hst, hso, hr⟩ := C42_step hr (hc 0 hn) (hs 0 hn)
      exact ⟨hB0 ▸ hso, hr⟩
    | succ n ih =>
      intro hn
      obtain ⟨j1, j2⟩ := ih (by omega)
      obtain ⟨k, x, -, -, -, hx, hst, hso, hr⟩ := C42_step j2 (hc (n + 1) hn) (hs (n + 1) hn)
      exact ⟨j1.trans hso, hr⟩
  obtain ⟨so, hr⟩ := key n (by omega)
  have hd : (B (n + 1)).dof = b.dof := so.same_dof
  have hrb : (B (n + 1)).rb = b.rb := by unfold Body.rb; rw [so.rbs]
  have e : (B (n + 1)).before (some (dt, (B n).pos)) dt = (B n).pos := if_pos rfl
  have hi' : i < (B (n + 1)).dof := hd.symm ▸ hi
  have st := H hr (by intro i hi; rw [hrb]; exact ha i (hd ▸ hi)) (so.massive hm)
    (fun k hk => by rw [so.load]; exact hl k (hd ▸ hk)) (B (n + 2)).pos (fext (n + 1)) o.gravity h0
    (fun k hk => by
      rw [e, so.disp]
      refine ⟨hsm _ _ (fun j hj => ⟨hM n (by omega) j hj, hM (n + 1) (by omega) j hj, ?_⟩) k (hd ▸ hk),
        hsm _ _ (fun j hj => ⟨hM (n + 1) (by omega) j hj, hM (n + 2) (by omega) j hj, ?_⟩) k (hd ▸ hk)⟩
      · rw [abs_sub_comm]; exact hmv n (by omega) j hj
      · rw [abs_sub_comm]; exact hmv (n + 1) (by omega) j hj) i hi'
  rw [e, so.stepAction] at st
  obtain ⟨c, hcst⟩ := pathAction_update (E := E) (b := b) (g := o.gravity) (dt := dt) hn
    (fun n => (B n).pos)
  refine ⟨_, HasDerivAt.congr_of_eventuallyEq (st.const_add c)
    (Filter.Eventually.of_forall fun s => hcst _), ?_⟩
  obtain ⟨k, x, -, -, -, hx, hst, -, -⟩ := C42_step hr (hc (n + 1) hn) (hs (n + 1) hn)
  have hxi : |((B (n + 1)).discreteID E x dt (fext (n + 1)) o.gravity).1 i - dt * tau (n + 1) i| <
      o.epsV := by
    refine lt_of_le_of_lt ?_ hx
    refine Real.abs_le_sqrt ?_
    exact single_le_sum (f := fun i => (((B (n + 1)).discreteID E x dt (fext (n + 1))
      o.gravity).1 i - dt * tau (n + 1) i) ^ 2) (fun _ _ => sq_nonneg _) (mem_range.2 hi')
  rw [discreteID_congr hr (y := (B (n + 2)).pos) (fun j hj => (hst j hj).1.symm) dt _ _ hi'] at hxi
  rw [← abs_neg]
  convert hxi using 2
  ring

/-- C114 for the repeated calls of C113: with steps shorter than `t0`, a tolerance small against the
step and enough iterations, `discrete::Integrate` called repeatedly gives a path of stationary action,
within the tolerance, over any interval on which the motion of the body exists. -/
theorem C114_motion (h : DReach E b d none) (hd : b.Definite) (ha : b.AxesOK)
    (hl : ∀ k < b.dof, b.load k = none) (hE : E.TrueLog) (tau : ℕ → ℝ) (fext : FExt) (oi : IntOpts)
    (hf : oi.friction = false) (hcc : oi.cc = true) (hab : oi.aba = false) {T : ℝ}
    {q dq : ℝ → List ℝ} (hM : b.Moves E tau fext oi T q dq) (hq : q 0 = b.q) (hdq : dq 0 = b.dq) :
    ∃ t0 > 0, ∃ κ > 0, ∀ eps > 0, ∃ K : ℕ, ∀ (dt : ℝ) (o : DIntOpts), 0 < dt → dt < t0 →
      eps ≤ κ * dt → o.gravity = oi.gravity → o.epsV = eps → K ≤ o.maxIter →
      ∀ N : ℕ, N * dt ≤ T → ∃ B : ℕ → Body, (∀ n ≤ N, dsteps E tau dt fext o n b = .ok (B n)) ∧
        ∀ n, n + 1 < N → ∀ i < b.dof, ∃ S' : ℝ,
          HasDerivAt (fun s => b.pathAction E dt o.gravity N (Function.update (fun n => (B n).pos)
            (n + 1) (Function.update (B (n + 1)).pos i s))) S' ((B (n + 1)).pos i) ∧
          |S' + dt * (tau i + (B (n + 1)).fresh.genForce (fun k => (fext k).getD 0) i)| < eps := by
  obtain ⟨t1, ht1, κ, hκ, C, M, H⟩ :=
    discrete_track h hd ha hl hE.near2 tau fext oi hf hcc hab hM hq hdq
  obtain ⟨ρ, hρ, HR⟩ := C114_run h ha (hd.massive h.reach.inv.tree) hl hE M
  obtain ⟨t2, ht2, HC⟩ := C112_true_converges h.reach hd ha hl hE tau fext oi.gravity M
  refine ⟨min (min t1 t2) (ρ / (|M| + 1)), lt_min (lt_min ht1 ht2) (by positivity), κ, hκ,
    fun eps heps => ?_⟩
  obtain ⟨K1, HK1⟩ := H eps heps
  obtain ⟨K2, HK2⟩ := HC eps heps
  refine ⟨max K1 K2, fun dt o h0 hdt hk hg he hmax N hN => ?_⟩
  have d1 := hdt.trans_le ((min_le_left _ _).trans (min_le_left _ _))
  have d2 := hdt.trans_le ((min_le_left _ _).trans (min_le_right _ _))
  have d3 := hdt.trans_le (min_le_right _ _)
  have hle : ∀ n ≤ N, (n : ℝ) * dt ≤ T := fun n hn =>
    (mul_le_mul_of_nonneg_right (Nat.cast_le.2 hn) h0.le).trans hN
  have key := fun (n : ℕ) (hn : n ≤ N) =>
    HK1 dt o h0 d1 hk hg he ((le_max_left _ _).trans hmax) n (hle n hn)
  have hex : ∀ n, ∃ B : Body, n ≤ N → ∃ (dB : Bool) (p : Prev),
      dsteps E tau dt fext o n b = .ok B ∧ DReach E B dB p ∧ StateOnly b B ∧ B.Within p dt M ∧
      ∀ m A, n = m + 1 → dsteps E tau dt fext o m b = .ok A → p = some (dt, A.pos) := by
    intro n
    by_cases hn : n ≤ N
    · obtain ⟨B, dB, p, e1, e2, e3, e4, e5, -⟩ := key n hn
      exact ⟨B, fun _ => ⟨dB, p, e1, e2, e3, e4, e5⟩⟩
    · exact ⟨b, fun h => absurd h hn⟩
  choose B hB using hex
  refine ⟨B, fun n hn => ?_, ?_⟩
  · obtain ⟨dB, p, e1, -⟩ := hB n hn
    exact e1
  have hB0 : B 0 = b := by
    obtain ⟨dB, p, e1, -⟩ := hB 0 (Nat.zero_le _)
    exact (Out.ok.inj e1).symm
  have hrun : ∀ n < N, (B n).discreteIntegrate E tau dt fext o = .ok (B (n + 1)) := by
    intro n hn
    obtain ⟨dB, p, e1, -⟩ := hB n hn.le
    obtain ⟨dB', p', f1, -⟩ := hB (n + 1) hn
    have : (match dsteps E tau dt fext o n b with
      | .ok b1 => b1.discreteIntegrate E tau dt fext o
      | .throws => .throws
      | .ub => .ub) = .ok (B (n + 1)) := f1
    rw [e1] at this
    exact this
  have res := HR (B := B) (N := N) (dt := dt) (o := o) (tau := fun _ => tau) (fext := fun _ => fext)
    hB0 h0.ne' (fun n hn => by
      obtain ⟨dB, p, e1, e2, e3, e4, -⟩ := hB n hn.le
      exact HK2 (B n) dB p dt o e2 e3 e4 h0 d2 hg he ((le_max_right _ _).trans hmax)) hrun
    (fun n hn i hi => by
      obtain ⟨dB, p, e1, e2, e3, e4, -⟩ := hB n hn
      exact (e4 i (e3.same_dof.symm ▸ hi)).1)
    (fun n hn i hi => by
      obtain ⟨dA, pA, a1, -⟩ := hB n hn.le
      obtain ⟨dB, p, e1, e2, e3, e4, e5⟩ := hB (n + 1) hn
      have hp := e5 n (B n) rfl a1
      have := (e4 i (e3.same_dof.symm ▸ hi)).2.2
      rw [hp, show (B (n + 1)).before (some (dt, (B n).pos)) dt = (B n).pos from if_pos rfl] at this
      refine this.trans ?_
      rw [lt_div_iff₀ (by positivity)] at d3
      have : M * dt ≤ |M| * dt := mul_le_mul_of_nonneg_right (le_abs_self M) h0.le
      nlinarith)
  intro n hn i hi
  obtain ⟨S', r1, r2⟩ := res n hn i hi
  exact ⟨S', r1, he ▸ r2⟩

/-- The hypotheses hold for the branching three-joint witness in motion under gravity and torques, with
the logarithm of the group of rigid motions: runs of any number of steps of some length are paths of
stationary action. -/
example : ∃ (d : Bool) (dt : ℝ) (o : DIntOpts) (B : ℕ → Body), DReach extLog demo d none ∧
    demo.Definite ∧ demo.AxesOK ∧ demo.Massive ∧ (∀ k < demo.dof, demo.load k = none) ∧
    extLog.TrueLog ∧ demo.dof = 3 ∧ 0 < dt ∧ o.gravity = true ∧ 10 * dt ≤ 5 ∧
    (∀ n ≤ 10, dsteps extLog (fun _ => 1) dt (fun _ => none) o n demo = .ok (B n)) ∧
    ∀ n, n + 1 < 10 → ∀ i < demo.dof, ∃ S' : ℝ,
      HasDerivAt (fun s => demo.pathAction extLog dt true 10 (Function.update (fun n => (B n).pos)
        (n + 1) (Function.update (B (n + 1)).pos i s))) S' ((B (n + 1)).pos i) ∧
      |S' + dt * (1 + (B (n + 1)).fresh.genForce (fun _ => 0) i)| < o.epsV := by
  obtain ⟨d, h⟩ := demo_dreach extLog
  obtain ⟨q, dq, e1, e2, hM⟩ := C78_exists h.reach demo_definite demo_axesOK (fun _ => 1)
    (fun _ => none) ⟨true, true, false, false, .euler, false, 0.01⟩ rfl rfl (q0 := demo.q)
    (dq0 := demo.dq) rfl rfl
  obtain ⟨t0, ht0, κ, hκ, H⟩ := C114_motion h demo_definite demo_axesOK (fun _ _ => rfl) extLog_true
    (fun _ => 1) (fun _ => none) ⟨true, true, false, false, .euler, false, 0.01⟩ rfl rfl rfl (hM 5)
    e1 e2
  have hdt : 0 < min (t0 / 2) (1 / 2) := lt_min (by positivity) (by norm_num)
  obtain ⟨K, HK⟩ := H (κ * min (t0 / 2) (1 / 2)) (by positivity)
  obtain ⟨B, hB, hS⟩ := HK (min (t0 / 2) (1 / 2)) ⟨true, κ * min (t0 / 2) (1 / 2), K⟩ hdt
    ((min_le_left _ _).trans_lt (by linarith)) le_rfl rfl rfl le_rfl 10
    (by have := min_le_right (t0 / 2) (1 / 2 : ℝ); push_cast; linarith)
  exact ⟨d, _, _, B, h, demo_definite, demo_axesOK, demo_definite.massive h.reach.inv.tree,
    fun _ _ => rfl, extLog_true, rfl, hdt, rfl,
    by have := min_le_right (t0 / 2) (1 / 2 : ℝ); linarith, hB, hS⟩

end SpatialDyn
