import Verif.Props.Friction

/-!
# Joint friction in the articulated body algorithm (C52)

What the friction inside `ForwardDynamicsAba` amounts to: the friction-free algorithm under torques
reduced by friction torques within the limits of every joint.  It holds a resting body that no force
but the joint torques acts on.
-/

namespace SpatialDyn
open Finset Body
open Sys (signum)

variable {E : Ext} {b : Body} {d : Bool}

theorem accLoop_contrib {β : Type*} (op : β → β → β) {n : ℕ} {par : ℕ → Option ℕ}
    (hp : ParLt n par) (c1 c2 : ℕ → β → β) (B0 : ℕ → β)
    (h : ∀ i < n, c1 i (accLoop op n par c1 B0 i) = c2 i (accLoop op n par c1 B0 i)) :
    accLoop op n par c1 B0 = accLoop op n par c2 B0 := by
  induction n generalizing B0 with
  | zero => rfl
  | succ n ih =>
    have hn := h n (Nat.lt_succ_self n)
    rw [accLoop_ge op hp c1 B0 n le_rfl] at hn
    rw [accLoop_succ, accLoop_succ]
    simp only [accLoop_succ op n par c1 B0] at h
    cases hpar : par n with
    | none =>
      simp only [hpar] at h
      exact ih hp.mono B0 fun i hi => h i (by omega)
    | some p =>
      simp only [hpar] at h
      simp only [← hn]
      exact ih hp.mono _ fun i hi => h i (by omega)

/-- What the start and the contributions have in common, the sums have. -/
theorem accLoop_keeps {β : Type*} (op : β → β → β) {n : ℕ} {par : ℕ → Option ℕ} (P : β → Prop)
    (hop : ∀ x y, P x → P y → P (op x y)) (hp : ParLt n par) (contrib : ℕ → β → β)
    (hcon : ∀ i < n, ∀ x, P x → P (contrib i x)) (B0 : ℕ → β) (h0 : ∀ i < n, P (B0 i)) :
    ∀ i < n, P (accLoop op n par contrib B0 i) := by
  induction n generalizing B0 with
  | zero => intro i hi; omega
  | succ n ih =>
    intro i hi
    rcases Nat.lt_succ_iff_lt_or_eq.1 hi with h | rfl
    · rw [accLoop_succ]
      refine ih hp.mono (fun i hi => hcon i (by omega)) _ (fun j hj => ?_) i h
      cases hpar : par n with
      | none => exact h0 j (by omega)
      | some p =>
        simp only [accum]
        by_cases hjp : j = p
        · subst hjp
          rw [Function.update_self]
          exact hop _ _ (h0 j (by omega)) (hcon n (by omega) _ (h0 n (by omega)))
        · rw [Function.update_of_ne hjp]
          exact h0 j (by omega)
    · rw [accLoop_ge op hp contrib B0 i le_rfl]
      exact h0 i hi

namespace Sys
variable {σ : Sys}

/-- Contribution of link `i` to its parent in the backward pass. -/
noncomputable def abaContrib (σ : Sys) (tau : ℕ → ℝ) (o : FDOpts) (done : Bool) (c : AbaCache)
    (a : ℕ → Motion) (i : ℕ) (b : Mat6 × Force) : Mat6 × Force :=
  (σ.abaContribI done c i b.1, (σ.Tp i).actF (b.2 + (σ.abaRed done c i b.1).app (a i)
    + (σ.abaDdq tau o i (σ.abaD done c i b.1) b.2) • σ.abaH done c i b.1))

/-- Articulated inertia and bias force of every link, as the backward pass reaches it. -/
noncomputable def abaSeen (σ : Sys) (tau : ℕ → ℝ) (fext : FExt) (o : FDOpts) (vd done : Bool)
    (arr0 : ℕ → VAF) (c : AbaCache) : ℕ → Mat6 × Force :=
  accLoop (· + ·) σ.n σ.par
    (σ.abaContrib tau o done c fun i => (σ.abaForward fext o vd arr0 i).a)
    fun i => (σ.abaInit done c i, (σ.abaForward fext o vd arr0 i).f)

theorem abaForward_opts (fext : FExt) {o o' : FDOpts} (h : o'.cc = o.cc) (vd : Bool)
    (arr0 : ℕ → VAF) : σ.abaForward fext o' vd arr0 = σ.abaForward fext o vd arr0 := by
  unfold abaForward abaStep
  rw [h]

/-- Two runs in which every joint gets the same acceleration from the same bias force agree. -/
theorem aba_agree (hp : ParLt σ.n σ.par) (tau tau' : ℕ → ℝ) (fext : FExt) {o o' : FDOpts}
    (hc : o'.cc = o.cc) (hg : o'.gravity = o.gravity) (vd done : Bool) (arr0 : ℕ → VAF)
    (c : AbaCache) (h : ∀ i < σ.n, ∀ x, σ.abaDdq tau o i x
      (σ.abaSeen tau fext o vd done arr0 c i).2 =
        σ.abaDdq tau' o' i x (σ.abaSeen tau fext o vd done arr0 c i).2) :
    (σ.aba tau fext o vd done arr0 c).ddq = (σ.aba tau' fext o' vd done arr0 c).ddq := by
  have hA : σ.abaSeen tau fext o vd done arr0 c = σ.abaSeen tau' fext o' vd done arr0 c := by
    unfold abaSeen
    rw [abaForward_opts fext hc]
    refine accLoop_contrib _ hp _ _ _ fun i hi => ?_
    unfold abaContrib
    have := h i hi
    unfold abaSeen abaContrib at this
    rw [this]
  have hB : σ.abaBackward tau o done c (fun i => (σ.abaForward fext o vd arr0 i).a)
      (fun i => (σ.abaInit done c i, (σ.abaForward fext o vd arr0 i).f))
      (fun i => ⟨c.h i, c.d i, 0⟩) =
    σ.abaBackward tau' o' done c (fun i => (σ.abaForward fext o' vd arr0 i).a)
      (fun i => (σ.abaInit done c i, (σ.abaForward fext o' vd arr0 i).f))
      (fun i => ⟨c.h i, c.d i, 0⟩) := by
    unfold abaBackward
    rw [bwdLoop_eq _ hp, bwdLoop_eq _ hp]
    have e1 := hA
    unfold abaSeen abaContrib at e1
    rw [abaForward_opts fext hc] at e1 ⊢
    rw [e1]
    refine Prod.ext rfl ?_
    funext i
    by_cases hi : i < σ.n
    · simp only [hi, if_true]
      have := h i hi
      unfold abaSeen abaContrib at this
      rw [e1] at this
      rw [this]
    · simp only [hi, if_false]
  unfold aba
  simp only
  rw [hB, hg, abaForward_opts fext hc]

/-- Friction torque of a joint for the driving torque `t`. -/
noncomputable def abaTorque (c : Fric) (dq eps t : ℝ) : ℝ := t - abaFriction c dq eps t

/-- Friction torques of a run. -/
noncomputable def abaTorques (σ : Sys) (tau : ℕ → ℝ) (fext : FExt) (o : FDOpts) (vd done : Bool)
    (arr0 : ℕ → VAF) (c : AbaCache) (i : ℕ) : ℝ :=
  abaTorque (σ.fr i) (σ.dq i) o.eps
    (tau i - (σ.S i).dot (σ.abaSeen tau fext o vd done arr0 c i).2)

theorem aba_friction (hp : ParLt σ.n σ.par) (tau : ℕ → ℝ) (fext : FExt) {o : FDOpts}
    (hf : o.friction = true) (vd done : Bool) (arr0 : ℕ → VAF) (c : AbaCache) :
    (σ.aba tau fext o vd done arr0 c).ddq =
      (σ.aba (fun i => tau i - σ.abaTorques tau fext o vd done arr0 c i) fext
        { o with friction := false } vd done arr0 c).ddq := by
  refine aba_agree hp tau _ fext (o := o) (o' := { o with friction := false }) rfl rfl vd done arr0 c
    fun i hi x => ?_
  unfold abaDdq
  simp only [hf, if_true, Bool.false_eq_true, if_false]
  congr 1
  unfold abaTorques abaTorque
  ring

theorem abaTorque_rules (c v s dq eps t : ℝ) (hc0 : 0 ≤ c) (hs0 : 0 ≤ s) (heps : 0 ≤ eps) :
    |abaTorque ⟨c, v, s⟩ dq eps t - v * dq| ≤ c + s ∧
      (eps < dq → c ≠ 0 → abaTorque ⟨c, v, s⟩ dq eps t = v * dq + c) ∧
      (dq < -eps → c ≠ 0 → abaTorque ⟨c, v, s⟩ dq eps t = v * dq - c) := by
  unfold abaTorque abaFriction
  simp only
  generalize hu : t - v * dq = u
  refine ⟨?_, fun hm hc => ?_, fun hm hc => ?_⟩
  · rw [show t - (u - if c * signum dq eps = 0 then min |u| (c + s) * signum u 0
        else c * signum dq eps) - v * dq =
        if c * signum dq eps = 0 then min |u| (c + s) * signum u 0 else c * signum dq eps by
      rw [← hu]; ring]
    have sg : ∀ x e : ℝ, |signum x e| ≤ 1 := by
      intro x e; unfold signum; split_ifs <;> norm_num
    split_ifs with h0
    · have h4 : 0 ≤ min |u| (c + s) := le_min (abs_nonneg u) (by linarith)
      rw [abs_mul, abs_of_nonneg h4]
      have h1 := sg u 0
      have h2 := min_le_right |u| (c + s)
      nlinarith
    · rw [abs_mul, abs_of_nonneg hc0]
      have h1 := sg dq eps
      nlinarith
  · have : signum dq eps = 1 := by unfold signum; rw [if_pos hm]
    rw [this, mul_one, if_neg hc, ← hu]
    ring
  · have : signum dq eps = -1 := by unfold signum; rw [if_neg (by linarith), if_pos hm]
    rw [this, if_neg (by simpa using hc), ← hu]
    ring

/-- Within the static limit at rest, friction takes the whole torque. -/
theorem abaFriction_holds (c v s eps t : ℝ) (heps : 0 ≤ eps) (h : |t| ≤ c + s) :
    abaFriction ⟨c, v, s⟩ 0 eps t = 0 := by
  have h0 : signum 0 eps = 0 := signum_slow (by unfold Slow; rw [abs_zero]; exact heps)
  unfold abaFriction
  simp only [mul_zero, sub_zero, h0, if_true]
  rw [min_eq_left h, signum_zero]
  rcases lt_trichotomy t 0 with h | h | h
  · rw [abs_of_neg h, if_neg (not_lt.2 h.le), if_pos h]; ring
  · rw [h]; simp
  · rw [abs_of_pos h, if_pos h]; ring

theorem still_ddq {o : FDOpts} (hf : o.friction = false) (i : ℕ) (x : ℝ) :
    σ.abaDdq (fun _ => 0) o i x 0 = 0 := by
  unfold abaDdq
  simp [hf]

theorem last_still (hp : ParLt σ.n σ.par) (out : ℕ → AbaOut) (arr : ℕ → Motion × ℝ)
    (h : ∀ i < σ.n, arr i = (0, 0)) :
    ∀ i < σ.n, fwdLoop σ.n (σ.abaLastStep false out) arr i = (0, 0) := by
  have hd0 : ∀ f : Force, f.dot 0 = 0 := fun f => by simp [Force.dot, Vec3.dot]
  intro i hi
  induction i using Nat.strong_induction_on with
  | _ i ih =>
    rw [fwdLoop_spec' (abaLastStep_causal hp false out) _ i hi, h i hi]
    have key : ∀ L : ℕ → Motion × ℝ, (∀ p < i, L p = (0, 0)) →
        σ.abaLastStep false out L i (0, 0) = (0, 0) := by
      intro L hL
      unfold abaLastStep
      cases hpar : σ.par i with
      | none => simp [hd0]
      | some p =>
        simp only [hL p (hp i hi p hpar)]
        simp [hd0]
    exact key _ fun p hlt => ih p hlt (by omega)

/-- Nothing moves in a run without torques, velocities and forces. -/
theorem aba_still (hp : ParLt σ.n σ.par) {o : FDOpts} (hg : o.gravity = false)
    (hf : o.friction = false) (vd done : Bool) (arr0 : ℕ → VAF) (c : AbaCache)
    (hv : ∀ i < σ.n, (σ.abaForward (fun _ => none) o vd arr0 i).v = 0) :
    (∀ i < σ.n, (σ.abaSeen (fun _ => 0) (fun _ => none) o vd done arr0 c i).2 = 0) ∧
      ∀ i < σ.n, (σ.aba (fun _ => 0) (fun _ => none) o vd done arr0 c).ddq i = 0 := by
  have ha : ∀ i < σ.n, (σ.abaForward (fun _ => none) o vd arr0 i).a = 0 ∧
      (σ.abaForward (fun _ => none) o vd arr0 i).f = 0 := by
    intro i hi
    have h1 := hv i hi
    unfold abaForward at h1 ⊢
    rw [fwdLoop_spec' (abaStep_causal hp (fun _ => none) o vd) arr0 i hi] at h1 ⊢
    unfold abaStep at h1 ⊢
    simp only at h1 ⊢
    rw [h1]
    refine ⟨?_, ?_⟩
    · cases σ.par i <;> simp
    · simp [subExt]
  have hS : ∀ i < σ.n, (σ.abaSeen (fun _ => 0) (fun _ => none) o vd done arr0 c i).2 = 0 := by
    unfold abaSeen
    refine accLoop_keeps (· + ·) (fun x : Mat6 × Force => x.2 = 0) (fun x y hx hy => ?_) hp _
      (fun i hi x hx => ?_) _ fun i hi => (ha i hi).2
    · show x.2 + y.2 = 0
      rw [hx, hy, add_zero]
    · show (σ.Tp i).actF (x.2 + _ + _) = 0
      beta_reduce
      rw [(ha i hi).1, hx, still_ddq hf, Mat6.app_zero, zero_smul, add_zero, add_zero, Iso.actF_zero]
  refine ⟨hS, fun i hi => ?_⟩
  have hout : ∀ i < σ.n, ((σ.abaBackward (fun _ => 0) o done c
      (fun i => (σ.abaForward (fun _ => none) o vd arr0 i).a)
      (fun i => (σ.abaInit done c i, (σ.abaForward (fun _ => none) o vd arr0 i).f))
      (fun i => ⟨c.h i, c.d i, 0⟩)).2 i).ddq = 0 := by
    intro i hi
    unfold abaBackward
    rw [bwdLoop_eq _ hp]
    simp only [hi, if_true]
    have := hS i hi
    unfold abaSeen abaContrib at this
    rw [this, still_ddq hf]
  unfold aba
  simp only [hg]
  rw [last_still hp _ _ fun i hi => by rw [hout i hi, (ha i hi).1]]
  exact hi

end Sys

/-- C52: `ForwardDynamicsAba` with friction is `ForwardDynamicsAba` without, under torques reduced by
friction torques that every joint can supply: a moving joint with Coulomb friction loses `v dq ± c`,
any other joint at most its limit `c + s` besides the viscous part. -/
theorem C52_aba_reduced (h : Reach E b d) (tau : ℕ → ℝ) (fext : FExt) (o : FDOpts)
    (hf : o.friction = true) (heps : 0 ≤ o.eps) :
    ∃ φ : ℕ → ℝ,
      (b.forwardDynamicsAba tau fext o).1 =
        (b.forwardDynamicsAba (fun i => tau i - φ i) fext { o with friction := false }).1 ∧
      ∀ i < b.dof, ∀ c v s, Coef (b.rb i).joint c v s →
        |φ i - v * b.vel i| ≤ c + s ∧
        (o.eps < b.vel i → c ≠ 0 → φ i = v * b.vel i + c) ∧
        (b.vel i < -o.eps → c ≠ 0 → φ i = v * b.vel i - c) := by
  refine ⟨b.fresh.abaTorques tau fext o b.c.velDone b.c.abaDone b.vaf b.c.aba, ?_, ?_⟩
  · unfold Body.forwardDynamicsAba
    simp only [h.inv.view]
    exact Sys.aba_friction h.inv.wf.par_lt _ _ hf _ _ _ _
  · intro i hi c v s hco
    have e1 : b.fresh.fr i = ⟨c, v, s⟩ := by
      show fric (b.rb i).joint = _
      unfold fric
      rw [hco.coulomb, hco.viscous, hco.stiction]
      rfl
    unfold Sys.abaTorques
    rw [e1]
    exact Sys.abaTorque_rules c v s (b.vel i) o.eps _ hco.c0 hco.s0 heps

/-- C52: together with C30, the articulated body algorithm with friction solves the equations of
motion under the reduced torques, on a base that is not turned against gravity. -/
theorem C52_aba_equation (h : Reach E b d) (hm : b.Massive)
    (hn : DefiniteForm b.dof b.inertia.1)
    (tau : ℕ → ℝ) (fext : FExt) (o : FDOpts) (hf : o.friction = true) (heps : 0 ≤ o.eps)
    (hg : o.gravity = true → b.T0.R.mulVec b.g = b.g) :
    ∃ φ : ℕ → ℝ, (∀ i < b.dof, ∀ c v s, Coef (b.rb i).joint c v s →
        |φ i - v * b.vel i| ≤ c + s ∧
        (o.eps < b.vel i → c ≠ 0 → φ i = v * b.vel i + c) ∧
        (b.vel i < -o.eps → c ≠ 0 → φ i = v * b.vel i - c)) ∧
      ∀ i < b.dof, (b.inverseDynamics (b.forwardDynamicsAba tau fext o).1 fext
        ⟨o.gravity, o.cc, false, o.eps⟩).1 i = tau i - φ i := by
  obtain ⟨φ, h1, h2⟩ := C52_aba_reduced h tau fext o hf heps
  refine ⟨φ, h2, fun i hi => ?_⟩
  rw [← C29_inverse_forward h hm hn (fun i => tau i - φ i) fext { o with friction := false } o.eps rfl
    i hi, inverseDynamics_val h.inv hm.symI (hm.posMass h.inv.tree) _ _ _ i hi,
    inverseDynamics_val h.inv hm.symI (hm.posMass h.inv.tree) _ _ _ i hi]
  unfold Sys.addFriction
  simp only [Bool.false_eq_true, if_false]
  rw [idSpec_split, idSpec_split b (b.fd E _ _ _).1, h1]
  congr 1
  refine sum_congr rfl fun j hj => ?_
  rw [C30_aba_partial h hm hn (fun i => tau i - φ i) fext { o with friction := false } rfl hg j
    (mem_range.1 hj)]

/-- C52 for `ForwardDynamicsAba`: a resting body on which nothing acts but joint torques, each within
the static limit of its joint, does not start to move. -/
theorem C52_aba_holds (h : Reach E b d) (tau : ℕ → ℝ) (o : FDOpts) (hf : o.friction = true)
    (heps : 0 ≤ o.eps) (hg : o.gravity = false) (hrest : ∀ i < b.dof, b.vel i = 0)
    (hlim : ∀ i < b.dof, ∃ c v s, Coef (b.rb i).joint c v s ∧ |tau i| ≤ c + s)
    (i : ℕ) (hi : i < b.dof) : (b.forwardDynamicsAba tau (fun _ => none) o).1 i = 0 := by
  have hw := h.inv.wf
  have hv : ∀ i < b.fresh.n, (b.fresh.abaForward (fun _ => none) { o with friction := false }
      b.c.velDone b.vaf i).v = 0 := by
    intro i hi
    rcases Bool.eq_false_or_eq_true o.cc with hcc | hcc
    · have h1 := hw.aba_vel (fun _ => none) { o with friction := false } b.c.velDone b.vaf
        h.inv.coh.vel hcc i hi
      have h2 : b.fresh.V b.fresh.dq i = 0 := by
        unfold Sys.V
        refine sum_eq_zero fun j hj => ?_
        rw [show b.fresh.dq j = 0 from hrest j (mem_range.1 hj)]
        simp
      have hT : (b.fresh.Tw i).Valid := hw.Tw_valid i hi
      rw [h2] at h1
      rw [← hT.inv_actM (b.fresh.abaForward _ _ _ _ i).v, h1, Iso.actM_zero]
    · exact hw.aba_vel_zero _ _ _ _ hcc i hi
  have hs := Sys.aba_still hw.par_lt (o := { o with friction := false }) hg rfl b.c.velDone
    b.c.abaDone b.vaf b.c.aba hv
  unfold Body.forwardDynamicsAba
  simp only [h.inv.view]
  rw [← Sys.aba_agree hw.par_lt (fun _ => 0) tau (fun _ => none) (o := { o with friction := false })
    (o' := o) rfl rfl b.c.velDone b.c.abaDone b.vaf b.c.aba fun j hj x => ?_]
  · exact hs.2 i hi
  · rw [hs.1 j hj, Sys.still_ddq rfl]
    obtain ⟨c, v, s, hco, hle⟩ := hlim j hj
    have e1 : b.fresh.fr j = ⟨c, v, s⟩ := by
      show fric (b.rb j).joint = _
      unfold fric
      rw [hco.coulomb, hco.viscous, hco.stiction]
      rfl
    have e2 : b.fresh.dq j = 0 := hrest j hj
    unfold Sys.abaDdq
    simp only [hf, if_true]
    rw [e1, e2, show tau j - (b.fresh.S j).dot 0 = tau j by simp [Motion.dot],
      Sys.abaFriction_holds c v s o.eps (tau j) heps hle, zero_div]

/-- The hypotheses of the friction theorems of the articulated body algorithm hold for a joint at rest
with stiction. -/
example (E : Ext) : ∃ d, Reach E (sticky 100 0) d ∧ (sticky 100 0).Definite ∧
    (∀ i < (sticky 100 0).dof, (sticky 100 0).vel i = 0) ∧
    (∀ i < (sticky 100 0).dof, ∃ c v s, Coef ((sticky 100 0).rb i).joint c v s ∧
      |(fun _ => 50 : ℕ → ℝ) i| ≤ c + s) ∧
    (sticky 100 0).T0.R.mulVec (sticky 100 0).g = (sticky 100 0).g := by
  obtain ⟨d, h⟩ := sticky_reach E 100 0
  have hl : ∀ k < (sticky 100 0).dof, k = 0 := by intro k hk; have : k < 1 := hk; omega
  refine ⟨d, h, sticky_definite 100 0, fun i hi => by rw [hl i hi]; rfl, fun i hi => ?_,
    Mat3.one_mulVec _⟩
  rw [hl i hi]
  exact ⟨0, 0, 100, sticky_coef (by norm_num), by norm_num⟩

end SpatialDyn
