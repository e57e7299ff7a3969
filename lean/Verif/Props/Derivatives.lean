import Verif.Lemmas.DVel
import Verif.Props.Friction
import Verif.Props.Energy
import Mathlib.Analysis.Calculus.Deriv.Pow

/-!
# C40, C41, C55: derivatives of inverse dynamics

The body with one joint moving at another rate, or standing at another position, is what `set_dq` and
`set_q` make of it.
-/

namespace SpatialDyn
open Body Finset

variable {E : Ext} {b : Body} {d : Bool}

/-! ## C40 -/

theorem velocityDerivative_val (h : Inv E b) (ddq : ℕ → ℝ) (fext : FExt) (o : IDOpts) {i m : ℕ}
    (hi : i < b.dof) (hm : m < b.dof) : (b.velocityDerivative ddq fext o).1 i m =
      if o.cc then b.fresh.genForce (fun k => b.fresh.dforce k m) i else 0 := by
  unfold Body.velocityDerivative
  cases hcc : o.cc
  · rfl
  · rw [if_neg (by simp), if_pos rfl]
    have hst := forcedID_step h ddq fext o
    simp only
    rw [view_touch_same h hst]
    exact h.wf.dvel_spec (forcedID_vel h ddq fext o hcc) i m hi hm

/-- What `set_dq` with one changed rate does to the system the algorithms read. -/
theorem setDq_one (h : Reach E b d) (hm : b.Massive) {m : ℕ} (hmd : m < b.dof) {t : ℝ} {b' : Body}
    (hB : b.setDq (b.dq.set m t) = .ok b') :
    (∃ d', Reach E b' d') ∧ b'.Massive ∧ b'.dof = b.dof ∧ b'.fresh = b.fresh.withRate m t := by
  have r : Reach E b' _ := h.step (b' := b') (.setDq (b.dq.set m t)) trivial
    (by simp [Op.exec, Op.step, hB])
  have hst := setDq_stateOnly h.inv.tree.ldq hB
  have e1 := (setDq_vel hB).1
  have e2 := (setDq_vel hB).2
  refine ⟨⟨_, r⟩, hst.massive hm, by unfold Body.dof; rw [hst.rbs], ?_⟩
  rw [hst.fresh]
  have hp : b'.pos = b.pos := by unfold Body.pos; rw [e2]
  have hv : b'.vel = Function.update b.vel m t := by
    funext i
    unfold Body.vel
    rw [e1]
    by_cases him : i = m
    · subst him
      rw [Function.update_self, List.getD_eq_getElem?_getD,
        List.getElem?_set_self (by rw [h.inv.tree.ldq]; exact hmd)]
      rfl
    · rw [Function.update_of_ne him, List.getD_eq_getElem?_getD,
        List.getElem?_set_ne (Ne.symm him), ← List.getD_eq_getElem?_getD]
  rw [hp, hv]
  rfl

theorem idSpec_withRate_deriv {σ : Sys} {m : ℕ} (hm : m < σ.n) (ddq : ℕ → ℝ) (fext : FExt)
    (cc grav : Bool) (i : ℕ) :
    HasDerivAt (fun t => (σ.withRate m t).idSpec ddq fext cc grav i)
      (if cc then σ.genForce (fun k => σ.dforce k m) i else 0) (σ.dq m) := by
  obtain ⟨Q, hQ⟩ := σ.coriolisSpec_withRate m hm i
  have e : (fun t => (σ.withRate m t).idSpec ddq fext cc grav i) = fun t =>
      (if cc then (t - σ.dq m) * σ.genForce (fun k => σ.dforce k m) i +
        (t - σ.dq m) * (t - σ.dq m) * Q else 0) + σ.idSpec ddq fext cc grav i := by
    funext t
    have e : (σ.withRate m t).idSpec ddq fext cc grav i =
        (∑ j ∈ range σ.n, σ.massSpec i j * ddq j) +
        (if cc then (σ.withRate m t).coriolisSpec i else 0) +
        (if grav then σ.gravitySpec i else 0) + σ.extSpec fext i := rfl
    rw [e, hQ]
    unfold Sys.idSpec
    cases cc <;> simp only [if_true, Bool.false_eq_true, if_false] <;> ring
  rw [e]
  refine HasDerivAt.add_const _ ?_
  cases cc
  · exact hasDerivAt_const _ _
  · simp only [if_true]
    have h0 : HasDerivAt (fun t : ℝ => t - σ.dq m) 1 (σ.dq m) := (hasDerivAt_id _).sub_const _
    refine ((h0.mul_const _).add ((h0.mul h0).mul_const Q)).congr_deriv ?_
    simp

/-- C40: without friction, entry `(i, m)` of `InverseDynamicsVelocityDerivative` is the derivative of
torque `i` of `InverseDynamics` with respect to the rate of joint `m`; `B t` is the body with that
rate set to `t`. -/
theorem C40_velocity_derivative (h : Reach E b d) (hm : b.Massive) (ddq : ℕ → ℝ) (fext : FExt)
    (o : IDOpts) (hf : o.friction = false) {m : ℕ} (hmd : m < b.dof) {B : ℝ → Body}
    (hB : ∀ t, b.setDq (b.dq.set m t) = .ok (B t)) (i : ℕ) (hi : i < b.dof) :
    HasDerivAt (fun t => ((B t).inverseDynamics ddq fext o).1 i)
      ((b.velocityDerivative ddq fext o).1 i m) (b.vel m) := by
  have e : (fun t => ((B t).inverseDynamics ddq fext o).1 i) = fun t =>
      (b.fresh.withRate m t).idSpec ddq fext o.cc o.gravity i := by
    funext t
    obtain ⟨⟨d', r⟩, hm', hd', hf'⟩ := setDq_one h hm hmd (hB t)
    rw [inverseDynamics_val r.inv hm'.symI (hm'.posMass r.inv.tree) ddq fext o i (hd' ▸ hi)]
    unfold Sys.addFriction
    rw [hf, if_neg Bool.false_ne_true, hf']
  rw [e, velocityDerivative_val h.inv ddq fext o hi hmd]
  exact idSpec_withRate_deriv (σ := b.fresh) hmd ddq fext o.cc o.gravity i

/-- C40: the bodies the theorem speaks about exist. -/
theorem C40_defined (h : Reach E b d) (m : ℕ) : ∃ B : ℝ → Body, ∀ t,
    b.setDq (b.dq.set m t) = .ok (B t) := by
  have : ∀ t : ℝ, ∃ b1, b.setDq (b.dq.set m t) = .ok b1 := fun t => by
    obtain ⟨b1, h1, -⟩ := setDq_total (b := b) (q := b.dq.set m t) (by
      rw [List.length_set, h.inv.tree.ldq])
    exact ⟨b1, h1⟩
  choose B hB using this
  exact ⟨B, hB⟩

/-! ## C55: with friction -/

/-- C55: with friction, the derivative of `InverseDynamics` exceeds what
`InverseDynamicsVelocityDerivative` returns by the viscous coefficient on the diagonal, at every state
where the dry friction of the joint is locally constant. -/
theorem C55_missing_viscous (h : Reach E b d) (hm : b.Massive) (ddq : ℕ → ℝ) (fext : FExt)
    (o : IDOpts) (hf : o.friction = true) {m : ℕ} (hmd : m < b.dof)
    {B : ℝ → Body} (hB : ∀ t, b.setDq (b.dq.set m t) = .ok (B t)) (i : ℕ) (hi : i < b.dof)
    {c v s : ℝ} (hc : Coef (b.rb i).joint c v s)
    (hdry : (0 < c ∧ 0 ≤ o.eps ∧ o.eps < |b.vel i|) ∨ (c = 0 ∧ s = 0)) :
    HasDerivAt (fun t => ((B t).inverseDynamics ddq fext o).1 i)
      ((b.velocityDerivative ddq fext o).1 i m + if i = m then v else 0) (b.vel m) := by
  set x : ℝ → ℝ := fun t => Function.update b.vel m t i with hx
  have hx0 : x (b.vel m) = b.vel i := by
    rw [hx]; simp only [Function.update_eq_self]
  have hxd : HasDerivAt x (if i = m then 1 else 0) (b.vel m) := by
    rw [hx]
    by_cases him : i = m
    · subst him; simpa using hasDerivAt_id' (b.vel i)
    · simpa [him, Function.update_of_ne him] using hasDerivAt_const (b.vel m) (b.vel i)
  have e : (fun t => ((B t).inverseDynamics ddq fext o).1 i) = fun t =>
      (b.fresh.withRate m t).idSpec ddq fext o.cc o.gravity i +
        Sys.frictionJoint ⟨c, v, s⟩ (x t)
          ((b.fresh.withRate m t).idSpec ddq fext o.cc o.gravity i) true o.eps := by
    funext t
    obtain ⟨⟨d', r⟩, hm', hd', hf'⟩ := setDq_one h hm hmd (hB t)
    rw [inverseDynamics_val r.inv hm'.symI (hm'.posMass r.inv.tree) ddq fext o i (hd' ▸ hi)]
    unfold Sys.addFriction Sys.friction
    rw [hf, if_pos rfl, hf']
    show _ + Sys.frictionJoint (fric (b.rb i).joint) _ _ _ _ = _
    unfold fric
    rw [hc.coulomb, hc.viscous, hc.stiction]
    rfl
  rw [e, velocityDerivative_val h.inv ddq fext o hi hmd]
  refine (idSpec_withRate_deriv (σ := b.fresh) hmd ddq fext o.cc o.gravity i).add ?_
  -- dry friction is locally constant
  have hdf : ∃ k : ℝ, ∀ᶠ t in nhds (b.vel m), Sys.frictionJoint ⟨c, v, s⟩ (x t)
      ((b.fresh.withRate m t).idSpec ddq fext o.cc o.gravity i) true o.eps = v * x t + k := by
    rcases hdry with ⟨hc0, heps, hlt⟩ | ⟨hc0, hs0⟩
    · rcases lt_abs.1 hlt with hp | hn
      · refine ⟨c, ?_⟩
        have : ∀ᶠ t in nhds (b.vel m), o.eps < x t :=
          hxd.continuousAt.eventually (lt_mem_nhds (by rw [hx0]; exact hp))
        filter_upwards [this] with t ht
        unfold Sys.frictionJoint Sys.signum
        simp only [if_pos ht, mul_one, if_neg hc0.ne']
      · refine ⟨-c, ?_⟩
        have : ∀ᶠ t in nhds (b.vel m), x t < -o.eps :=
          hxd.continuousAt.eventually (gt_mem_nhds (by rw [hx0]; linarith))
        filter_upwards [this] with t ht
        unfold Sys.frictionJoint Sys.signum
        have h1 : ¬o.eps < x t := by linarith
        have h2 : c * -1 ≠ 0 := by simp [hc0.ne']
        simp only [if_neg h1, if_pos ht, if_neg h2]
        ring
    · refine ⟨0, Filter.Eventually.of_forall fun t => ?_⟩
      subst hc0 hs0
      simp [Sys.frictionJoint]
  obtain ⟨k, hk⟩ := hdf
  refine HasDerivAt.congr_of_eventuallyEq ?_ hk
  refine ((hxd.const_mul v).add_const k).congr_deriv ?_
  split <;> simp

/-- C55, negation of the claim: wherever the dry friction is locally constant and the viscous
coefficient of the joint is not zero, the diagonal entry of `InverseDynamicsVelocityDerivative` is not
the derivative. -/
theorem C55_violated_everywhere (h : Reach E b d) (hm : b.Massive) (ddq : ℕ → ℝ) (fext : FExt)
    (o : IDOpts) (hf : o.friction = true) {i : ℕ} (hi : i < b.dof)
    {B : ℝ → Body} (hB : ∀ t, b.setDq (b.dq.set i t) = .ok (B t))
    {c v s : ℝ} (hc : Coef (b.rb i).joint c v s) (hv : v ≠ 0)
    (hdry : (0 < c ∧ 0 ≤ o.eps ∧ o.eps < |b.vel i|) ∨ (c = 0 ∧ s = 0)) :
    ¬HasDerivAt (fun t => ((B t).inverseDynamics ddq fext o).1 i)
      ((b.velocityDerivative ddq fext o).1 i i) (b.vel i) := by
  intro hd
  have := hd.unique (C55_missing_viscous h hm ddq fext o hf hi hB i hi hc hdry)
  rw [if_pos rfl] at this
  exact hv (by linarith)

namespace Body

/-- A joint with viscous friction only. -/
noncomputable def dampJoint (t : JType) : Joint := { mkJoint t with fViscous := .fin 1 }

/-- One link on that joint at speed 1. -/
noncomputable def damped (t : JType) : Body where
  rbs := [{ ({ T := 1, inertia := unitInertia, joint := dampJoint t } : RB) with
    id := 0, idParent := -1 }]
  q := [0]
  dq := [1]
  g := ⟨0, 0, -9.81⟩
  load := fun _ => none
  T0 := 1
  inertiaBase := ⟨1, 0, 0⟩
  anc := [[0]]
  sub := [[0]]
  c := ((init cache0).c.expand 0).clearDq

theorem damped_reach (E : Ext) (t : JType) : ∃ d, Reach E (damped t) d := by
  refine reach_execAll [.addRigidBody { T := 1, inertia := unitInertia, joint := dampJoint t } (-1),
    .setDq [1]] (Reach.init cache0) ?_ ?_
  · intro op hop
    simp only [List.mem_cons, List.not_mem_nil, or_false] at hop
    rcases hop with rfl | rfl
    · exact Iso.valid_one
    · trivial
  · simp [execAll, Op.exec, Op.step, addRigidBody, Out.map, Out.bind, init, dof, pushSub, damped,
      setDq, eq_comm]

theorem damped_massive (t : JType) : (damped t).Massive := by
  have hl : ∀ k < (damped t).dof, k = 0 := by intro k hk; have : k < 1 := hk; omega
  refine ⟨fun k hk I hI => ?_, fun k hk I hI => ?_, fun k hk hk' => ?_, fun k hk hk' => ?_⟩
  · rw [hl k hk] at hI
    have : I = unitInertia := by simpa [parts, damped, rb] using hI
    rw [this]; exact unitInertia_phys.2.1
  · rw [hl k hk] at hI
    have : I = unitInertia := by simpa [parts, damped, rb] using hI
    rw [this]; norm_num [unitInertia]
  · cases hk'
  · rw [hl k hk] at hk'
    exact absurd (show (0 : ℤ) ≤ -1 from hk') (by norm_num)

end Body

/-- C55, concretely: a sliding link with viscous coefficient 1 at speed 1. -/
theorem C55_violated (E : Ext) : ∃ (b : Body) (d : Bool) (B : ℝ → Body), Reach E b d ∧ b.Massive ∧
    (∀ t, b.setDq (b.dq.set 0 t) = .ok (B t)) ∧ ∀ (ddq : ℕ → ℝ) (fext : FExt) (o : IDOpts),
    o.friction = true → ¬HasDerivAt (fun t => ((B t).inverseDynamics ddq fext o).1 0)
      ((b.velocityDerivative ddq fext o).1 0 0) (b.vel 0) := by
  obtain ⟨d, h⟩ := damped_reach E .pz
  obtain ⟨B, hB⟩ := C40_defined h 0
  refine ⟨damped .pz, d, B, h, damped_massive _, hB, fun ddq fext o hf => ?_⟩
  exact C55_violated_everywhere h (damped_massive _) ddq fext o hf Nat.one_pos hB
    (c := 0) (v := 1) (s := 0) ⟨rfl, rfl, rfl, le_rfl, zero_le_one, le_rfl⟩ one_ne_zero
    (Or.inr ⟨rfl, rfl⟩)

/-- The hypotheses of C40 hold for the three-link tree of the other witnesses, for every joint. -/
example (E : Ext) (m : ℕ) : ∃ (d : Bool) (B : ℝ → Body), Reach E demo d ∧ demo.Massive ∧
    demo.dof = 3 ∧ ∀ t, demo.setDq (demo.dq.set m t) = .ok (B t) := by
  obtain ⟨d, h⟩ := demo_reach E
  obtain ⟨B, hB⟩ := C40_defined h m
  exact ⟨d, B, h, demo_definite.massive h.inv.tree, rfl, hB⟩

/-! ## C41 -/

/-- When no link has a parent, only the joint itself moves a link. -/
theorem Sys.Jw_roots {σ : Sys} (hp : ∀ k < σ.n, σ.par k = none) {k : ℕ} (hk : k < σ.n) (j : ℕ) :
    σ.Jw k j = if j = k then σ.axis k else 0 := by
  unfold Sys.Jw
  by_cases hj : j = k
  · subst hj; rw [if_pos Anc.refl, if_pos rfl]
  · rw [if_neg hj, if_neg]
    intro ha
    cases ha with
    | refl => exact hj rfl
    | step h1 _ => rw [hp k hk] at h1; cases h1

theorem Sys.idSpec_roots {σ : Sys} (hw : σ.WF) (hp : ∀ k < σ.n, σ.par k = none) (ddq : ℕ → ℝ)
    (fext : FExt) (cc grav : Bool) {i : ℕ} (hi : i < σ.n) :
    σ.idSpec ddq fext cc grav i = ddq i * (σ.S i).dot ((σ.Itot i).app (σ.S i)) +
      (if grav then (σ.S i).dot ((σ.Itot i).app ((σ.Tw i).inv.actM (-σ.g))) else 0) -
      (σ.axis i).dot ((fext i).getD 0) := by
  have hg : ∀ F, σ.genForce F i = (σ.axis i).dot (F i) := by
    intro F
    unfold Sys.genForce
    rw [sum_eq_single i]
    · rw [Sys.Jw_roots hp hi, if_pos rfl]
    · intro k hk hki
      rw [Sys.Jw_roots hp (mem_range.1 hk), if_neg (Ne.symm hki)]
      simp
    · intro h; exact absurd (mem_range.2 hi) h
  have hV : ∀ u, σ.V u i = u i • σ.axis i := by
    intro u
    unfold Sys.V
    rw [sum_eq_single i]
    · rw [Sys.Jw_roots hp hi, if_pos rfl]
    · intro j _ hj
      rw [Sys.Jw_roots hp hi, if_neg hj, smul_zero]
    · intro h; exact absurd (mem_range.2 hi) h
  have hb : σ.bias i = 0 := by
    unfold Sys.bias
    refine sum_eq_zero fun j _ => ?_
    rw [Sys.Jw_roots hp hi]
    split
    · next h => subst h; rw [hV, Motion.smul_crossM, Motion.crossM_self, smul_zero, smul_zero]
    · rw [Motion.crossM_zero, smul_zero]
  have hcor : σ.coriolisSpec i = 0 := by
    unfold Sys.coriolisSpec
    rw [hg, hb, hV, Sys.Iw_zero, zero_add, Motion.smul_crossF, Motion.dot_smul,
      Motion.dot_crossF_self, mul_zero]
  have hI : ∀ m, (σ.axis i).dot (σ.Iw i m) = (σ.S i).dot ((σ.Itot i).app ((σ.Tw i).inv.actM m)) := by
    intro m
    unfold Sys.axis Sys.Iw
    rw [(hw.Tw_valid i hi).dot_act]
  unfold Sys.idSpec Sys.gravitySpec Sys.extSpec
  rw [hcor, ite_self, add_zero, ← Sys.genForce_Iw_V, hg, hg, hg, hV, Sys.Iw_smul, Motion.dot_smul, hI,
    hI]
  unfold Sys.axis
  rw [(hw.Tw_valid i hi).inv_actM, ← sub_eq_add_neg]

theorem HasDerivMotion.dot_const {f : ℝ → Motion} {f' : Motion} {s : ℝ} (h : HasDerivMotion f f' s)
    (F : Force) : HasDerivAt (fun s => (f s).dot F) (f'.dot F) s := by
  refine ((h.lin.dot (HasDerivVec.const F.lin s)).add
    (h.ang.dot (HasDerivVec.const F.ang s))).congr_deriv ?_ |>.congr_of_eventuallyEq ?_
  · rw [Motion.dot_eq]; simp [Vec3.dot]
  · exact Filter.Eventually.of_forall fun s => Motion.dot_eq _ _

/-- What `set_q` with one changed position does. -/
theorem setQ_one (h : Reach E b d) (hm : b.Massive) {m : ℕ} (hmd : m < b.dof) {t : ℝ} {b' : Body}
    (hB : b.setQ (b.q.set m t) = .ok b') :
    (∃ d', Reach E b' d') ∧ b'.Massive ∧ b'.dof = b.dof ∧
      b'.fresh = b.sysAt (Function.update b.pos m t) b.vel := by
  have r : Reach E b' _ := h.step (b' := b') (.setQ (b.q.set m t)) trivial
    (by simp [Op.exec, Op.step, hB])
  have hst := setQ_stateOnly h.inv.tree.lq hB
  have e1 := (setQ_pos hB).1
  have e2 := (setQ_pos hB).2
  refine ⟨⟨_, r⟩, hst.massive hm, by unfold Body.dof; rw [hst.rbs], ?_⟩
  rw [hst.fresh]
  have hv : b'.vel = b.vel := by unfold Body.vel; rw [e2]
  have hp : b'.pos = Function.update b.pos m t := by
    funext i
    unfold Body.pos
    rw [e1]
    by_cases him : i = m
    · subst him
      rw [Function.update_self, List.getD_eq_getElem?_getD,
        List.getElem?_set_self (by rw [h.inv.tree.lq]; exact hmd)]
      rfl
    · rw [Function.update_of_ne him, List.getD_eq_getElem?_getD,
        List.getElem?_set_ne (Ne.symm him), ← List.getD_eq_getElem?_getD]
  rw [hp, hv]

theorem hasChild_false (hc : b.hasChild = false) (k : ℕ) (hk : k < b.dof) : b.par k = none := by
  unfold Body.hasChild at hc
  rw [List.any_eq_false] at hc
  have := hc k (List.mem_range.2 hk)
  cases hp : b.par k with
  | none => rfl
  | some p => rw [hp] at this; simp at this

/-- C41 for bodies none of whose links has a parent, without friction: the call succeeds and entry
`(i, m)` is the derivative of torque `i` of `InverseDynamics` with respect to the position of joint
`m`; `B t` is the body with that position set to `t`.  Missing: every other body, for which the claim
is false (`C41_violated`), and friction. -/
theorem C41_roots_partial (h : Reach E b d) (ha : b.AxesOK) (hm : b.Massive) (ddq : ℕ → ℝ)
    (fext : FExt) (o : IDOpts) (hf : o.friction = false) (hroots : ∀ k < b.dof, (b.rb k).idParent < 0)
    {m : ℕ} (hmd : m < b.dof)
    {B : ℝ → Body} (hB : ∀ t, b.setQ (b.q.set m t) = .ok (B t)) :
    ∃ D b', b.positionDerivative ddq fext o = .ok (D, b') ∧ ∀ i < b.dof,
      HasDerivAt (fun t => ((B t).inverseDynamics ddq fext o).1 i) (D i m) (b.pos m) := by
  have hpar : ∀ k < b.dof, b.par k = none := fun k hk => par_eq_none.2 (hroots k hk)
  have hc : b.hasChild = false := by
    unfold Body.hasChild
    rw [List.any_eq_false]
    intro k hk
    rw [hpar k (List.mem_range.1 hk)]
    simp
  unfold Body.positionDerivative
  rw [hc, if_neg Bool.false_ne_true]
  refine ⟨_, _, rfl, fun i hi => ?_⟩
  rw [view_touch_same h.inv (forcedID_step h.inv ddq fext o)]
  set u : ℝ → ℕ → ℝ := fun t => Function.update b.pos m t with hu
  set w : ℕ → ℝ := fun i => if i = m then 1 else 0 with hw
  have hud : ∀ i < b.dof, HasDerivAt (fun t => u t i) (w i) (b.pos m) := by
    intro i _
    by_cases him : i = m
    · subst him; simpa [hu, hw] using hasDerivAt_id' (b.pos i)
    · simpa [hu, hw, him, Function.update_of_ne him] using hasDerivAt_const (b.pos m) (b.pos i)
  have hu0 : u (b.pos m) = b.pos := Function.update_eq_self m b.pos
  have htree := h.inv.tree
  have hrig := h.inv.rigid
  have e : (fun t => ((B t).inverseDynamics ddq fext o).1 i) = fun t =>
      (ddq i * (b.fresh.S i).dot ((b.fresh.Itot i).app (b.fresh.S i)) +
      (if o.gravity then ((b.twAt (u t) i).inv.actM (-b.fresh.g)).dot
        ((b.fresh.Itot i).app (b.fresh.S i)) else 0)) -
      ((b.sysAt (u t) b.vel).axis i).dot ((fext i).getD 0) := by
    funext t
    obtain ⟨⟨d', r⟩, hm', hd', hf'⟩ := setQ_one h hm hmd (hB t)
    rw [inverseDynamics_val r.inv hm'.symI (hm'.posMass r.inv.tree) ddq fext o i (hd' ▸ hi)]
    unfold Sys.addFriction
    rw [hf, if_neg Bool.false_ne_true, hf',
      Sys.idSpec_roots (sysAt_wf htree hrig _ _) hpar ddq fext o.cc o.gravity hi, sysAt_Tw hi,
      show (b.sysAt (Function.update b.pos m t) b.vel).Itot i = b.fresh.Itot i from rfl,
      show (b.sysAt (Function.update b.pos m t) b.vel).S i = b.fresh.S i from rfl,
      Inertia.dot_app_symm _ (hm.symI i hi) _ ((b.twAt _ i).inv.actM _)]
    rfl
  rw [e]
  have hV : ∀ x, (b.sysAt b.pos x).V w i = w i • b.fresh.axis i := by
    intro x
    unfold Sys.V
    rw [sum_eq_single i]
    · rw [Sys.Jw_roots (σ := b.sysAt b.pos x) hpar hi, if_pos rfl]; rfl
    · intro j _ hj
      rw [Sys.Jw_roots (σ := b.sysAt b.pos x) hpar hi, if_neg hj, smul_zero]
    · intro h; exact absurd (mem_range.2 hi) h
  have htw := twAt_twist htree hrig ha hud b.vel i hi
  have hax := axis_deriv htree hrig ha hud (fun _ => b.vel) hi
  simp only [hu0] at hax
  rw [hu0, hV] at htw
  have hax' := hax.congr_deriv (f' := _) (g' := 0) (by
    rw [hV, Motion.smul_crossM]
    show w i • (b.fresh.axis i).crossM (b.fresh.axis i) = 0
    rw [Motion.crossM_self, smul_zero])
  have hTv := twAt_valid htree hrig b.pos i hi
  have hgr := htw.inv_actM (by rw [hu0]; exact hTv) (HasDerivMotion.const (-b.fresh.g) (b.pos m))
  rw [hu0] at hgr
  have hg := (hgr.dot_const ((b.fresh.Itot i).app (b.fresh.S i)))
  have hgi : HasDerivAt (fun t => if o.gravity then ((b.twAt (u t) i).inv.actM (-b.fresh.g)).dot
        ((b.fresh.Itot i).app (b.fresh.S i)) else 0) (if o.gravity then
        ((b.twAt b.pos i).inv.actM (0 - (w i • b.fresh.axis i).crossM (-b.fresh.g))).dot
        ((b.fresh.Itot i).app (b.fresh.S i)) else 0) (b.pos m) := by
    cases o.gravity
    · exact hasDerivAt_const _ _
    · exact hg
  refine ((hgi.const_add _).sub (hax'.dot_const _)).congr_deriv ?_
  have hTw : b.fresh.Tw i = b.twAt b.pos i := sysAt_Tw (b := b) (u := b.pos) (w := b.vel) hi
  unfold Sys.dposRoot
  simp only [hw, Motion.zero_dot, sub_zero]
  by_cases him : i = m
  · subst him
    simp only [if_true, one_smul, le_refl, true_and, zero_sub]
    rw [Inertia.dot_app_symm _ (hm.symI i hi)]
    have key : (b.twAt b.pos i).inv.actM (-(b.fresh.axis i).crossM (-b.fresh.g)) =
        -((b.fresh.Tw i).inv.actM b.fresh.g).crossM (b.fresh.S i) := by
      rw [hTw]
      unfold Sys.axis
      rw [hTw]
      rw [show ((b.twAt b.pos i).actM (b.fresh.S i)).crossM (-b.fresh.g) =
        -(((b.twAt b.pos i).actM (b.fresh.S i)).crossM b.fresh.g) from by ext <;> simp [Motion.crossM] <;> ring,
        neg_neg, hTv.inv.actM_crossM, hTv.inv_actM]
      ext <;> simp [Motion.crossM] <;> ring
    cases o.gravity <;> cases o.cc <;> simp [key]
  · have : m ≠ i := Ne.symm him
    simp [him, this]

/-- C41, negation of the claim: for every body in which some link has a parent, the call adds
matrices of different sizes, which is undefined behaviour. -/
theorem C41_violated (b : Body) (hc : ∃ k < b.dof, 0 ≤ (b.rb k).idParent) (ddq : ℕ → ℝ) (fext : FExt)
    (o : IDOpts) : b.positionDerivative ddq fext o = .ub := by
  obtain ⟨k, hk, hp⟩ := hc
  have : b.hasChild = true := by
    unfold Body.hasChild
    rw [List.any_eq_true]
    refine ⟨k, List.mem_range.2 hk, ?_⟩
    cases h : b.par k with
    | none => have := par_eq_none.1 h; omega
    | some p => rfl
  unfold Body.positionDerivative
  rw [this, if_pos rfl]

/-- Such bodies can be built. -/
example (E : Ext) : ∃ d, Reach E demo d ∧ ∃ k < demo.dof, 0 ≤ (demo.rb k).idParent := by
  obtain ⟨d, h⟩ := demo_reach E
  exact ⟨d, h, 1, by show 1 < 3; omega, le_rfl⟩

theorem C41_defined (h : Reach E b d) (m : ℕ) : ∃ B : ℝ → Body, ∀ t,
    b.setQ (b.q.set m t) = .ok (B t) := by
  have : ∀ t : ℝ, ∃ b1, b.setQ (b.q.set m t) = .ok b1 := fun t => by
    obtain ⟨b1, h1, -⟩ := setQ_total (b := b) (q := b.q.set m t) (by
      rw [List.length_set, h.inv.tree.lq])
    exact ⟨b1, h1⟩
  choose B hB using this
  exact ⟨B, hB⟩

/-- The hypotheses of C41 hold for a moving pendulum. -/
example (E : Ext) : ∃ (d : Bool) (B : ℝ → Body), Reach E (damped .rx) d ∧ (damped .rx).AxesOK ∧
    (damped .rx).Massive ∧ (∀ k < (damped .rx).dof, ((damped .rx).rb k).idParent < 0) ∧
    ∀ t, (damped .rx).setQ ((damped .rx).q.set 0 t) = .ok (B t) := by
  obtain ⟨d, h⟩ := damped_reach E .rx
  obtain ⟨B, hB⟩ := C41_defined h 0
  have hl : ∀ k < (damped .rx).dof, k = 0 := by intro k hk; have : k < 1 := hk; omega
  refine ⟨d, B, h, fun i hi => ?_, damped_massive _, fun k hk => ?_, hB⟩
  · rw [hl i hi]; rfl
  · rw [hl k hk]; show (-1 : ℤ) < 0; norm_num

end SpatialDyn
