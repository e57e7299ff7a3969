import Verif.Props.Discrete
import Verif.Props.Energy

/-!
# C88: momentum of joints on the base under the variational integrator
-/

namespace SpatialDyn
open Finset Body
variable {E : Ext} {b : Body} {d : Bool} {p : Prev}

/-- Momentum about joint `i` over a step from the positions `u` to the positions `w` taking time
`dt`: the discrete momenta of the links that the joint carries, in world coordinates, along the axis
of the joint. -/
noncomputable def Body.stepMomentum (E : Ext) (b : Body) (dt : ℝ) (u w : ℕ → ℝ) (i : ℕ) : ℝ :=
  (b.sysAt u fun _ => 0).genForce
    (fun k => (b.twAt u k).actF (discMom E b.linkMomentum dt k (b.disp u w k))) i

/-- The axis of a joint on the base is the same in all positions. -/
theorem axis_base (h : Inv E b) (ha : b.AxesOK) {i : ℕ} (hi : i < b.dof)
    (hroot : (b.rb i).idParent < 0) (u w x y : ℕ → ℝ) :
    (b.sysAt u x).axis i = (b.sysAt w y).axis i := by
  have key : ∀ u x, (b.sysAt u x).axis i = b.T0.actM ((b.rb i).T.actM (b.rb i).joint.subspace) := by
    intro u x
    unfold Sys.axis
    rw [sysAt_Tw hi, twAt_rec h.tree u hi, par_none.2 hroot]
    show (b.T0 * b.TpAt i (u i)).actM (b.rb i).joint.subspace = _
    rw [Iso.actM_mul _ _ h.rigid.base]
    unfold TpAt
    rw [Iso.actM_mul _ _ (h.rigid.link i hi), ha i hi, JType.Tjoint_subspace]
  rw [key, key]

theorem jw_base (h : Inv E b) (ha : b.AxesOK) {i : ℕ} (hi : i < b.dof)
    (hroot : (b.rb i).idParent < 0) (u w x y : ℕ → ℝ) (k : ℕ) :
    (b.sysAt u x).Jw k i = (b.sysAt w y).Jw k i := by
  unfold Sys.Jw
  rw [axis_base h ha hi hroot u w x y]
  rfl

/-- The discrete equation of a joint on the base is the change of its momentum. -/
theorem discreteSpec_base (h : Inv E b) (ha : b.AxesOK) {i : ℕ} (hi : i < b.dof)
    (hroot : (b.rb i).idParent < 0) (dt : ℝ) (qp qn : ℕ → ℝ) (fext : FExt) :
    b.discreteSpec E b.linkMomentum dt qp qn fext i =
      b.stepMomentum E dt b.pos qn i - b.stepMomentum E dt qp b.pos i -
        dt * b.fresh.genForce (fun k => (fext k).getD 0) i := by
  unfold discreteSpec stepMomentum Sys.genForce
  show ∑ k ∈ range b.dof, _ = ∑ k ∈ range b.dof, _ - ∑ k ∈ range b.dof, _ -
    dt * ∑ k ∈ range b.dof, _
  rw [mul_sum, ← sum_sub_distrib, ← sum_sub_distrib]
  refine sum_congr rfl fun k hk => ?_
  have hk : k < b.dof := mem_range.1 hk
  have e : (b.twAt b.pos k).actF ((b.disp qp b.pos k).inv.actF
      (discMom E b.linkMomentum dt k (b.disp qp b.pos k))) =
      (b.twAt qp k).actF (discMom E b.linkMomentum dt k (b.disp qp b.pos k)) := by
    have h1 := twAt_valid h.tree h.rigid b.pos k hk
    have h2 := twAt_valid h.tree h.rigid qp k hk
    rw [← Iso.actF_mul _ _ h1]
    congr 1
    unfold disp
    rw [Iso.inv_mul_rev h2.inv h1, h2.inv_inv, ← mul_assoc, h1.mul_inv, one_mul]
  beta_reduce
  rw [fresh_eq_sysAt, jw_base h ha hi hroot b.pos qp (fun _ => 0) b.vel k,
    jw_base h ha hi hroot b.pos qp b.vel b.vel k,
    jw_base h ha hi hroot qp qp (fun _ => 0) b.vel k, Iso.actF_sub, e, Motion.dot_sub,
    Motion.dot_sub, Motion.dot_smul]

theorem Body.StateOnly.stepMomentum {b' : Body} (h : StateOnly b b') :
    b'.stepMomentum E = b.stepMomentum E := by
  have h1 : b'.rb = b.rb := by unfold Body.rb; rw [h.rbs]
  have h2 : b'.twAt = b.twAt := by
    unfold Body.twAt Body.TpAt Body.par Body.dof; rw [h1, h.rbs, h.T0]
  have h3 : b'.linkMomentum = b.linkMomentum := by
    unfold Body.linkMomentum Body.parts
    rw [h1, h.load]
  funext dt u w i
  unfold Body.stepMomentum
  rw [h2, h3, h.disp]
  unfold Sys.genForce Sys.Jw Sys.axis Body.sysAt Body.sysWith Body.par
  simp only
  rw [h2, h1]
  simp only [Body.dof, h.rbs]
  rfl

/-- C88: a converged `discrete::Integrate` changes the momentum about a joint on the base by the
impulse of its torque less that of gravity plus that of the external forces, within the tolerance of
the root finding. -/
theorem C88_balance (h : DReach E b d p) (ha : b.AxesOK) (hl : ∀ k < b.dof, b.load k = none)
    {tau : ℕ → ℝ} {dt : ℝ} {fext : FExt} {o : DIntOpts} (hc : b.Converges E tau dt fext o)
    {b' : Body} (hs : b.discreteIntegrate E tau dt fext o = .ok b') {i : ℕ} (hi : i < b.dof)
    (hroot : (b.rb i).idParent < 0) :
    |b.stepMomentum E dt b.pos b'.pos i - b.stepMomentum E dt (b.before p dt) b.pos i -
      dt * (tau i - (if o.gravity then b.gravity.1 i else 0) +
        b.fresh.genForce (fun k => (fext k).getD 0) i)| < o.epsV := by
  obtain ⟨k, x, -, -, -, hx, hst, hso, hr⟩ := C42_step h hc hs
  have hxi : |(b.discreteID E x dt fext o.gravity).1 i - dt * tau i| < o.epsV := by
    refine lt_of_le_of_lt ?_ hx
    refine Real.abs_le_sqrt ?_
    exact single_le_sum (f := fun i => ((b.discreteID E x dt fext o.gravity).1 i - dt * tau i) ^ 2)
      (fun _ _ => sq_nonneg _) (mem_range.2 hi)
  rw [C42_equation h hl x dt fext o.gravity i hi,
    discreteSpec_base h.reach.inv ha hi hroot] at hxi
  have hp : b.stepMomentum E dt b.pos x i = b.stepMomentum E dt b.pos b'.pos i := by
    unfold stepMomentum Sys.genForce
    refine sum_congr rfl fun k hk => ?_
    beta_reduce
    rw [disp_congr h.reach.inv (fun _ _ => rfl) (fun j hj => (hst j hj).1.symm) k (mem_range.1 hk)]
  rw [hp] at hxi
  convert hxi using 2
  split <;> ring

/-- C88, many steps: as long as the torque of a joint on the base balances gravity (or gravity is
off and the torque is zero) and there are no external forces, `n` steps of the same length change the
momentum about the joint by at most `n` times the tolerance: the error does not depend on the step
length, the positions or the number of links. -/
theorem C88_conserved {dt : ℝ} {o : DIntOpts} {tau : ℕ → ℕ → ℝ} {B : ℕ → Body}
    (h : DReach E (B 0) d p) (ha : (B 0).AxesOK) (hl : ∀ k < (B 0).dof, (B 0).load k = none)
    (hc : ∀ n, (B n).Converges E (tau n) dt (fun _ => none) o)
    (hs : ∀ n, (B n).discreteIntegrate E (tau n) dt (fun _ => none) o = .ok (B (n + 1)))
    {i : ℕ} (hi : i < (B 0).dof) (hroot : ((B 0).rb i).idParent < 0)
    (hτ : ∀ n, tau n i = if o.gravity then (B n).gravity.1 i else 0) (n : ℕ) :
    |(B 0).stepMomentum E dt (B n).pos (B (n + 1)).pos i -
      (B 0).stepMomentum E dt (B 0).pos (B 1).pos i| ≤ n * o.epsV := by
  have key : ∀ n, StateOnly (B 0) (B (n + 1)) ∧ DReach E (B (n + 1)) true (some (dt, (B n).pos)) := by
    intro n
    induction n with
    | zero => obtain ⟨k, x, -, -, -, hx, hst, hso, hr⟩ := C42_step h (hc 0) (hs 0); exact ⟨hso, hr⟩
    | succ n ih =>
      obtain ⟨k, x, -, -, -, hx, hst, hso, hr⟩ := C42_step ih.2 (hc (n + 1)) (hs (n + 1))
      exact ⟨ih.1.trans hso, hr⟩
  induction n with
  | zero => simp
  | succ n ih =>
    obtain ⟨so, hr⟩ := key n
    have hd : (B (n + 1)).dof = (B 0).dof := by unfold Body.dof; rw [so.rbs]
    have hrb : (B (n + 1)).rb = (B 0).rb := by unfold Body.rb; rw [so.rbs]
    have st := C88_balance hr (by intro i hi; rw [hrb]; exact ha i (hd ▸ hi))
      (fun k hk => by rw [so.load]; exact hl k (hd ▸ hk)) (hc (n + 1)) (hs (n + 1)) (hd ▸ hi)
      (by rw [hrb]; exact hroot)
    have e : (B (n + 1)).before (some (dt, (B n).pos)) dt = (B n).pos := if_pos rfl
    rw [e, so.stepMomentum, hτ (n + 1)] at st
    have z : (B (n + 1)).fresh.genForce (fun k => (((fun _ => none : FExt) k).getD 0)) i = 0 := by
      unfold Sys.genForce
      refine sum_eq_zero fun k _ => ?_
      simp [Motion.dot, Vec3.dot]
    rw [z, sub_self, add_zero, mul_zero, sub_zero] at st
    push_cast
    rw [abs_le] at ih ⊢
    rw [abs_lt] at st
    constructor <;> linarith [ih.1, ih.2, st.1, st.2]

/-! ## A mass on a rail -/

/-- On a rail the momentum over a step is mass times displacement over time. -/
theorem rail_stepMomentum (h : Rail b) (hE : E.Transl) (hl : ∀ k < b.dof, b.load k = none)
    (dt : ℝ) (u w : ℕ → ℝ) : b.stepMomentum E dt u w 0 = (w 0 - u 0) / dt := by
  have h0 : 0 < b.dof := by rw [h.dof]; exact Nat.one_pos
  unfold stepMomentum Sys.genForce
  show ∑ k ∈ range b.dof, _ = _
  rw [h.dof, sum_range_one]
  beta_reduce
  have e : discMom E b.linkMomentum dt 0 (b.disp u w 0) = discMom E b.own dt 0 (b.disp u w 0) := by
    unfold discMom
    rw [own_unloaded hl h0]
  have j : (b.sysAt u fun _ => 0).Jw 0 0 = ⟨⟨1, 0, 0⟩, 0⟩ := by
    unfold Sys.Jw
    rw [if_pos Anc.refl]
    unfold Sys.axis
    rw [sysAt_Tw h0, h.twAt]
    have s : (b.sysAt u fun _ => 0).S 0 = ⟨⟨1, 0, 0⟩, 0⟩ := by
      show (b.rb 0).joint.subspace = _
      rw [h.rb]; rfl
    rw [s]
    ext <;> simp [Iso.actM, Mat3.mulVec, Vec3.cross]
  rw [e, j, h.disp, h.discMom hE, h.twAt]
  simp [Iso.actF, Motion.dot, Mat3.mulVec, Vec3.dot]

/-- The hypotheses of `C88_balance` and `C88_conserved` hold for a mass on a rail released with any
velocity, for any number of steps. -/
theorem rail_run (h : Rail b) (hE : E.Transl) (hl : ∀ k < b.dof, b.load k = none)
    (hr : DReach E b d p) {dt : ℝ} (ht : dt ≠ 0) {o : DIntOpts} (hg : o.gravity = false)
    (heps : 0 < o.epsV) (hit : 2 ≤ o.maxIter) :
    ∃ B : ℕ → Body, B 0 = b ∧ (∀ n, (B n).Converges E (fun _ => 0) dt (fun _ => none) o) ∧
      ∀ n, (B n).discreteIntegrate E (fun _ => 0) dt (fun _ => none) o = .ok (B (n + 1)) := by
  let P : Body → Prop := fun b => Rail b ∧ b.load 0 = none ∧ ∃ d p, DReach E b d p
  have step : ∀ s : {b // P b}, ∃ s' : {b // P b}, s.1.Converges E (fun _ => 0) dt (fun _ => none) o ∧
      s.1.discreteIntegrate E (fun _ => 0) dt (fun _ => none) o = .ok s'.1 := by
    rintro ⟨b, h, hl, d, p, hr⟩
    obtain ⟨b', hs⟩ := C42_defined hr (fun _ => 0) dt (fun _ => none) o
    have hc := (C42_verlet h hE hl hr (fun _ => 0) ht hg heps hit).1
    obtain ⟨k, x, -, -, -, -, -, so, hr'⟩ := C42_step hr hc hs
    exact ⟨⟨b', h.stateOnly so, by rw [so.load]; exact hl, _, _, hr'⟩, hc, hs⟩
  choose f hf using step
  refine ⟨fun n => (f^[n] ⟨b, h, hl 0 (by rw [h.dof]; exact Nat.one_pos), d, p, hr⟩).1, rfl,
    fun n => (hf _).1, fun n => ?_⟩
  beta_reduce
  rw [Function.iterate_succ_apply']
  exact (hf _).2

/-- A cart released with unit velocity keeps it, up to a tenth of a unit per step. -/
example : ∃ (b : Body) (d : Bool) (B : ℕ → Body), DReach extT b d none ∧ b.vel 0 = 1 ∧ B 0 = b ∧
    b.AxesOK ∧ (b.rb 0).idParent < 0 ∧ ∀ n : ℕ,
      |((B (n + 1)).pos 0 - (B n).pos 0) - ((B 1).pos 0 - b.pos 0)| ≤ n * 0.1 := by
  obtain ⟨b, hs, -⟩ := setDq_total (b := cart cache0) (q := [1]) rfl
  have hq : (cart cache0).dq ≠ [1] := by
    show [(0 : ℝ)] ≠ [1]
    simp
  have hr := DReach.step (E := extT) (b' := b) (.setDq [1]) (cart_reach extT cache0) trivial
    (by unfold Op.exec; rw [show (Op.setDq [1]).step extT (cart cache0) = .ok b from hs]) trivial
  have e : Op.prev (cart cache0) b none (.setDq [1]) = none :=
    if_neg fun e => hq (e.2.symm.trans (setDq_dq hs))
  rw [e] at hr
  have so := setDq_stateOnly (cart_reach extT cache0).reach.inv.tree.ldq hs
  have hR := (cart_rail cache0).stateOnly so
  have hl : ∀ k < b.dof, b.load k = none := fun k _ => by rw [so.load]; rfl
  obtain ⟨B, h0, hc, hi⟩ := rail_run hR extT_transl hl hr one_ne_zero (o := ⟨false, 0.1, 2⟩) rfl
    (by norm_num) le_rfl
  have ha : b.AxesOK := by
    intro i hi
    rw [hR.dof] at hi
    rw [hR.rb, show i = 0 by omega]
    rfl
  have hroot : (b.rb 0).idParent < 0 := by rw [hR.rb]; show (-1 : ℤ) < 0; norm_num
  refine ⟨b, _, B, hr, ?_, h0, ha, hroot, fun n => ?_⟩
  · unfold Body.vel; rw [setDq_dq hs]; rfl
  · subst h0
    have := C88_conserved (dt := 1) (tau := fun _ _ => 0) hr ha hl hc hi
      (i := 0) (by rw [hR.dof]; exact Nat.one_pos) hroot (fun _ => rfl) n
    rw [rail_stepMomentum hR extT_transl hl, rail_stepMomentum hR extT_transl hl] at this
    simpa using this

end SpatialDyn
