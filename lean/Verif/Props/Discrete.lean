import Verif.Lemmas.DiscreteReach
import Verif.Props.OpsAbaWitness
import Verif.Props.OpsCache

/-!
# C42, C56, C57: discrete (variational) dynamics
-/

namespace SpatialDyn
open Finset Body
variable {E : Ext} {b : Body} {d : Bool} {p : Prev}

theorem own_unloaded (hl : ∀ k < b.dof, b.load k = none) {k : ℕ} (hk : k < b.dof) (m : Motion) :
    b.own k m = b.linkMomentum k m := by
  unfold own linkMomentum parts
  rw [hl k hk]
  simp

theorem discreteSpec_unloaded (hl : ∀ k < b.dof, b.load k = none) (dt : ℝ) (qp qn : ℕ → ℝ)
    (fext : FExt) (i : ℕ) : b.discreteSpec E b.own dt qp qn fext i =
      b.discreteSpec E b.linkMomentum dt qp qn fext i := by
  unfold discreteSpec Sys.genForce
  refine sum_congr rfl fun k hk => ?_
  have hk : k < b.dof := mem_range.1 hk
  unfold discMom
  beta_reduce
  rw [own_unloaded hl hk, own_unloaded hl hk]

/-- What the code computes, loads or not: the momenta of the links alone. -/
theorem discreteID_own (h : DReach E b d p) (qn : ℕ → ℝ) (dt : ℝ) (fext : FExt) (g : Bool) (i : ℕ)
    (hi : i < b.dof) : (b.discreteID E qn dt fext g).1 i =
      b.discreteSpec E b.own dt (b.before p dt) qn fext i +
        if g then dt * b.gravity.1 i else 0 := by
  rw [(discreteID_run h.reach.inv h.dcoh qn dt fext g).1 i hi,
    (gravity_run h.reach.inv).2 i hi]

/-- C42: for a body without loads, after any history, `discrete::InverseDynamics` returns the
generalised impulse of the discrete Euler–Lagrange equations through the previous configuration, the
current one and `q_next`; the previous configuration is the one the history fixed for this step
length, otherwise `q - dt dq`. -/
theorem C42_equation (h : DReach E b d p) (hl : ∀ k < b.dof, b.load k = none) (qn : ℕ → ℝ) (dt : ℝ)
    (fext : FExt) (g : Bool) (i : ℕ) (hi : i < b.dof) :
    (b.discreteID E qn dt fext g).1 i =
      b.discreteSpec E b.linkMomentum dt (b.before p dt) qn fext i +
        if g then dt * b.gravity.1 i else 0 := by
  rw [discreteID_own h qn dt fext g i hi, discreteSpec_unloaded hl]

/-- C42: `discrete::Integrate` never fails. -/
theorem C42_defined (h : DReach E b d p) (tau : ℕ → ℝ) (dt : ℝ) (fext : FExt) (o : DIntOpts) :
    ∃ b', b.discreteIntegrate E tau dt fext o = .ok b' :=
  discreteIntegrate_total h.reach.inv tau dt fext o

/-- C42: a converged `discrete::Integrate` moves the body to the first candidate whose defect in the
discrete Euler–Lagrange equations is within the tolerance, sets the velocity to the central
difference over two steps, changes nothing else, and records the position it started from as the
previous configuration. -/
theorem C42_step (h : DReach E b d p) {tau : ℕ → ℝ} {dt : ℝ} {fext : FExt} {o : DIntOpts}
    (hc : b.Converges E tau dt fext o) {b' : Body}
    (hs : b.discreteIntegrate E tau dt fext o = .ok b') :
    ∃ (k : ℕ) (x : ℕ → ℝ), k < o.maxIter ∧ x = b.candidate E tau dt fext o.gravity k ∧
      (∀ j < k, ¬ b.Accepts E tau dt fext o (b.candidate E tau dt fext o.gravity j)) ∧
      Real.sqrt (∑ i ∈ range b.dof, ((b.discreteID E x dt fext o.gravity).1 i - dt * tau i) ^ 2) <
        o.epsV ∧
      (∀ i < b.dof, b'.pos i = x i ∧ b'.vel i = (x i - b.before p dt i) / (2 * dt)) ∧
      StateOnly b b' ∧ DReach E b' true (some (dt, b.pos)) := by
  classical
  obtain ⟨K, hK, hA⟩ := hc
  have hex : ∃ k, b.Accepts E tau dt fext o (b.candidate E tau dt fext o.gravity k) := ⟨K, hA⟩
  have hlt := lt_of_le_of_lt (Nat.find_min' hex hA) hK
  have hmin : ∀ j < Nat.find hex, ¬ b.Accepts E tau dt fext o
    (b.candidate E tau dt fext o.gravity j) := fun j hj => Nat.find_min hex hj
  obtain ⟨r1, r2, -⟩ := discreteIntegrate_run h.reach.inv h.dcoh hlt hmin (Nat.find_spec hex) hs
  refine ⟨Nat.find hex, _, hlt, rfl, hmin, Nat.find_spec hex, fun i hi => ⟨?_, ?_⟩,
    discreteIntegrate_stateOnly h.reach.inv.tree hs, ?_⟩
  · unfold Body.pos; rw [r1, toVec_getD _ _ hi]
  · unfold Body.vel; rw [r2, toVec_getD _ _ hi]
  · refine DReach.step (.discreteIntegrate tau dt fext o) h trivial ?_ ⟨K, hK, hA⟩
    unfold Op.exec
    rw [show (Op.discreteIntegrate tau dt fext o).step E b = .ok b' from hs]

/-- C42: two steps in a row use three consecutive positions: after a converged step of length `dt`
from `b` to `b'`, discrete inverse dynamics for the same `dt` takes the position of `b` as the
previous configuration. -/
theorem C42_consecutive (h : DReach E b d p) {tau : ℕ → ℝ} {dt : ℝ} {fext : FExt} {o : DIntOpts}
    (hc : b.Converges E tau dt fext o) {b' : Body}
    (hs : b.discreteIntegrate E tau dt fext o = .ok b') (hl : ∀ k < b.dof, b.load k = none)
    (qn : ℕ → ℝ) (f : FExt) (g : Bool) (i : ℕ) (hi : i < b.dof) :
    (b'.discreteID E qn dt f g).1 i =
      b'.discreteSpec E b'.linkMomentum dt b.pos qn f i + if g then dt * b'.gravity.1 i else 0 := by
  obtain ⟨k, x, -, -, -, -, -, hso, hr⟩ := C42_step h hc hs
  have hd : b'.dof = b.dof := by unfold Body.dof; rw [hso.rbs]
  rw [C42_equation hr (fun k hk => by rw [hso.load]; exact hl k (hd ▸ hk)) qn dt f g i (hd ▸ hi)]
  have : b'.before (some (dt, b.pos)) dt = b.pos := if_pos rfl
  rw [this]

/-- C42: a change of position or velocity forgets the previous configuration; the next discrete
inverse dynamics starts from `q - dt dq`. -/
theorem C42_reset (h : DReach E b d p) {q : List ℝ} {b' : Body}
    (hs : b.setQ q = .ok b' ∧ b.q ≠ q ∨ b.setDq q = .ok b' ∧ b.dq ≠ q)
    (hl : ∀ k < b.dof, b.load k = none) (qn : ℕ → ℝ) (dt : ℝ) (f : FExt) (g : Bool) (i : ℕ)
    (hi : i < b.dof) :
    (b'.discreteID E qn dt f g).1 i =
      b'.discreteSpec E b'.linkMomentum dt (fun j => b'.pos j - dt * b'.vel j) qn f i +
        if g then dt * b'.gravity.1 i else 0 := by
  have key : ∃ d', DReach E b' d' none ∧ StateOnly b b' := by
    rcases hs with ⟨hs, hq⟩ | ⟨hs, hq⟩
    · have := DReach.step (E := E) (b' := b') (.setQ q) h trivial
        (by unfold Op.exec; rw [show (Op.setQ q).step E b = .ok b' from hs]) trivial
      have e : Op.prev b b' p (.setQ q) = none := if_neg fun e => hq (e.1.symm.trans (setQ_q hs))
      rw [e] at this
      exact ⟨_, this, setQ_stateOnly h.reach.inv.tree.lq hs⟩
    · have := DReach.step (E := E) (b' := b') (.setDq q) h trivial
        (by unfold Op.exec; rw [show (Op.setDq q).step E b = .ok b' from hs]) trivial
      have e : Op.prev b b' p (.setDq q) = none := if_neg fun e => hq (e.2.symm.trans (setDq_dq hs))
      rw [e] at this
      exact ⟨_, this, setDq_stateOnly h.reach.inv.tree.ldq hs⟩
  obtain ⟨d', hr, hso⟩ := key
  have hd : b'.dof = b.dof := by unfold Body.dof; rw [hso.rbs]
  exact C42_equation hr (fun k hk => by rw [hso.load]; exact hl k (hd ▸ hk)) qn dt f g i (hd ▸ hi)

/-! ## A sliding mass: the step is Störmer–Verlet -/

/-- The logarithm of a translation is that translation, and its differential fixes it (true of
`ctrl_utils::Log`). -/
structure Ext.Transl (E : Ext) : Prop where
  log : ∀ t : Vec3, E.log ⟨1, t⟩ = ⟨t, 0⟩
  dlogT : ∀ (t : Vec3) (c : ℝ), E.dlogT ⟨1, t⟩ ⟨c • t, 0⟩ = ⟨c • t, 0⟩

/-- The same link as `solo .px`, in any state. -/
structure Rail (b : Body) : Prop where
  rbs : b.rbs = (solo .px).rbs
  T0 : b.T0 = 1
  g : b.g = ⟨0, 0, -9.81⟩

namespace Rail

theorem dof (h : Rail b) : b.dof = 1 := by unfold Body.dof; rw [h.rbs]; rfl

theorem rb (h : Rail b) : b.rb = (solo .px).rb := by unfold Body.rb; rw [h.rbs]

theorem stateOnly (h : Rail b) {b' : Body} (k : StateOnly b b') : Rail b' :=
  ⟨k.rbs.trans h.rbs, k.T0.trans h.T0, k.g.trans h.g⟩

theorem twAt (h : Rail b) (u : ℕ → ℝ) : b.twAt u 0 = ⟨1, ⟨u 0, 0, 0⟩⟩ := by
  have ht : b.TpAt = (solo .px).TpAt := by unfold Body.TpAt; rw [h.rb]
  have hp : b.par = (solo .px).par := by unfold Body.par; rw [h.rb]
  unfold Body.twAt
  rw [h.dof, hp, ht, h.T0]
  show (1 : Iso) * ((1 : Iso) * JType.px.Tjoint (u 0)) = _
  rw [one_mul, one_mul]
  ext <;> simp [JType.Tjoint]

theorem disp (h : Rail b) (u w : ℕ → ℝ) : b.disp u w 0 = ⟨1, ⟨w 0 - u 0, 0, 0⟩⟩ := by
  unfold Body.disp
  rw [h.twAt, h.twAt]
  ext <;> simp [Iso.inv, Mat3.mulVec, Mat3.T]
  ring

theorem discMom (h : Rail b) (hE : E.Transl) (dt x : ℝ) :
    Body.discMom E b.own dt 0 ⟨1, ⟨x, 0, 0⟩⟩ = ⟨⟨x / dt, 0, 0⟩, 0⟩ := by
  unfold Body.discMom own
  rw [hE.log, h.rb]
  have e : ((solo .px).rb 0).inertia.app ((1 / dt) • (⟨⟨x, 0, 0⟩, 0⟩ : Motion)) =
      ⟨(1 / dt) • ⟨x, 0, 0⟩, 0⟩ := by
    show ball.app _ = _
    ext <;> simp [ball, Inertia.app]
  rw [e, hE.dlogT]
  ext <;> simp
  ring

theorem jw (h : Rail b) : b.fresh.Jw 0 0 = ⟨⟨1, 0, 0⟩, 0⟩ := by
  unfold Sys.Jw
  rw [if_pos Anc.refl]
  unfold Sys.axis
  have h0 : 0 < b.dof := by rw [h.dof]; exact Nat.one_pos
  rw [fresh_Tw h0]
  have e : b.freshTw 0 = b.twAt b.pos 0 := rfl
  have s : b.fresh.S 0 = ⟨⟨1, 0, 0⟩, 0⟩ := by
    show (b.rb 0).joint.subspace = _
    rw [h.rb]; rfl
  rw [e, h.twAt, s]
  ext <;> simp [Iso.actM, Mat3.mulVec, Vec3.cross]

/-- The discrete equations of the sliding mass. -/
theorem spec (h : Rail b) (hE : E.Transl) (dt : ℝ) (qp qn : ℕ → ℝ) :
    b.discreteSpec E b.own dt qp qn (fun _ => none) 0 =
      (qn 0 - b.pos 0) / dt - (b.pos 0 - qp 0) / dt := by
  unfold discreteSpec Sys.genForce
  rw [show b.fresh.n = 1 from h.dof, sum_range_one]
  beta_reduce
  rw [h.jw, h.disp, h.disp, h.twAt, h.discMom hE,
    h.discMom hE]
  simp [Iso.actF, Iso.inv, Motion.dot, Mat3.mulVec, Mat3.T, Vec3.dot]

theorem definite (h : Rail b) (hl : b.load 0 = none) : b.Definite := by
  have h0 : ∀ k < b.dof, k = 0 := fun k hk => by rw [h.dof] at hk; omega
  refine ⟨fun k hk => ?_, fun k hk => ?_, fun k hk v hv => ?_, fun k hk L hL => ?_, fun k hk => ?_⟩
  · rw [h0 k hk, h.rb]; show (0 : ℝ) < 1; norm_num
  · rw [h0 k hk, h.rb]; exact ball_phys.2.1
  · rw [h0 k hk, h.rb]; exact ball_pd v hv
  · rw [h0 k hk] at hL
    rw [show ((0 : ℕ) : ℤ) = 0 from rfl, hl] at hL
    cases hL
  · rw [h0 k hk, h.rb]
    intro e
    have := congrArg (fun m : Motion => m.lin.x) e
    simp [solo, Body.rb, ballRB, mkJoint, JType.subspace] at this

theorem mass (h : Rail b) (hl : b.load 0 = none) : b.fresh.massSpec 0 0 = 1 := by
  unfold Sys.massSpec Sys.Iw
  have h0 : 0 < b.dof := by rw [h.dof]; exact Nat.one_pos
  have e : b.freshTw 0 = b.twAt b.pos 0 := rfl
  have hI : b.fresh.Itot 0 = ball := by
    unfold Sys.Itot
    have : b.fresh.load 0 = none := hl
    rw [this]
    show (b.rb 0).inertia = ball
    rw [h.rb]; rfl
  rw [show b.fresh.n = 1 from h.dof, sum_range_one, h.jw, fresh_Tw h0, e, h.twAt, hI]
  simp [Iso.actF, Iso.actM, Iso.inv, Motion.dot, Mat3.mulVec, Mat3.T, Vec3.dot, ball, Inertia.app,
    Vec3.cross]

theorem coriolis (h : Rail b) : b.fresh.coriolisSpec 0 = 0 := by
  have h0 : 0 < b.dof := by rw [h.dof]; exact Nat.one_pos
  have e : b.freshTw 0 = b.twAt b.pos 0 := rfl
  have hV : b.fresh.V b.fresh.dq 0 = b.fresh.dq 0 • (⟨⟨1, 0, 0⟩, 0⟩ : Motion) := by
    unfold Sys.V
    rw [show b.fresh.n = 1 from h.dof, sum_range_one, h.jw]
  have hb : b.fresh.bias 0 = 0 := by
    unfold Sys.bias
    rw [show b.fresh.n = 1 from h.dof, sum_range_one, h.jw, hV]
    ext <;> simp [Motion.crossM, Vec3.cross]
  unfold Sys.coriolisSpec Sys.genForce
  rw [show b.fresh.n = 1 from h.dof, sum_range_one]
  beta_reduce
  rw [hb, hV, h.jw]
  unfold Sys.Iw
  rw [fresh_Tw h0, e, h.twAt]
  simp [Iso.actF, Iso.actM, Iso.inv, Motion.dot, Mat3.mulVec, Mat3.T, Vec3.dot, Inertia.app,
    Vec3.cross, Motion.crossF]

theorem fd (h : Rail b) (hl : b.load 0 = none) {d : Bool} (hr : Reach E b d) (tau : ℕ → ℝ) :
    (b.fd E tau (fun _ => none) ⟨false, true, false, 0.01⟩).1 0 = tau 0 := by
  have hd := h.definite hl
  have hm := hd.massive hr.inv.tree
  have := fd_solves hr hm (hd.form hr) tau (fun _ => none) ⟨false, true, false, 0.01⟩ 0
    (by rw [h.dof]; exact Nat.one_pos)
  rw [h.dof, sum_range_one, h.mass hl, one_mul] at this
  rw [this]
  simp [Sys.fdRhs, Sys.idSpec, h.coriolis, Sys.extSpec, Sys.genForce]

theorem solve (h : Rail b) (hl : b.load 0 = none) {d : Bool} (hr : Reach E b d) (x : ℕ → ℝ) :
    E.solve b.dof b.inertiaInverse.1 x 0 = x 0 := by
  have hd := h.definite hl
  have hm := hd.massive hr.inv.tree
  have hA : ∀ i < b.dof, ∀ j < b.dof, b.inertiaInverse.1 i j = (fun _ _ => 1 : ℕ → ℕ → ℝ) i j := by
    intro i hi j hj
    rw [(inertiaInverse_run hr.inv).2.mass hr.inv.wf hm.symI (hm.posMass hr.inv.tree) i j hi hj]
    rw [h.dof] at hi hj
    have h1 : i = 0 := by omega
    have h2 : j = 0 := by omega
    subst h1 h2
    exact h.mass hl
  rw [E.solve_congr hA (fun _ _ => rfl), h.dof]
  have hpos : PosMat (toMat 1 (fun _ _ => 1 : ℕ → ℕ → ℝ)) := Sys.posMat_of fun u ⟨i, hi, hu⟩ => by
    have h0 : i = 0 := by omega
    subst h0
    simpa [mul_self_pos] using hu
  unfold Ext.solve
  obtain ⟨y, hy⟩ : ∃ y, ldltSolve 1 (fun _ _ => 1) x = some y := by
    unfold ldltSolve
    rw [if_pos hpos]
    exact ⟨_, rfl⟩
  rw [hy]
  have := Sys.ldltSolve_sound hy 0 Nat.one_pos
  simpa using this

theorem defect (h : Rail b) (hE : E.Transl) {d : Bool} {p : Prev} (hr : DReach E b d p)
    (tau x : ℕ → ℝ) (dt : ℝ) : b.defect E tau dt (fun _ => none) false x 0 =
      (x 0 - b.pos 0) / dt - (b.pos 0 - b.before p dt 0) / dt - dt * tau 0 := by
  unfold Body.defect
  rw [discreteID_own hr _ _ _ _ 0 (by rw [h.dof]; exact Nat.one_pos), h.spec hE]
  simp

theorem candidate_one (h : Rail b) (hE : E.Transl) (hl : b.load 0 = none) {d : Bool} {p : Prev}
    (hr : DReach E b d p) (tau : ℕ → ℝ) {dt : ℝ} (ht : dt ≠ 0) (k : ℕ) :
    b.candidate E tau dt (fun _ => none) false (k + 1) 0 =
      2 * b.pos 0 - b.before p dt 0 + dt ^ 2 * tau 0 := by
  simp only [candidate]
  rw [h.solve hl hr.reach, h.defect hE hr]
  field_simp
  ring

end Rail

/-- C42 on a concrete mechanism: for a mass on a rail, with any previous configuration the history
has left, the root finding succeeds within two iterations and the new position is the Störmer–Verlet
update `2 q - q_prev + dt² τ` up to the tolerance. -/
theorem C42_verlet (h : Rail b) (hE : E.Transl) (hl : b.load 0 = none) (hr : DReach E b d p)
    (tau : ℕ → ℝ) {dt : ℝ} (ht : dt ≠ 0) {o : DIntOpts} (hg : o.gravity = false)
    (heps : 0 < o.epsV) (hit : 2 ≤ o.maxIter) :
    b.Converges E tau dt (fun _ => none) o ∧
    ∀ b', b.discreteIntegrate E tau dt (fun _ => none) o = .ok b' →
      |b'.pos 0 - (2 * b.pos 0 - b.before p dt 0 + dt ^ 2 * tau 0)| < o.epsV * |dt| ∧
      b'.vel 0 = (b'.pos 0 - b.before p dt 0) / (2 * dt) := by
  have hc : b.Converges E tau dt (fun _ => none) o := by
    refine ⟨1, by omega, ?_⟩
    unfold Accepts
    rw [h.dof, sum_range_one, hg, h.defect hE hr, h.candidate_one hE hl hr tau ht 0]
    have : (2 * b.pos 0 - b.before p dt 0 + dt ^ 2 * tau 0 - b.pos 0) / dt -
        (b.pos 0 - b.before p dt 0) / dt - dt * tau 0 = 0 := by
      field_simp
      ring
    rw [this]
    simpa using heps
  refine ⟨hc, fun b' hs => ?_⟩
  obtain ⟨k, x, -, -, -, hx, hst, -⟩ := C42_step hr hc hs
  obtain ⟨h1, h2⟩ := hst 0 (by rw [h.dof]; exact Nat.one_pos)
  refine ⟨?_, by rw [h2, h1]⟩
  have hd := h.defect hE hr tau x dt
  unfold Body.defect at hd
  rw [h.dof, sum_range_one, hg, hd, Real.sqrt_sq_eq_abs] at hx
  rw [h1]
  have hdt : 0 < |dt| := abs_pos.2 ht
  calc |x 0 - (2 * b.pos 0 - b.before p dt 0 + dt ^ 2 * tau 0)|
      = |((x 0 - b.pos 0) / dt - (b.pos 0 - b.before p dt 0) / dt - dt * tau 0) * dt| := by
        congr 1; field_simp; ring
    _ = |(x 0 - b.pos 0) / dt - (b.pos 0 - b.before p dt 0) / dt - dt * tau 0| * |dt| :=
        abs_mul _ _
    _ < o.epsV * |dt| := mul_lt_mul_of_pos_right hx hdt

/-! ## Witnesses -/

/-- External functions with a logarithm exact on translations. -/
noncomputable def extT : Ext := { ext0 with log := fun T => ⟨T.t, 0⟩ }

theorem extT_transl : extT.Transl := ⟨fun _ => rfl, fun _ _ => rfl⟩

/-- The slider made from a body whose cache starts with arbitrary contents. -/
noncomputable def cart (c : Cache) : Body := { solo .px with c := (Body.init c).c.expand 0 }

theorem cart_rail (c : Cache) : Rail (cart c) := ⟨rfl, rfl, rfl⟩

theorem cart_reach (E : Ext) (c : Cache) : DReach E (cart c) false none := by
  have h := DReach.step (E := E) (b' := cart c) (.addRigidBody (ballRB .px) (-1)) (DReach.init c)
    Iso.valid_one (by simp [Op.exec, Op.step, addRigidBody, Out.map, Out.bind, Body.init, pushSub,
      cart, solo]) trivial
  have e1 : Op.prev (Body.init c) (cart c) none (.addRigidBody (ballRB .px) (-1)) = none := by
    simp [Op.prev]
  have e2 : Op.dirty (Body.init c) (cart c) false (.addRigidBody (ballRB .px) (-1)) = false := by
    simp [Op.dirty]
  rw [e1, e2] at h
  exact h

/-- The hypotheses of the C42 theorems hold for a mass on a rail pushed with unit force, and the step
really moves it. -/
example : ∃ b', DReach extT (cart cache0) false none ∧
    (cart cache0).Converges extT (fun _ => 1) 1 (fun _ => none) ⟨false, 0.1, 2⟩ ∧
    (cart cache0).discreteIntegrate extT (fun _ => 1) 1 (fun _ => none) ⟨false, 0.1, 2⟩ = .ok b' ∧
    |b'.pos 0 - 1| < 0.1 := by
  have hr := cart_reach extT cache0
  obtain ⟨b', hs⟩ := C42_defined hr (fun _ => 1) 1 (fun _ => none) ⟨false, 0.1, 2⟩
  obtain ⟨hc, h⟩ := C42_verlet (cart_rail cache0) extT_transl rfl hr (fun _ => 1) one_ne_zero
    (o := ⟨false, 0.1, 2⟩) rfl (by norm_num) le_rfl
  refine ⟨b', hr, hc, hs, ?_⟩
  have := (h b' hs).1
  have e : (cart cache0).pos 0 = 0 := rfl
  have e2 : (cart cache0).before none 1 0 = 0 := by
    show (0 : ℝ) - 1 * 0 = 0
    norm_num
  rw [e, e2] at this
  norm_num at this ⊢
  exact this

/-! ## C56: loads -/

/-- C56 (what holds): whatever the loads, `discrete::InverseDynamics` uses the momenta of the links
alone; the equation is right when there are none. -/
theorem C56_links_only_partial (h : DReach E b d p) (qn : ℕ → ℝ) (dt : ℝ) (fext : FExt) (g : Bool)
    (i : ℕ) (hi : i < b.dof) : (b.discreteID E qn dt fext g).1 i =
      b.discreteSpec E (fun k m => (b.rb k).inertia.app m) dt (b.before p dt) qn fext i +
        if g then dt * b.gravity.1 i else 0 :=
  discreteID_own h qn dt fext g i hi

theorem loaded_reach (E : Ext) (c : Cache) :
    DReach E ((cart c).addLoad ball 0) false none := by
  have h := DReach.step (.addLoad ball 0) (cart_reach E c) trivial rfl trivial
  have e1 : Op.prev (cart c) ((cart c).addLoad ball 0) none (.addLoad ball 0) = none :=
    if_pos ⟨rfl, rfl⟩
  have e2 : Op.dirty (cart c) ((cart c).addLoad ball 0) false (.addLoad ball 0) = false :=
    if_pos rfl
  rw [e1, e2] at h
  exact h

/-- Negation of C56: a load of the same mass on a cart should double the impulse; the answer does
not change. -/
theorem C56_violated (hE : E.Transl) : ∃ (b : Body) (d : Bool) (p : Prev) (qn : ℕ → ℝ) (dt : ℝ)
    (i : ℕ), DReach E b d p ∧ b.Definite ∧ i < b.dof ∧
      (b.discreteID E qn dt (fun _ => none) false).1 i ≠
        b.discreteSpec E b.linkMomentum dt (b.before p dt) qn (fun _ => none) i := by
  refine ⟨(cart cache0).addLoad ball 0, false, none, fun _ => 1, 1, 0, loaded_reach E cache0, ?_,
    Nat.one_pos, ?_⟩
  · exact soloLoaded_definite
  · have hR : Rail ((cart cache0).addLoad ball 0) := ⟨rfl, rfl, rfl⟩
    rw [discreteID_own (loaded_reach E cache0) _ _ _ _ 0 Nat.one_pos, hR.spec hE]
    set b := (cart cache0).addLoad ball 0 with hb
    have hp : b.pos 0 = 0 := rfl
    have hv : b.before none 1 0 = 0 := by
      show (0 : ℝ) - 1 * 0 = 0
      norm_num
    have hM : ∀ x : ℝ, Body.discMom E b.linkMomentum 1 0 ⟨1, ⟨x, 0, 0⟩⟩ = ⟨⟨2 * x, 0, 0⟩, 0⟩ := by
      intro x
      unfold Body.discMom
      rw [hE.log]
      have e : b.linkMomentum 0 ((1 / (1 : ℝ)) • (⟨⟨x, 0, 0⟩, 0⟩ : Motion)) =
          ⟨(2 : ℝ) • ⟨x, 0, 0⟩, 0⟩ := by
        show (ball.app _ + (ball.app _ + 0) : Force) = _
        ext <;> simp [ball, Inertia.app]
        ring
      rw [e, hE.dlogT]
      ext <;> simp
    unfold discreteSpec Sys.genForce
    rw [show b.fresh.n = 1 from hR.dof, sum_range_one]
    beta_reduce
    rw [hR.jw, hR.disp, hR.disp, hR.twAt, hp, hv, hM, hM]
    simp [Iso.actF, Iso.inv, Motion.dot, Mat3.mulVec, Mat3.T]

/-! ## C57: iterations -/

/-- Negation of C57 when no iteration is allowed: the velocity set by `discrete::Integrate` depends on
memory that no call has written.  Two bodies with the same observable state and the same (empty)
record of a previous configuration end with different velocities. -/
theorem C57_no_iterations_violated (E : Ext) : ∃ (b1 b2 b1' b2' : Body) (o : DIntOpts),
    DReach E b1 false none ∧ DReach E b2 false none ∧ b1.ObsEq b2 ∧ b1.Definite ∧
    b1.discreteIntegrate E (fun _ => 0) 1 (fun _ => none) o = .ok b1' ∧
    b2.discreteIntegrate E (fun _ => 0) 1 (fun _ => none) o = .ok b2' ∧ b1'.dq ≠ b2'.dq := by
  set c1 : Cache := { cache0 with drnea := { cache0.drnea with qPrev := fun _ => 1 } } with hc1
  have r1 := cart_reach E cache0
  have r2 := cart_reach E c1
  set o : DIntOpts := ⟨false, 0.1, 0⟩
  have key : ∀ c b', (cart c).discreteIntegrate E (fun _ => 0) 1 (fun _ => none) o = .ok b' →
      b'.dq = [-(c.drnea.qPrev 0) / 2] := by
    intro c b' hs
    have hr := cart_reach E c
    have hf := (cart_rail c).fd rfl hr.reach (fun _ => 0)
    have hk : (cart c).KeepD ((cart c).fd E (fun _ => 0) (fun _ => none)
      ⟨false, true, false, 0.01⟩).2 := fd_keep _ _ _
    unfold discreteIntegrate at hs
    simp only [o, discreteLoop] at hs
    obtain ⟨b1, h1, hs⟩ := Out.bind_ok hs
    obtain ⟨b2, h2, hs⟩ := Out.bind_ok hs
    cases hs
    show b2.dq = _
    rw [setDq_dq h2, (setQ_drnea h1).1]
    unfold KeepD at hk
    rw [hk]
    show [((cart c).qFun 0 + 1 * (cart c).dqFun 0 + 1 * 1 * _ - c.drnea.qPrev 0) / (2 * 1)] = _
    rw [hf]
    have e1 : (cart c).qFun 0 = 0 := rfl
    have e2 : (cart c).dqFun 0 = 0 := rfl
    rw [e1, e2]
    norm_num
  obtain ⟨b1', h1⟩ := C42_defined r1 (fun _ => 0) 1 (fun _ => none) o
  obtain ⟨b2', h2⟩ := C42_defined r2 (fun _ => 0) 1 (fun _ => none) o
  refine ⟨_, _, b1', b2', o, r1, r2, ⟨rfl, rfl, rfl, rfl, rfl, rfl, rfl, rfl⟩,
    (cart_rail cache0).definite rfl, h1, h2, ?_⟩
  rw [key _ _ h1, key _ _ h2]
  have e1 : cache0.drnea.qPrev 0 = 0 := rfl
  have e2 : c1.drnea.qPrev 0 = 1 := rfl
  rw [e1, e2]
  norm_num

/-- A step stopped after one iteration: what it leaves behind. -/
theorem stopped_step (hr : DReach E b d p) {tau : ℕ → ℝ} {dt : ℝ} {fext : FExt} {o : DIntOpts}
    (hit : o.maxIter = 1) (heps : o.epsV ≤ 0) {b' : Body}
    (hs : b.discreteIntegrate E tau dt fext o = .ok b') :
    (∀ i < b.dof, b'.pos i = b.candidate E tau dt fext o.gravity 1 i) ∧ StateOnly b b' ∧
    b'.c.drnea.qPrevValid = true ∧ b'.c.drnea.prevDone = true ∧ b'.c.drnea.dt = dt ∧
    ∀ i < b.dof,
      b'.c.drnea.TToPrev i = b.disp b.pos (b.candidate E tau dt fext o.gravity 0) i ∧
      b'.c.drnea.pPrev i = discMom E b.own dt i
        (b.disp b.pos (b.candidate E tau dt fext o.gravity 0) i) := by
  have h := hr.reach.inv
  have hso := discreteIntegrate_stateOnly h.tree hs
  have hst0 := fd_step h tau fext ⟨o.gravity, true, false, 0.01⟩
  have hk0 : b.KeepD (b.fd E tau fext ⟨o.gravity, true, false, 0.01⟩).2 := fd_keep _ _ _
  unfold KeepD at hk0
  obtain ⟨e1, e2, e3, e4⟩ := discreteID_cache h hr.dcoh hst0 (by rw [hk0]; exact hr.dcoh) rfl
    (b.candidate E tau dt fext o.gravity 0) fext o.gravity (dt := dt)
  have st := hst0.trans (discreteID_step (h.step hst0) (b.candidate E tau dt fext o.gravity 0) dt
    fext o.gravity)
  unfold discreteIntegrate at hs
  simp only [hit, discreteLoop] at hs
  rw [if_neg (not_lt.2 (heps.trans (Real.sqrt_nonneg _)))] at hs
  obtain ⟨b1, h1, hs⟩ := Out.bind_ok hs
  obtain ⟨b2, h2, hs⟩ := Out.bind_ok hs
  cases hs
  obtain ⟨q1, q2, q3, q4⟩ := setQ_drnea h1
  obtain ⟨w1, w2, w3, w4⟩ := setDq_drnea h2
  have hk := inertiaInverse_keep (b := ((b.fd E tau fext ⟨o.gravity, true, false, 0.01⟩).2.discreteID
    E (b.candidate E tau dt fext o.gravity 0) dt fext o.gravity).2)
  unfold KeepD at hk
  have hdof : (b.fd E tau fext ⟨o.gravity, true, false, 0.01⟩).2.dof = b.dof := hst0.same.dof
  refine ⟨fun i hi => ?_, hso, rfl, rfl, ?_, fun i hi => ?_⟩
  · show b2.q.getD i 0 = _
    rw [setDq_q h2, setQ_q h1, toVec_getD _ _ hi]
    have hdef : ∀ i < b.dof, ((b.fd E tau fext ⟨o.gravity, true, false, 0.01⟩).2.discreteID E
        (b.candidate E tau dt fext o.gravity 0) dt fext o.gravity).1 i - dt * tau i =
        b.defect E tau dt fext o.gravity (b.candidate E tau dt fext o.gravity 0) i :=
      fun i hi => by rw [e1 i hi]; rfl
    show _ = b.candidate E tau dt fext o.gravity 0 i - dt * E.solve b.dof b.inertiaInverse.1
      (b.defect E tau dt fext o.gravity (b.candidate E tau dt fext o.gravity 0)) i
    rw [← E.solve_congr (inertiaInverse_step_eq h st) hdef, hdof]
    rfl
  · show b2.c.drnea.dt = dt
    rw [w2, q2]
    exact (congrArg DrneaCache.dt hk).trans (e2.conf _ _ rfl).1
  · show b2.c.drnea.TFromNext i = _ ∧ b2.c.drnea.p i = _
    rw [w3, q3, w4, q4]
    have hn := e4 i hi
    exact ⟨(congrFun (congrArg DrneaCache.TFromNext hk) i).trans hn.1,
      (congrFun (congrArg DrneaCache.p hk) i).trans hn.2⟩

/-- With the first pass already done, the recorded previous position is not read. -/
theorem discreteID_done (hv : b.c.drnea.qPrevValid = true) (hp : b.c.drnea.prevDone = true)
    {dt : ℝ} (hd : b.c.drnea.dt = dt) (q : ℕ → ℝ) (x : ℕ → ℝ) (fext : FExt) :
    (b.discreteID E x dt fext false).1 = (({ b with c := { b.c with drnea :=
      { b.c.drnea with qPrev := q } } } : Body).discreteID E x dt fext false).1 := by
  have e1 : b.refreshPrev dt = b := by
    unfold refreshPrev
    rw [if_neg (by rw [hv, hd]; simp)]
  have e2 : b.refreshMomentum E dt = b := by
    unfold refreshMomentum
    rw [if_pos hp]
  set b' : Body := { b with c := { b.c with drnea := { b.c.drnea with qPrev := q } } } with hb
  have e3 : b'.refreshPrev dt = b' := by
    unfold refreshPrev
    have h1 : b'.c.drnea.qPrevValid = true := hv
    have h2 : b'.c.drnea.dt = dt := hd
    rw [if_neg (by rw [h1, h2]; simp)]
  have e4 : b'.refreshMomentum E dt = b' := by
    unfold refreshMomentum
    rw [if_pos (show b'.c.drnea.prevDone = true from hp)]
  unfold discreteID
  simp only [Bool.false_and, Bool.false_eq_true, if_false]
  rw [e1, e2, e3, e4]
  rfl

/-- Negation of C57 when the iterations run out: after a step stopped before convergence, discrete
inverse dynamics does not use the position the step started from as the previous configuration. -/
theorem C57_stopped_violated (hE : E.Transl) : ∃ (b b' : Body) (d : Bool) (p : Prev) (o : DIntOpts)
    (x : ℕ → ℝ), DReach E b d p ∧ b.Definite ∧ (∀ k, b.load k = none) ∧ 0 < o.maxIter ∧
      b.discreteIntegrate E (fun _ => 0) 1 (fun _ => none) o = .ok b' ∧
      (b'.discreteID E x 1 (fun _ => none) false).1 0 ≠
        b'.discreteSpec E b'.linkMomentum 1 b.pos x (fun _ => none) 0 := by
  have r0 := cart_reach E cache0
  have R0 := cart_rail cache0
  -- a first, converged step
  obtain ⟨b1, h1⟩ := C42_defined r0 (fun _ => 1) 1 (fun _ => none) ⟨false, 1, 2⟩
  have hc := (C42_verlet R0 hE rfl r0 (fun _ => 1) one_ne_zero (o := ⟨false, 1, 2⟩) rfl one_pos
    le_rfl).1
  obtain ⟨k, x, -, hx, -, -, hst, hso, r1⟩ := C42_step r0 hc h1
  have R1 := R0.stateOnly hso
  have hp0 : (cart cache0).pos 0 = 0 := rfl
  have hv0 : (cart cache0).vel 0 = 0 := rfl
  have hb0 : (cart cache0).before none 1 0 = 0 := by
    show (cart cache0).pos 0 - 1 * (cart cache0).vel 0 = 0
    rw [hp0, hv0]; norm_num
  have hx0 : x 0 = 1 := by
    rw [hx]
    cases k with
    | zero =>
      show (cart cache0).pos 0 + 1 * (cart cache0).vel 0 + 1 * 1 * _ = 1
      rw [R0.fd rfl r0.reach, hp0, hv0]
      norm_num
    | succ k =>
      show (cart cache0).candidate E (fun _ => 1) 1 (fun _ => none) false (k + 1) 0 = 1
      rw [R0.candidate_one hE rfl r0 _ one_ne_zero, hp0, hb0]
      norm_num
  obtain ⟨hp1, hv1⟩ := hst 0 Nat.one_pos
  rw [hx0] at hp1 hv1
  rw [hb0] at hv1
  have hl1 : ∀ k, b1.load k = none := fun k => by rw [hso.load]; rfl
  have hb1 : b1.before (some (1, (cart cache0).pos)) 1 0 = 0 := by
    rw [show b1.before (some (1, (cart cache0).pos)) 1 = (cart cache0).pos from if_pos rfl, hp0]
  -- a second step, stopped after one iteration
  set o : DIntOpts := ⟨false, 0, 1⟩ with ho
  obtain ⟨b2, h2⟩ := C42_defined r1 (fun _ => 0) 1 (fun _ => none) o
  obtain ⟨s1, s2, s3, s4, s5, s6⟩ := stopped_step r1 rfl (le_refl (0 : ℝ)) h2
  have R2 := R1.stateOnly s2
  have d1 : 0 < b1.dof := by rw [R1.dof]; exact Nat.one_pos
  have hp2 : b2.pos 0 = 2 := by
    rw [s1 0 d1]
    show b1.candidate E (fun _ => 0) 1 (fun _ => none) false (0 + 1) 0 = 2
    rw [R1.candidate_one hE (hl1 0) r1 _ one_ne_zero, hp1, hb1]
    norm_num
  have hc0 : b1.candidate E (fun _ => 0) 1 (fun _ => none) false 0 0 = 3 / 2 := by
    show b1.pos 0 + 1 * b1.vel 0 + 1 * 1 * _ = 3 / 2
    rw [R1.fd (hl1 0) r1.reach, hp1, hv1]
    norm_num
  refine ⟨b1, b2, true, _, o, fun _ => 0, r1, R1.definite (hl1 0), hl1, Nat.one_pos, h2, ?_⟩
  have r2 : Reach E b2 true := Reach.step (.discreteIntegrate (fun _ => 0) 1 (fun _ => none) o)
    r1.reach trivial (by
      unfold Op.exec
      rw [show (Op.discreteIntegrate (fun _ => 0) 1 (fun _ => none) o).step E b1 = .ok b2 from h2])
  have i3 := r2.inv.step (drnea_step r2.inv { b2.c.drnea with qPrev := fun _ => 3 / 2 })
  rw [discreteID_done s3 s4 s5 (fun _ => 3 / 2)]
  have hdc : DCoh E b2 { b2.c.drnea with qPrev := fun _ => 3 / 2 }
      (some (1, fun _ => 3 / 2)) := by
    refine ⟨s3, fun t qp e => by cases e; exact ⟨s5, fun _ _ => rfl⟩, fun _ t qp e i hi => ?_⟩
    cases e
    rw [R2.dof] at hi
    have hi0 : i = 0 := by omega
    subst hi0
    obtain ⟨t1, t2⟩ := s6 0 d1
    have ed : b1.disp b1.pos (b1.candidate E (fun _ => 0) 1 (fun _ => none) false 0) 0 =
        b2.disp (fun _ => 3 / 2) b2.pos 0 := by
      rw [R1.disp, R2.disp, hc0, hp1, hp2]
      norm_num
    have eo : b1.own = b2.own := by
      unfold own
      rw [R1.rb, R2.rb]
    refine ⟨t1.trans ed, t2.trans ?_⟩
    rw [← eo]
    exact congrArg _ ed
  rw [(discreteID_run i3 ⟨hdc.valid, hdc.conf, hdc.prev⟩ (fun _ => 0) 1 (fun _ => none) false).1 0
    (by show 0 < b2.dof; rw [R2.dof]; exact Nat.one_pos)]
  have R3 : Rail { b2 with c := { b2.c with drnea :=
    { b2.c.drnea with qPrev := fun _ => 3 / 2 } } } := ⟨R2.rbs, R2.T0, R2.g⟩
  have hl2 : ∀ k < b2.dof, b2.load k = none := fun k _ => by rw [s2.load]; exact hl1 k
  rw [R3.spec hE, ← discreteSpec_unloaded hl2, R2.spec hE, hp1]
  have eb : ({ b2 with c := { b2.c with drnea := { b2.c.drnea with qPrev := fun _ => 3 / 2 } } } :
      Body).before (some (1, fun _ => 3 / 2)) 1 = fun _ => 3 / 2 := if_pos rfl
  rw [eb]
  have ep : ({ b2 with c := { b2.c with drnea := { b2.c.drnea with qPrev := fun _ => 3 / 2 } } } :
      Body).pos 0 = 2 := hp2
  rw [ep, hp2]
  norm_num

/-- C57 (what holds): with convergence the outcome is fixed by the observable state and the previous
configuration the history determines; two bodies that agree on these move alike. -/
theorem C57_converged_partial {b2 : Body} {d2 : Bool} (h : DReach E b d p) (h2 : DReach E b2 d2 p)
    (hm : b.Massive) (ho : b.ObsEq b2) {tau : ℕ → ℝ} {dt : ℝ} {fext : FExt} {o : DIntOpts}
    (hc : b.Converges E tau dt fext o) {b' b2' : Body}
    (hs : b.discreteIntegrate E tau dt fext o = .ok b')
    (hs2 : b2.discreteIntegrate E tau dt fext o = .ok b2') : b'.q = b2'.q ∧ b'.dq = b2'.dq := by
  classical
  have i1 := h.reach.inv
  have i2 := h2.reach.inv
  have hd : b2.dof = b.dof := by unfold Body.dof; rw [ho.rbs]
  have hrb : b2.rb = b.rb := by unfold Body.rb; rw [ho.rbs]
  have hpar : b2.par = b.par := by unfold Body.par; rw [hrb]
  have hTp : b2.TpAt = b.TpAt := by unfold Body.TpAt; rw [hrb]
  have htw : b2.twAt = b.twAt := by
    unfold Body.twAt
    rw [hd, hpar, hTp, ho.T0]
  have hpos : b2.pos = b.pos := by unfold Body.pos; rw [ho.q]
  have hvel : b2.vel = b.vel := by unfold Body.vel; rw [ho.dq]
  have hf : b2.fresh = b.fresh := ho.fresh_eq
  have hbef : b2.before p dt = b.before p dt := by unfold before; rw [hpos, hvel]
  have hid : ∀ x, ∀ i < b.dof, (b2.discreteID E x dt fext o.gravity).1 i =
      (b.discreteID E x dt fext o.gravity).1 i := by
    intro x i hi
    rw [(discreteID_run i1 h.dcoh x dt fext o.gravity).1 i hi,
      (discreteID_run i2 h2.dcoh x dt fext o.gravity).1 i (hd ▸ hi), hf, hbef]
    unfold discreteSpec Body.disp own
    rw [hf, htw, hpos, hrb]
  have hdef : ∀ x, ∀ i < b.dof, b2.defect E tau dt fext o.gravity x i =
      b.defect E tau dt fext o.gravity x i := by
    intro x i hi
    unfold Body.defect
    rw [hid x i hi]
  have hinv : ∀ i < b.dof, ∀ j < b.dof, b2.inertiaInverse.1 i j = b.inertiaInverse.1 i j := by
    have a2 := (inertiaInverse_run i2).2
    rw [hf] at a2
    exact IsA.unique i1.wf a2 (inertiaInverse_run i1).2
  have hcand : ∀ k, b2.candidate E tau dt fext o.gravity k =
      b.candidate E tau dt fext o.gravity k := by
    intro k
    induction k with
    | zero =>
      funext i
      simp only [candidate]
      have s1 := hm.symI
      have s2 := hm.posMass i1.tree
      rw [fd_ans i1 s1 s2, fd_ans i2 (hf ▸ s1) (hf ▸ s2), hf, hpos, hvel, hd]
    | succ k ih =>
      funext i
      simp only [candidate]
      rw [hd, ih, E.solve_congr hinv (hdef _)]
  have hacc : ∀ x, b2.Accepts E tau dt fext o x ↔ b.Accepts E tau dt fext o x := by
    intro x
    unfold Accepts
    rw [hd, sum_congr rfl fun i hi => by rw [hdef x i (mem_range.1 hi)]]
  obtain ⟨K, hK, hA⟩ := hc
  have hex : ∃ k, b.Accepts E tau dt fext o (b.candidate E tau dt fext o.gravity k) := ⟨K, hA⟩
  have hlt := lt_of_le_of_lt (Nat.find_min' hex hA) hK
  obtain ⟨q1, v1, -⟩ := discreteIntegrate_run i1 h.dcoh hlt (fun j hj => Nat.find_min hex hj)
    (Nat.find_spec hex) hs
  obtain ⟨q2, v2, -⟩ := discreteIntegrate_run i2 h2.dcoh hlt
    (fun j hj => by rw [hcand, hacc]; exact Nat.find_min hex hj)
    (by rw [hcand, hacc]; exact Nat.find_spec hex) hs2
  rw [q1, q2, v1, v2, hcand, hd, hbef]
  exact ⟨rfl, rfl⟩

end SpatialDyn
