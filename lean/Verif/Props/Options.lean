import Verif.Spec.Options
import Verif.Props.Forward
import Verif.Props.Integrate
import Verif.Props.Discrete
import Verif.Props.Opspace
import Verif.Props.Joint
import Verif.Props.OpsAbaFlyer

/-!
# Option records and the Python keyword functions (C48, C61, C62)
-/

namespace SpatialDyn
open Finset Body

variable {E : Ext} {b : Body} {d : Bool}

theorem setQ_dof {q : List ℝ} {b1 : Body} (h : b.setQ q = .ok b1) : b1.dof = b.dof := by
  unfold setQ at h
  split at h
  · cases h
  · split at h <;> cases h <;> rfl

/-! ## C48 -/

/-- C48: integration options become forward-dynamics options: nothing shared is lost. -/
theorem C48_integration_to_forward (o : IntOpts) :
    Carried o.member (IDOpts.member o.fd) (FDOpts.make).member ∧
      ∀ k v, (IDOpts.member o.fd) k = some v → o.member k = some v := by
  constructor
  · intro k v h
    cases k <;> simp_all [IDOpts.member, IntOpts.member, IntOpts.fd]
  · intro k v h
    cases k <;> simp_all [IDOpts.member, IntOpts.member, IntOpts.fd]

/-- C48: forward-dynamics options become inverse-dynamics options: every member is kept. -/
theorem C48_forward_to_inverse (o : FDOpts) (k : OptName) :
    (FDOpts.id o).member k = IDOpts.member o k := by
  cases k <;> rfl

/-- C48: converting in one step or in two gives the same options. -/
theorem C48_commutes (o : IntOpts) : FDOpts.id o.fd = o.id := rfl

/-- C48: discrete integration options become forward-dynamics options (the initial guess of the
variational integrator): gravity is kept, the other members are the defaults. -/
theorem C48_discrete_to_forward (o : DIntOpts) :
    Carried o.member (IDOpts.member o.fd) (FDOpts.make).member := by
  intro k v h
  cases k <;> simp_all [IDOpts.member, DIntOpts.member, DIntOpts.fd, FDOpts.make]

/-- C48: discrete integration options become discrete inverse-dynamics options. -/
theorem C48_discrete_to_inverse (o : DIntOpts) :
    Carried o.member o.id.member (({} : DIDOpts)).member := by
  intro k v h
  cases k <;> simp_all [DIDOpts.member, DIntOpts.member, DIntOpts.id]

/-- C48: the forward dynamics an integration step performs and the inverse dynamics obtained with
the converted options undo each other (friction aside). -/
theorem C48_consistent (h : Reach E b d) (hm : b.Massive) (hn : DefiniteForm b.dof b.inertia.1)
    (tau : ℕ → ℝ) (fext : FExt) (o : IntOpts) (hf : o.friction = false) (i : ℕ) (hi : i < b.dof) :
    (b.inverseDynamics (b.fd E tau fext o.fd).1 fext o.id).1 i = tau i ∧
    (b.inverseDynamics (b.fd E tau fext o.fd).1 fext (FDOpts.id o.fd)).1 i = tau i := by
  have := C29_inverse_forward h hm hn tau fext o.fd o.eps hf i hi
  have e : o.id = ⟨o.fd.gravity, o.fd.cc, false, o.eps⟩ := by
    unfold IntOpts.id IntOpts.fd
    rw [hf]
  rw [C48_commutes, e]
  exact ⟨this, this⟩

/-- C48: an Euler step accelerates with forward dynamics under the caller's own gravity,
centrifugal/Coriolis, friction and stiction settings. -/
theorem C48_euler (tau : ℕ → ℝ) (dt : ℝ) (fext : FExt) (o : IntOpts) (ho : o.jointLimits = false)
    (ha : o.aba = false) (hM : o.method = .euler) {b' : Body}
    (hb : b.integrate E tau dt fext o = .ok b') (i : ℕ) (hi : i < b.dof) :
    b'.dq.getD i 0 = b.dq.getD i 0 +
      dt * (b.fd E tau fext
        { gravity := o.gravity, cc := o.cc, friction := o.friction, eps := o.eps }).1 i := by
  unfold integrate integrateWith at hb
  simp only [hM] at hb
  unfold Body.accel at hb
  simp only [ha, Bool.false_eq_true, if_false] at hb
  unfold setState at hb
  obtain ⟨b1, h1, hb⟩ := Out.bind_ok hb
  have hd : b1.dof = b.dof := (setQ_dof h1).trans (fd_same tau fext o.fd).dof
  rw [setDq_dq hb, hd, toVec_getD _ _ hi]
  simp only [ho, Bool.false_eq_true, if_false]
  rfl

/-- C48: the same with `aba`. -/
theorem C48_euler_aba (tau : ℕ → ℝ) (dt : ℝ) (fext : FExt) (o : IntOpts)
    (ho : o.jointLimits = false) (ha : o.aba = true) (hM : o.method = .euler) {b' : Body}
    (hb : b.integrate E tau dt fext o = .ok b') (i : ℕ) (hi : i < b.dof) :
    b'.dq.getD i 0 = b.dq.getD i 0 +
      dt * (b.forwardDynamicsAba tau fext
        { gravity := o.gravity, cc := o.cc, friction := o.friction, eps := o.eps }).1 i := by
  unfold integrate integrateWith at hb
  simp only [hM] at hb
  unfold Body.accel at hb
  simp only [ha, if_true] at hb
  unfold setState at hb
  obtain ⟨b1, h1, hb⟩ := Out.bind_ok hb
  have hd : b1.dof = b.dof := (setQ_dof h1).trans (forwardDynamicsAba_same tau fext o.fd).dof
  rw [setDq_dq hb, hd, toVec_getD _ _ hi]
  simp only [ho, Bool.false_eq_true, if_false]
  rfl

/-- C48: with no iterations allowed, the variational integrator returns its initial guess, which
uses forward dynamics with the caller's gravity flag, velocity products on and friction off. -/
theorem C48_discrete_guess (tau : ℕ → ℝ) (dt : ℝ) (fext : FExt) (o : DIntOpts)
    (h0 : o.maxIter = 0) {b' : Body} (hb : b.discreteIntegrate E tau dt fext o = .ok b') (i : ℕ)
    (hi : i < b.dof) :
    b'.q.getD i 0 = b.q.getD i 0 + dt * b.dq.getD i 0 +
      dt * dt * (b.fd E tau fext (FDOpts.make (gravity := o.gravity))).1 i := by
  unfold discreteIntegrate at hb
  rw [h0] at hb
  obtain ⟨b1, h1, hb⟩ := Out.bind_ok hb
  obtain ⟨b2, h2, hb⟩ := Out.bind_ok hb
  cases hb
  show b2.q.getD i 0 = _
  rw [setDq_q h2, setQ_q h1, toVec_getD _ _ hi]
  rfl

/-! ## C61 -/

/-- The documented method names. -/
def methodNames : List String := ["euler", "heuns", "rk4"]

/-- The documented name of a method. -/
def Method.label : Method → String
  | .euler => "euler"
  | .heuns => "heuns"
  | .rk4 => "rk4"

/-- C61: a documented name in any letter case selects its method: the call is the C++ `Integrate`
with every keyword in the member of its name. -/
theorem C61_accepts (b : Body) (tau : ℕ → ℝ) (dt : ℝ) (fext : FExt) (g cc fr jl : Bool)
    (s : List Char) (m : Method) (aba : Bool) (eps : ℝ) (hs : sameUpToCase s m.label.toList) :
    b.pyIntegrate E tau dt fext g cc fr jl s aba eps =
      b.integrate E tau dt fext
        { gravity := g, cc := cc, friction := fr, jointLimits := jl, method := m, aba := aba,
          eps := eps } := by
  have hp : methodParse s = some m := by
    unfold sameUpToCase at hs
    unfold methodParse
    rw [hs]
    cases m <;> decide
  unfold pyIntegrate
  rw [hp]
  rfl

/-- C61: any other text raises an exception. -/
theorem C61_rejects (b : Body) (tau : ℕ → ℝ) (dt : ℝ) (fext : FExt) (g cc fr jl : Bool)
    (s : List Char) (aba : Bool) (eps : ℝ)
    (hs : ∀ n ∈ methodNames, ¬ sameUpToCase s n.toList) :
    b.pyIntegrate E tau dt fext g cc fr jl s aba eps = .throws := by
  have hp : methodParse s = none := by
    unfold methodParse methodTable
    simp only [List.lookup_eq_none_iff, List.mem_cons, List.not_mem_nil, or_false,
      forall_eq_or_imp, forall_eq, bne_iff_ne]
    unfold sameUpToCase methodNames at hs
    simp only [List.mem_cons, List.not_mem_nil, or_false, forall_eq_or_imp, forall_eq] at hs
    exact hs
  unfold pyIntegrate
  rw [hp]

/-- C61: every keyword of the dynamics functions reaches the member of its name. -/
theorem C61_keywords (b : Body) (x : ℕ → ℝ) (fext : FExt) (g cc fr : Bool) (eps : ℝ) :
    b.pyInverseDynamics x fext (gravity := g) (centrifugal_coriolis := cc) (friction := fr)
        (stiction_epsilon := eps) =
      b.inverseDynamics x fext { gravity := g, cc := cc, friction := fr, eps := eps } ∧
    b.pyForwardDynamics E x fext (gravity := g) (centrifugal_coriolis := cc) (friction := fr)
        (stiction_epsilon := eps) =
      b.fd E x fext { gravity := g, cc := cc, friction := fr, eps := eps } ∧
    b.pyForwardDynamicsAba x fext (gravity := g) (centrifugal_coriolis := cc) (friction := fr)
        (stiction_epsilon := eps) =
      b.forwardDynamicsAba x fext { gravity := g, cc := cc, friction := fr, eps := eps } :=
  ⟨rfl, rfl, rfl⟩

/-- C61: without keywords each Python function is the C++ function with default options. -/
theorem C61_defaults (b : Body) (x : ℕ → ℝ) (dt : ℝ) :
    b.pyIntegrate E x dt = b.integrate E x dt (fun _ => none) IntOpts.make ∧
    b.pyInverseDynamics x = b.inverseDynamics x (fun _ => none) IDOpts.make ∧
    b.pyForwardDynamics E x = b.fd E x (fun _ => none) FDOpts.make ∧
    b.pyForwardDynamicsAba x = b.forwardDynamicsAba x (fun _ => none) FDOpts.make :=
  ⟨rfl, rfl, rfl, rfl⟩

example : sameUpToCase ['R', 'K', '4'] Method.rk4.label.toList ∧
    ∀ n ∈ methodNames, ¬ sameUpToCase ['r', 'k', '2'] n.toList := by
  constructor
  · unfold sameUpToCase; decide
  · unfold sameUpToCase methodNames; decide

/-! ## C62 -/

/-- C62: with default options, inverse dynamics applied to forward dynamics misses exactly the
velocity-product torques, which the first leaves out and the second takes in. -/
theorem C62_default_round_trip (h : Reach E b d) (hm : b.Massive)
    (hn : DefiniteForm b.dof b.inertia.1) (tau : ℕ → ℝ) (i : ℕ) (hi : i < b.dof) :
    (b.pyInverseDynamics (b.pyForwardDynamics E tau).1).1 i =
      tau i - b.centrifugalCoriolis.1 i := by
  unfold pyInverseDynamics pyForwardDynamics
  rw [inverseDynamics_val h.inv hm.symI (hm.posMass h.inv.tree) _ _ _ i hi,
    (centrifugalCoriolis_run h.inv).2 i hi]
  unfold Sys.addFriction IDOpts.make
  simp only [Bool.false_eq_true, if_false]
  rw [idSpec_split, fd_solves h hm hn _ _ _ i hi]
  unfold Sys.fdRhs FDOpts.make Sys.idSpec
  simp
  ring

/-- C62, partial: the defaults undo each other for a body at rest. -/
theorem C62_partial (h : Reach E b d) (hm : b.Massive) (hn : DefiniteForm b.dof b.inertia.1)
    (hr : ∀ i < b.dof, b.dq.getD i 0 = 0) (tau : ℕ → ℝ) (i : ℕ) (hi : i < b.dof) :
    (b.pyInverseDynamics (b.pyForwardDynamics E tau).1).1 i = tau i := by
  rw [C62_default_round_trip h hm hn tau i hi, (centrifugalCoriolis_run h.inv).2 i hi,
    coriolis_rest hr, sub_zero]

/-- A turntable carrying a radial slider one metre out, turning. -/
noncomputable def polar : Body where
  rbs := [{ ballRB .rz with id := 0, idParent := -1 }, { ballRB .px with id := 1, idParent := 0 }]
  q := [0, 1]
  dq := [1, 0]
  g := ⟨0, 0, -9.81⟩
  load := fun _ => none
  T0 := 1
  inertiaBase := ⟨1, 0, 0⟩
  anc := [[0], [0, 1]]
  sub := [[0, 1], [1]]
  c := (((Body.init cache0).c.expand 0).expand 1).clearQ.clearDq

theorem polar_exec (E : Ext) : execAll E (Body.init cache0)
    [.addRigidBody (ballRB .rz) (-1), .addRigidBody (ballRB .px) 0, .setQ [0, 1], .setDq [1, 0]] =
    some polar := by
  simp [execAll, Op.exec, Op.step, addRigidBody, setQ, setDq, Out.map, Out.bind, Body.init, dof,
    pushSub, polar]

theorem polar_reach (E : Ext) : ∃ d, Reach E polar d := by
  refine reach_execAll _ (Reach.init cache0) ?_ (polar_exec E)
  intro op hop
  simp only [List.mem_cons, List.not_mem_nil, or_false] at hop
  rcases hop with rfl | rfl | rfl | rfl <;> first | trivial | exact Iso.valid_one

theorem polar_definite : polar.Definite := by
  refine ⟨fun k hk => ?_, fun k hk => ?_, fun k hk v hv => ?_, fun k hk L hL => ?_, fun k hk => ?_⟩
  all_goals (have hk : k < 2 := hk)
  · have : (polar.rb k).inertia = ball := by interval_cases k <;> rfl
    rw [this]; norm_num [ball]
  · have : (polar.rb k).inertia = ball := by interval_cases k <;> rfl
    rw [this]; exact ball_phys.2.1
  · have : (polar.rb k).inertia = ball := by interval_cases k <;> rfl
    rw [this]; exact ball_pd v hv
  · cases hL
  · intro e
    have e1 := congrArg (fun m : Motion => m.lin.x) e
    have e2 := congrArg (fun m : Motion => m.ang.z) e
    interval_cases k <;>
      simp [polar, Body.rb, ballRB, mkJoint, JType.subspace] at e1 e2

theorem polar_tw0 : polar.freshTw 0 = 1 := by
  show (1 : Iso) * ((1 : Iso) * JType.rz.Tjoint 0) = 1
  rw [one_mul, one_mul]
  ext <;> simp [JType.Tjoint]

theorem polar_tw1 : polar.freshTw 1 = ⟨1, ⟨1, 0, 0⟩⟩ := by
  show ((1 : Iso) * ((1 : Iso) * JType.rz.Tjoint 0)) * ((1 : Iso) * JType.px.Tjoint 1) = _
  rw [one_mul, one_mul, one_mul]
  ext <;> simp [JType.Tjoint, Mat3.mulVec]

theorem polar_coriolis : polar.fresh.coriolisSpec 1 = -1 := by
  have a01 : Anc polar.fresh.par 0 1 := .step (p := 0) rfl .refl
  have a10 : ¬ Anc polar.fresh.par 1 0 := by
    intro h
    cases h with
    | step h1 _ => cases h1
  have t0 : polar.fresh.Tw 0 = 1 := (fresh_Tw (by decide)).trans polar_tw0
  have t1 : polar.fresh.Tw 1 = ⟨1, ⟨1, 0, 0⟩⟩ := (fresh_Tw (by decide)).trans polar_tw1
  have s0 : polar.fresh.S 0 = ⟨0, ⟨0, 0, 1⟩⟩ := rfl
  have s1 : polar.fresh.S 1 = ⟨⟨1, 0, 0⟩, 0⟩ := rfl
  have x0 : polar.fresh.axis 0 = ⟨0, ⟨0, 0, 1⟩⟩ := by
    unfold Sys.axis
    rw [t0, s0]
    ext <;> simp [Iso.actM, Mat3.mulVec, Vec3.cross]
  have x1 : polar.fresh.axis 1 = ⟨⟨1, 0, 0⟩, 0⟩ := by
    unfold Sys.axis
    rw [t1, s1]
    ext <;> simp [Iso.actM, Mat3.mulVec, Vec3.cross]
  have j00 : polar.fresh.Jw 0 0 = ⟨0, ⟨0, 0, 1⟩⟩ := by unfold Sys.Jw; rw [if_pos .refl, x0]
  have j10 : polar.fresh.Jw 1 0 = ⟨0, ⟨0, 0, 1⟩⟩ := by unfold Sys.Jw; rw [if_pos a01, x0]
  have j01 : polar.fresh.Jw 0 1 = 0 := by unfold Sys.Jw; rw [if_neg a10]
  have j11 : polar.fresh.Jw 1 1 = ⟨⟨1, 0, 0⟩, 0⟩ := by unfold Sys.Jw; rw [if_pos .refl, x1]
  have n2 : polar.fresh.n = 2 := rfl
  have q0 : polar.fresh.dq 0 = 1 := rfl
  have q1 : polar.fresh.dq 1 = 0 := rfl
  have v0 : polar.fresh.V polar.fresh.dq 0 = ⟨0, ⟨0, 0, 1⟩⟩ := by
    unfold Sys.V
    rw [n2, sum_range_succ, sum_range_one, q0, q1, j00, j01]
    ext <;> simp
  have v1 : polar.fresh.V polar.fresh.dq 1 = ⟨0, ⟨0, 0, 1⟩⟩ := by
    unfold Sys.V
    rw [n2, sum_range_succ, sum_range_one, q0, q1, j10, j11]
    ext <;> simp
  have b1 : polar.fresh.bias 1 = 0 := by
    unfold Sys.bias
    rw [n2, sum_range_succ, sum_range_one, q0, q1, j10, j11, v0, v1]
    ext <;> simp [Motion.crossM, Vec3.cross]
  have i1 : polar.fresh.Itot 1 = ball := rfl
  unfold Sys.coriolisSpec Sys.genForce
  rw [n2, sum_range_succ, sum_range_one]
  beta_reduce
  rw [j01, j11, b1, v1]
  unfold Sys.Iw
  rw [t1, i1]
  simp [Iso.actF, Iso.actM, Iso.inv, Motion.dot, Mat3.mulVec, Mat3.T, Vec3.dot, Inertia.app, ball,
    Vec3.cross, Motion.crossF]

/-- C62 is violated: on a moving body the two functions with their default options do not undo each
other. -/
theorem C62_violated (E : Ext) : ∃ (b : Body) (d : Bool), Reach E b d ∧ b.Definite ∧
    ∀ tau : ℕ → ℝ, (b.pyInverseDynamics (b.pyForwardDynamics E tau).1).1 1 ≠ tau 1 := by
  obtain ⟨d, h⟩ := polar_reach E
  refine ⟨polar, d, h, polar_definite, fun tau => ?_⟩
  have hi : 1 < polar.dof := by decide
  rw [C62_default_round_trip h (polar_definite.massive h.inv.tree) (polar_definite.form h)
    tau 1 hi, (centrifugalCoriolis_run h.inv).2 1 hi, polar_coriolis]
  intro e
  linarith

/-- The hypotheses of C48 and C62 hold for that body. -/
example (E : Ext) : ∃ d, Reach E polar d ∧ polar.Massive ∧ DefiniteForm polar.dof polar.inertia.1 ∧
    polar.dof = 2 := by
  obtain ⟨d, h⟩ := polar_reach E
  exact ⟨d, h, polar_definite.massive h.inv.tree, polar_definite.form h, rfl⟩

/-- Euler's method and the variational integrator succeed on it. -/
example (E : Ext) : (∃ b', polar.integrate E (fun _ => 0) 0.1 (fun _ => none)
      (IntOpts.make (method := .euler)) = .ok b') ∧
    (∃ b', polar.integrate E (fun _ => 0) 0.1 (fun _ => none)
      (IntOpts.make (method := .euler) (aba := true)) = .ok b') := by
  obtain ⟨d, h⟩ := polar_reach E
  have hm := polar_definite.massive h.inv.tree
  have hc : cache0.Clear := by constructor <;> rfl
  obtain ⟨b1, h1, -⟩ := C33_scheme h hm hc (fun _ => 0) 0.1 (fun _ => none)
    (IntOpts.make (method := .euler)) rfl
  obtain ⟨b2, h2, -⟩ := C33_scheme h hm hc (fun _ => 0) 0.1 (fun _ => none)
    (IntOpts.make (method := .euler) (aba := true)) rfl
  exact ⟨⟨b1, h1⟩, ⟨b2, h2⟩⟩

end SpatialDyn
