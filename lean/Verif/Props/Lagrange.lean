import Verif.Props.Energy
import Verif.Props.Forward
import Verif.Lemmas.Lagrange

/-!
# C73 – C75: Lagrange's equations, momentum of root joints, Christoffel symbols
-/

namespace SpatialDyn
open Body Finset

variable {E : Ext} {b : Body} {d : Bool}

/-- The body after `set_q` and `set_dq`. -/
theorem Reach.after_set (h : Reach E b d) {q dq : List ℝ} {B : Body}
    (hB : ∃ b1, b.setQ q = .ok b1 ∧ b1.setDq dq = .ok B) :
    StateOnly b B ∧ B.dof = b.dof ∧ (B.fresh = b.sysAt (fun i => q.getD i 0) fun i => dq.getD i 0) ∧
      B.pos = (fun i => q.getD i 0) ∧ B.vel = (fun i => dq.getD i 0) ∧ ∃ d', Reach E B d' := by
  obtain ⟨b1, h1, h2⟩ := hB
  have r1 : Reach E b1 _ := h.step (b' := b1) (.setQ q) trivial (by simp [Op.exec, Op.step, h1])
  have r2 : Reach E B _ := r1.step (b' := B) (.setDq dq) trivial
    (by simp [Op.exec, Op.step, h2])
  have hs := (setQ_stateOnly h.inv.tree.lq h1).trans (setDq_stateOnly r1.inv.tree.ldq h2)
  have hp : B.pos = fun i => q.getD i 0 := by
    unfold Body.pos; rw [(setDq_vel h2).2, (setQ_pos h1).1]
  have hv : B.vel = fun i => dq.getD i 0 := by
    unfold Body.vel; rw [(setDq_vel h2).1]
  refine ⟨hs, by unfold Body.dof; rw [hs.rbs], ?_, hp, hv, _, r2⟩
  rw [hs.fresh, hp, hv]

theorem Reach.after_setQ (h : Reach E b d) {q : List ℝ} {B : Body} (hB : b.setQ q = .ok B) :
    StateOnly b B ∧ B.dof = b.dof ∧ (B.fresh = b.sysAt (fun i => q.getD i 0) b.vel) ∧
      ∃ d', Reach E B d' := by
  have r1 : Reach E B _ := h.step (b' := B) (.setQ q) trivial (by simp [Op.exec, Op.step, hB])
  have hs := setQ_stateOnly h.inv.tree.lq hB
  have hp : B.pos = fun i => q.getD i 0 := by
    unfold Body.pos; rw [(setQ_pos hB).1]
  have hv : B.vel = b.vel := by
    unfold Body.vel; rw [(setQ_pos hB).2]
  refine ⟨hs, by unfold Body.dof; rw [hs.rbs], ?_, _, r1⟩
  rw [hs.fresh, hp, hv]

theorem Reach.inertia_val (h : Reach E b d) (hm : b.Massive) {i j : ℕ} (hi : i < b.dof)
    (hj : j < b.dof) : b.inertia.1 i j = b.fresh.massSpec i j :=
  (inertia_run h.inv).2.1.mass h.inv.wf hm.symI (hm.posMass h.inv.tree) i j hi hj

theorem getD_set_update (q : List ℝ) {i : ℕ} (hi : i < q.length) (s : ℝ) :
    (fun j => (q.set i s).getD j 0) = Function.update (fun j => q.getD j 0) i s := by
  funext j
  by_cases hij : j = i
  · subst hij
    simp [List.getD_eq_getElem?_getD, List.getElem?_set, hi]
  · rw [Function.update_of_ne hij]
    simp [List.getD_eq_getElem?_getD, List.getElem?_set, Ne.symm hij]

theorem setQ_length {b b' : Body} {q : List ℝ} (hq : b.setQ q = .ok b') : q.length = b.dof := by
  unfold Body.setQ at hq
  split at hq
  · cases hq
  · next h => exact not_not.1 h

/-- The torques of `InverseDynamics` as generalised forces, one joint at a time. -/
theorem inverseDynamics_parts (h : Reach E b d) (hm : b.Massive) (ddq : ℕ → ℝ) (fext : FExt)
    (o : IDOpts) (hg : o.gravity = true) (hcc : o.cc = true) (hf : o.friction = false) {i : ℕ}
    (hi : i < b.dof) {x : ℕ → Motion} {T : ℕ → Iso}
    (hx : ∀ k < b.dof, b.LinkVel (fun j => if j = i then 1 else 0) k (x k))
    (hT : ∀ k < b.dof, (b.tToWorld k).map Prod.fst = .ok (T k)) :
    (b.inverseDynamics ddq fext o).1 i = (∑ j ∈ range b.dof, b.fresh.massSpec i j * ddq j) +
      b.fresh.coriolisSpec i + b.fresh.gravitySpec i -
      ∑ k ∈ range b.dof, ((T k).actM (x k)).dot ((fext k).getD 0) := by
  rw [inverseDynamics_val h.inv hm.symI (hm.posMass h.inv.tree) ddq fext o i hi]
  unfold Sys.addFriction
  rw [hf, if_neg Bool.false_ne_true]
  unfold Sys.idSpec Sys.extSpec
  rw [hcc, hg, if_pos rfl, if_pos rfl, sub_eq_add_neg]
  congr 2
  refine sum_congr rfl fun k hk => ?_
  have hk : k < b.dof := mem_range.1 hk
  have hTk : T k = b.freshTw k := by
    have := hT k hk
    unfold Body.tToWorld at this
    rw [index_ofNat hk] at this
    have := Out.ok.inj this
    rw [← this, h.inv.viewTw k hk]
  have hV : b.fresh.V (fun j => if j = i then 1 else 0) k = b.fresh.Jw k i := by
    unfold Sys.V
    rw [Finset.sum_eq_single i]
    · ext <;> simp
    · intro j _ hij; ext <;> simp [hij]
    · intro hn; exact absurd (mem_range.2 hi) hn
  rw [hTk, (hx k hk).world h.inv hk, hV]

/-- C73, Lagrange's equations: along a trajectory of the state, the rate of change of the momentum
of joint `i` (row `i` of `Inertia` times the joint rates), minus the partial derivative of kinetic
minus potential energy with respect to the position of the joint, is the torque of
`InverseDynamics` plus the generalised external force.  `B t` is the body at time `t`; `C s` is the
body at `t0` with joint `i` moved to `s`; `P s k x` is where `C s` has the point `x` of link `k`. -/
theorem C73_lagrange (h : Reach E b d) (ha : b.AxesOK) (hm : b.Massive)
    {q dq : ℝ → List ℝ} {B : ℝ → Body}
    (hB : ∀ t, ∃ b1, b.setQ (q t) = .ok b1 ∧ b1.setDq (dq t) = .ok (B t)) {t0 : ℝ} {ddq : ℕ → ℝ}
    (hq : ∀ i < b.dof, HasDerivAt (fun t => (q t).getD i 0) ((dq t0).getD i 0) t0)
    (hdq : ∀ i < b.dof, HasDerivAt (fun t => (dq t).getD i 0) (ddq i) t0) {i : ℕ} (hi : i < b.dof)
    {C : ℝ → Body} (hC : ∀ s, (B t0).setQ ((q t0).set i s) = .ok (C s)) {P : ℝ → ℕ → Vec3 → Vec3}
    (hP : ∀ s, ∀ k < b.dof, ∀ x, ((C s).position k x).map Prod.fst = .ok (P s k x))
    (fext : FExt) (o : IDOpts) (hg : o.gravity = true) (hcc : o.cc = true)
    (hf : o.friction = false) {x : ℕ → Motion} {T : ℕ → Iso}
    (hx : ∀ k < b.dof, (B t0).LinkVel (fun j => if j = i then 1 else 0) k (x k))
    (hT : ∀ k < b.dof, ((B t0).tToWorld k).map Prod.fst = .ok (T k)) :
    ∃ p' L' : ℝ,
      HasDerivAt (fun t => ∑ j ∈ range b.dof, (B t).inertia.1 i j * (dq t).getD j 0) p' t0 ∧
      HasDerivAt (fun s => 1 / 2 * ∑ j ∈ range b.dof, ∑ k ∈ range b.dof,
          (dq t0).getD j 0 * (C s).inertia.1 j k * (dq t0).getD k 0 - b.potential (P s))
        L' ((q t0).getD i 0) ∧
      p' - L' = ((B t0).inverseDynamics ddq fext o).1 i +
        ∑ k ∈ range b.dof, ((T k).actM (x k)).dot ((fext k).getD 0) := by
  have hst : ∀ t, _ := fun t => h.after_set (hB t)
  obtain ⟨hs0, hd0, hf0, hp0, hv0, d0, r0⟩ := hst t0
  have hsym : ∀ u w, (b.sysAt u w).SymI := fun u w => hm.symI
  have hm0 : (B t0).Massive := hs0.massive hm
  have hlen : (q t0).length = b.dof := by obtain ⟨b1, h1, -⟩ := hB t0; exact setQ_length h1
  have hax0 : (B t0).AxesOK := by
    intro i hi
    have := ha i (by rwa [hd0] at hi)
    unfold Body.rb at this ⊢
    rw [hs0.rbs]; exact this
  -- momentum
  have hmom : ∀ t, ∑ j ∈ range b.dof, (B t).inertia.1 i j * (dq t).getD j 0 =
      ∑ j ∈ range b.dof, (b.sysAt (fun i => (q t).getD i 0) fun i => (dq t).getD i 0).massSpec i j *
        (dq t).getD j 0 := by
    intro t
    obtain ⟨hs, hd, hf, -, -, d', r⟩ := hst t
    refine sum_congr rfl fun j hj => ?_
    rw [r.inertia_val (hs.massive hm) (by rw [hd]; exact hi) (by rw [hd]; exact mem_range.1 hj), hf]
  have hmd := momentum_deriv h.inv.tree h.inv.rigid ha (u := fun t i => (q t).getD i 0)
    (w := fun t i => (dq t).getD i 0) hq hdq hi
  -- kinetic energy
  have hCs : ∀ s, _ := fun s => r0.after_setQ (hC s)
  have hCf : ∀ s, (C s).fresh = b.sysAt (Function.update (fun j => (q t0).getD j 0) i s)
      fun j => (dq t0).getD j 0 := by
    intro s
    obtain ⟨hs, hd, hf, d', r⟩ := hCs s
    rw [(hs0.trans hs).fresh]
    have e1 : (C s).pos = fun j => ((q t0).set i s).getD j 0 := by
      unfold Body.pos; rw [(setQ_pos (hC s)).1]
    have e2 : (C s).vel = (B t0).vel := by
      unfold Body.vel; rw [(setQ_pos (hC s)).2]
    rw [e1, e2, hv0, getD_set_update _ (by rw [hlen]; exact hi)]
  have hK : ∀ s, ∑ j ∈ range b.dof, ∑ k ∈ range b.dof,
      (dq t0).getD j 0 * (C s).inertia.1 j k * (dq t0).getD k 0 =
      (b.sysAt (Function.update (fun j => (q t0).getD j 0) i s)
        fun j => (dq t0).getD j 0).energy2 fun j => (dq t0).getD j 0 := by
    intro s
    obtain ⟨hs, hd, -, d', r⟩ := hCs s
    have hd' : (C s).dof = b.dof := hd.trans hd0
    rw [Sys.energy2_eq]
    refine sum_congr rfl fun j hj => ?_
    rw [mul_sum]
    refine sum_congr rfl fun k hk => ?_
    rw [r.inertia_val (hs.massive hm0) (by rw [hd']; exact mem_range.1 hj)
      (by rw [hd']; exact mem_range.1 hk), hCf s]
    ring
  have hkd := (kinetic_partial h.inv.tree h.inv.rigid ha hsym (fun j => (q t0).getD j 0)
    (fun j => (dq t0).getD j 0) hi).const_mul (1 / 2)
  -- potential energy
  have hpot : (fun s => b.potential (P s)) = fun s => (B t0).potential fun k x =>
      ((B t0).twAt (Function.update (B t0).pos i s) k).app x := by
    funext s
    obtain ⟨hs, hd, hf, d', r⟩ := hCs s
    have hd' : (C s).dof = b.dof := hd.trans hd0
    unfold Body.potential
    rw [hd0]
    congr 1
    refine sum_congr rfl fun k hk => ?_
    have hk := mem_range.1 hk
    have hp : (B t0).parts k = b.parts k := by
      unfold Body.parts Body.rb; rw [hs0.rbs, hs0.load]
    rw [hp, hs0.g]
    congr 1
    refine List.map_congr_left fun I _ => ?_
    have h1 := hP s k hk I.com
    unfold Body.position at h1
    rw [index_ofNat (show k < (C s).dof by rw [hd']; exact hk)] at h1
    have h2 := Out.ok.inj h1
    have h3 := r.inv.viewTw k (by rw [hd']; exact hk)
    have h4 : (C s).freshTw k = (B t0).twAt (Function.update (B t0).pos i s) k := by
      show (C s).twAt (C s).pos k = _
      have e1 : (C s).pos = Function.update (B t0).pos i s := by
        unfold Body.pos
        rw [(setQ_pos (hC s)).1]
        rw [getD_set_update _ (by rw [hlen]; exact hi)]
        congr 1
        exact hp0.symm
      rw [e1]
      unfold Body.twAt Body.par Body.TpAt Body.rb
      rw [hd, hs.rbs, hs.T0]
    rw [← h2, h3, h4]
  have hPd := potential_deriv r0 hax0 hm0 (u := fun s => Function.update (B t0).pos i s)
    (w := fun j => if j = i then 1 else 0) (s := (B t0).pos i) (Function.update_eq_self _ _)
    (fun j _ => by
      by_cases hij : j = i
      · subst hij
        simpa using hasDerivAt_id' ((B t0).pos j)
      · simpa [Function.update_of_ne hij, hij] using hasDerivAt_const ((B t0).pos i) ((B t0).pos j))
  rw [← hpot] at hPd
  have hgr : ∑ k ∈ range (B t0).dof, ((B t0).fresh.V (fun j => if j = i then 1 else 0) k).dot
      ((B t0).fresh.Iw k (-(B t0).fresh.g)) = (B t0).fresh.gravitySpec i := by
    have := Sys.genForce_power (σ := (B t0).fresh) (fun j => if j = i then 1 else 0)
      fun k => (B t0).fresh.Iw k (-(B t0).fresh.g)
    refine this.symm.trans ?_
    rw [Finset.sum_eq_single i]
    · simp; rfl
    · intro j _ hij; simp [hij]
    · intro hn; exact absurd (mem_range.2 (show i < (B t0).dof by rw [hd0]; exact hi)) hn
  rw [hgr] at hPd
  have hp0i : (B t0).pos i = (q t0).getD i 0 := by rw [hp0]
  rw [hp0i] at hPd
  refine ⟨_, _, hmd.congr_of_eventuallyEq (.of_forall hmom),
    (hkd.sub hPd).congr_of_eventuallyEq (.of_forall fun s => by
      show (_ : ℝ) - _ = _ - _
      rw [hK s]), ?_⟩
  rw [inverseDynamics_parts r0 hm0 ddq fext o hg hcc hf (by rw [hd0]; exact hi)
    (by rw [hd0]; exact hx) (by rw [hd0]; exact hT), hd0, hf0]
  ring

/-! ## C74 -/

/-- The axis of a root joint does not move. -/
theorem axisTerm_root {σ : Sys} (hw : σ.WF) {i : ℕ} (hi : i < σ.n) (hr : σ.par i = none)
    (w : ℕ → ℝ) : axisTerm σ w i = 0 := by
  classical
  refine sum_eq_zero fun k _ => ?_
  have e : σ.V w i = w i • σ.axis i := by
    rw [Sys.V_rec hw w hi, hr]
    simp
  rw [e, Motion.smul_crossM]
  unfold Sys.Jw
  split <;> simp

/-- C74: along a motion under `ForwardDynamics`, the momentum of a joint that hangs off the base
changes at the rate of its torque, less the gravity torque, plus the generalised external force. -/
theorem C74_root_momentum (h : Reach E b d) (ha : b.AxesOK) (hm : b.Massive)
    {q dq : ℝ → List ℝ} {B : ℝ → Body}
    (hB : ∀ t, ∃ b1, b.setQ (q t) = .ok b1 ∧ b1.setDq (dq t) = .ok (B t)) {t0 : ℝ} (tau : ℕ → ℝ)
    (fext : FExt) (o : FDOpts) (hg : o.gravity = true) (hcc : o.cc = true)
    (hf : o.friction = false) (hn : DefiniteForm b.dof (B t0).inertia.1)
    (hq : ∀ i < b.dof, HasDerivAt (fun t => (q t).getD i 0) ((dq t0).getD i 0) t0)
    (hdq : ∀ i < b.dof, HasDerivAt (fun t => (dq t).getD i 0) (((B t0).fd E tau fext o).1 i) t0)
    {i : ℕ} (hi : i < b.dof) (hroot : (b.rb i).idParent < 0) {x : ℕ → Motion} {T : ℕ → Iso}
    (hx : ∀ k < b.dof, (B t0).LinkVel (fun j => if j = i then 1 else 0) k (x k))
    (hT : ∀ k < b.dof, ((B t0).tToWorld k).map Prod.fst = .ok (T k)) :
    HasDerivAt (fun t => ∑ j ∈ range b.dof, (B t).inertia.1 i j * (dq t).getD j 0)
      (tau i - (B t0).gravity.1 i + ∑ k ∈ range b.dof, ((T k).actM (x k)).dot ((fext k).getD 0))
      t0 := by
  obtain ⟨hs0, hd0, hf0, hp0, hv0, d0, r0⟩ := h.after_set (hB t0)
  have hm0 : (B t0).Massive := hs0.massive hm
  have hmom : ∀ t, ∑ j ∈ range b.dof, (B t).inertia.1 i j * (dq t).getD j 0 =
      ∑ j ∈ range b.dof, (b.sysAt (fun i => (q t).getD i 0) fun i => (dq t).getD i 0).massSpec i j *
        (dq t).getD j 0 := by
    intro t
    obtain ⟨hs, hd, hf, -, -, d', r⟩ := h.after_set (hB t)
    refine sum_congr rfl fun j hj => ?_
    rw [r.inertia_val (hs.massive hm) (by rw [hd]; exact hi) (by rw [hd]; exact mem_range.1 hj), hf]
  have hmd := momentum_deriv h.inv.tree h.inv.rigid ha (u := fun t i => (q t).getD i 0)
    (w := fun t i => (dq t).getD i 0) hq hdq hi
  refine (hmd.congr_of_eventuallyEq (.of_forall hmom)).congr_deriv ?_
  have h1 := C29_inverse_forward r0 hm0 (by rw [hd0]; exact hn) tau fext o 0 hf i
    (by rw [hd0]; exact hi)
  rw [inverseDynamics_parts r0 hm0 _ fext ⟨o.gravity, o.cc, false, 0⟩ hg hcc rfl
    (by rw [hd0]; exact hi) (by rw [hd0]; exact hx) (by rw [hd0]; exact hT), hd0, hf0] at h1
  have h2 : (B t0).gravity.1 i = (B t0).fresh.gravitySpec i :=
    (gravity_run r0.inv).2 i (by rw [hd0]; exact hi)
  rw [h2, hf0, axisTerm_root (sysAt_wf h.inv.tree h.inv.rigid _ _) hi (par_none.2 hroot)]
  linarith

/-- C74, conservation: when the torque of a joint that hangs off the base always balances gravity
and there are no external forces, its momentum is the same at all times. -/
theorem C74_conserved (h : Reach E b d) (ha : b.AxesOK) (hm : b.Massive)
    {q dq : ℝ → List ℝ} {B : ℝ → Body}
    (hB : ∀ t, ∃ b1, b.setQ (q t) = .ok b1 ∧ b1.setDq (dq t) = .ok (B t)) (tau : ℝ → ℕ → ℝ)
    (o : FDOpts) (hg : o.gravity = true) (hcc : o.cc = true)
    (hf : o.friction = false) (hn : ∀ t, DefiniteForm b.dof (B t).inertia.1)
    (hq : ∀ t, ∀ i < b.dof, HasDerivAt (fun t => (q t).getD i 0) ((dq t).getD i 0) t)
    (hdq : ∀ t, ∀ i < b.dof,
      HasDerivAt (fun t => (dq t).getD i 0) (((B t).fd E (tau t) (fun _ => none) o).1 i) t)
    {i : ℕ} (hi : i < b.dof) (hroot : (b.rb i).idParent < 0)
    (hτ : ∀ t, tau t i = (B t).gravity.1 i) (t1 t2 : ℝ) :
    ∑ j ∈ range b.dof, (B t1).inertia.1 i j * (dq t1).getD j 0 =
      ∑ j ∈ range b.dof, (B t2).inertia.1 i j * (dq t2).getD j 0 := by
  have key : ∀ t, HasDerivAt (fun t => ∑ j ∈ range b.dof, (B t).inertia.1 i j * (dq t).getD j 0)
      0 t := by
    intro t
    obtain ⟨hs0, hd0, hf0, hp0, hv0, d0, r0⟩ := h.after_set (hB t)
    choose! x hx using fun (k : ℕ) (hk : k < b.dof) => linkVel_exists r0.inv.tree
      (fun j => if j = i then 1 else 0) k (show k < (B t).dof by rw [hd0]; exact hk)
    have hT : ∀ k < b.dof, ((B t).tToWorld k).map Prod.fst =
        .ok ((fun k => (B t).freshTw k) k) := by
      intro k hk
      have hk' : k < (B t).dof := by rw [hd0]; exact hk
      unfold Body.tToWorld
      rw [index_ofNat hk']
      show Out.ok _ = _
      rw [r0.inv.viewTw k hk']
    refine (C74_root_momentum h ha hm hB (tau t) (fun _ => none) o hg hcc hf (hn t) (hq t) (hdq t) hi hroot
      hx hT).congr_deriv ?_
    rw [hτ t]
    simp
  exact is_const_of_deriv_eq_zero (fun t => (key t).differentiableAt) (fun t => (key t).deriv) t1 t2

/-! ## C75 -/

/-- C75: the torques of `CentrifugalCoriolis` are the Christoffel form of `Inertia`: with `D k i j`
the derivative of entry `(i, j)` of `Inertia` with respect to the position of joint `k`,
`Σⱼₖ (D k i j - D i j k / 2) q̇ⱼ q̇ₖ`.  `C k s` is the body with joint `k` moved to `s`. -/
theorem C75_christoffel (h : Reach E b d) (ha : b.AxesOK) (hm : b.Massive)
    {C : ℕ → ℝ → Body} (hC : ∀ k < b.dof, ∀ s, b.setQ (b.q.set k s) = .ok (C k s)) :
    ∃ D : ℕ → ℕ → ℕ → ℝ,
      (∀ k < b.dof, ∀ i < b.dof, ∀ j < b.dof,
        HasDerivAt (fun s => (C k s).inertia.1 i j) (D k i j) (b.q.getD k 0)) ∧
      ∀ i < b.dof, b.centrifugalCoriolis.1 i = ∑ j ∈ range b.dof, ∑ k ∈ range b.dof,
        (D k i j - D i j k / 2) * b.dq.getD j 0 * b.dq.getD k 0 := by
  classical
  have ht := h.inv.tree
  have hr := h.inv.rigid
  set σ := b.fresh with hσ
  -- directional derivative of the mass matrix
  let G : (ℕ → ℝ) → ℕ → ℕ → ℝ := fun w i j =>
    ∑ k ∈ range b.dof, ((((σ.V w i).crossM (σ.Jw k i) - (σ.V w k).crossM (σ.Jw k i)).dot
      (σ.Iw k (σ.Jw k j))) + (σ.Jw k i).dot (σ.Iw k
        ((σ.V w j).crossM (σ.Jw k j) - (σ.V w k).crossM (σ.Jw k j))))
  have hG : ∀ (u : ℝ → ℕ → ℝ) (w : ℕ → ℝ) (s : ℝ), u s = b.pos →
      (∀ i < b.dof, HasDerivAt (fun s => u s i) (w i) s) → ∀ i < b.dof, ∀ j < b.dof,
      HasDerivAt (fun s => (b.sysAt (u s) b.vel).massSpec i j) (G w i j) s := by
    intro u w s hus hu i hi j hj
    have := mass_deriv ht hr ha hu (fun _ => b.vel) hi hj
    simp only [hus] at this
    exact this
  have hVe : ∀ k < b.dof, ∀ m, σ.V (fun j => if j = k then 1 else 0) m = σ.Jw m k := by
    intro k hk m
    unfold Sys.V
    rw [Finset.sum_eq_single k]
    · ext <;> simp
    · intro j _ hij; ext <;> simp [hij]
    · intro hn; exact absurd (mem_range.2 hk) hn
  have hVs : ∀ (w : ℕ → ℝ) m n, (σ.V w m).crossM n =
      ∑ k ∈ range b.dof, w k • (σ.Jw m k).crossM n := by
    intro w m n
    unfold Sys.V
    rw [Motion.sum_crossM]
    exact sum_congr rfl fun k _ => Motion.smul_crossM _ _ _
  have hlin : ∀ w i j, G w i j = ∑ k ∈ range b.dof, w k * G (fun j => if j = k then 1 else 0) i j := by
    intro w i j
    have e : ∀ k ∈ range b.dof, w k * G (fun j => if j = k then 1 else 0) i j =
        ∑ l ∈ range b.dof, w k * ((((σ.Jw i k).crossM (σ.Jw l i) - (σ.Jw l k).crossM (σ.Jw l i)).dot
          (σ.Iw l (σ.Jw l j))) + (σ.Jw l i).dot (σ.Iw l
          ((σ.Jw j k).crossM (σ.Jw l j) - (σ.Jw l k).crossM (σ.Jw l j)))) := by
      intro k hk
      simp only [G]
      rw [mul_sum]
      exact sum_congr rfl fun l _ => by simp only [hVe k (mem_range.1 hk)]
    rw [sum_congr rfl e, sum_comm]
    refine sum_congr rfl fun l _ => ?_
    rw [hVs, hVs, hVs, hVs, ← sum_sub_distrib, ← sum_sub_distrib, Motion.sum_dot, Sys.Iw_sum,
      Motion.dot_sum, ← sum_add_distrib]
    refine sum_congr rfl fun k _ => ?_
    rw [← smul_sub, ← smul_sub, Motion.smul_dot, Sys.Iw_smul, Motion.dot_smul]
    ring
  have hup : ∀ k, ∀ i < b.dof, HasDerivAt (fun s => Function.update b.pos k s i)
      (if i = k then 1 else 0) (b.pos k) := fun k i _ => by
    by_cases hij : i = k
    · subst hij
      simpa using hasDerivAt_id' (b.pos i)
    · simpa [Function.update_of_ne hij, hij] using hasDerivAt_const (b.pos k) (b.pos i)
  have hsym : ∀ u w, (b.sysAt u w).SymI := fun u w => hm.symI
  refine ⟨fun k i j => G (fun j => if j = k then 1 else 0) i j, fun k hk i hi j hj => ?_,
    fun i hi => ?_⟩
  · have h1 := hG (fun s => Function.update b.pos k s) _ (b.pos k) (Function.update_eq_self _ _)
      (hup k) i hi j hj
    refine HasDerivAt.congr_of_eventuallyEq h1 (.of_forall fun s => ?_)
    obtain ⟨hs, hd, hf, d', r⟩ := h.after_setQ (hC k hk s)
    show (C k s).inertia.1 i j = _
    rw [r.inertia_val (hs.massive hm) (by rw [hd]; exact hi) (by rw [hd]; exact hj), hf,
      getD_set_update _ (by rw [ht.lq]; exact hk)]
    rfl
  · rw [(centrifugalCoriolis_run h.inv).2 i hi]
    -- momentum along a straight line
    have hu : ∀ j < b.dof, HasDerivAt (fun s : ℝ => b.pos j + s * b.vel j) (b.vel j) 0 :=
      fun j _ => by
        have := ((hasDerivAt_id' (0 : ℝ)).mul_const (b.vel j)).const_add (b.pos j)
        simpa using this
    have hu0 : (fun j => b.pos j + 0 * b.vel j) = b.pos := by funext j; simp
    have m1 := momentum_deriv ht hr ha (u := fun s j => b.pos j + s * b.vel j)
      (w := fun _ => b.vel) (a := fun _ => 0) (s := 0) hu
      (fun j _ => hasDerivAt_const _ _) hi
    have m2 := HasDerivAt.fun_sum (u := range b.dof) fun j hj =>
      (hG (fun s j => b.pos j + s * b.vel j) b.vel 0 hu0 hu i hi j (mem_range.1 hj)).mul_const
        (b.vel j)
    have e1 := m1.unique m2
    simp only [hu0, mul_zero, sum_const_zero, zero_add] at e1
    -- partial derivative of the kinetic energy
    have k1 := kinetic_partial ht hr ha hsym b.pos b.vel hi
    have k2 := HasDerivAt.fun_sum (u := range b.dof) fun j hj =>
      (HasDerivAt.fun_sum (u := range b.dof) fun k hk =>
        (hG (fun s => Function.update b.pos i s) _ (b.pos i) (Function.update_eq_self _ _)
          (hup i) j (mem_range.1 hj) k (mem_range.1 hk)).mul_const (b.vel k)).const_mul (b.vel j)
    have e2 := k1.unique (k2.congr_of_eventuallyEq (.of_forall fun s => Sys.energy2_eq b.vel))
    have e1' : b.fresh.coriolisSpec i + axisTerm b.fresh b.vel i =
      ∑ j ∈ range b.dof, G b.vel i j * b.vel j := e1
    have e2' : 2 * axisTerm b.fresh b.vel i = _ := e2
    have e3 : b.fresh.coriolisSpec i = ∑ j ∈ range b.dof, G b.vel i j * b.vel j -
        (∑ j ∈ range b.dof, b.vel j * ∑ k ∈ range b.dof,
          G (fun j => if j = i then 1 else 0) j k * b.vel k) * (1 / 2) := by
      rw [← e1', ← e2']; ring
    rw [e3, sum_mul, ← sum_sub_distrib]
    refine sum_congr rfl fun j _ => ?_
    rw [hlin b.vel i j, sum_mul, mul_sum, sum_mul, ← sum_sub_distrib]
    refine sum_congr rfl fun k _ => ?_
    show _ = (_ - _ / 2) * b.vel j * b.vel k
    ring

/-! ## Witnesses -/

/-- The hypotheses of C73 hold for the loaded witness body moving with `q(t) = (t, 2t, t²)`, for
every joint. -/
example (E : Ext) (t0 : ℝ) (i : ℕ) (hi : i < demoLoaded.dof) : ∃ (d : Bool) (B C : ℝ → Body)
    (P : ℝ → ℕ → Vec3 → Vec3) (x : ℕ → Motion) (T : ℕ → Iso),
    Reach E demoLoaded d ∧ demoLoaded.AxesOK ∧ demoLoaded.Massive ∧
    (∀ t, ∃ b1, demoLoaded.setQ [t, 2 * t, t ^ 2] = .ok b1 ∧ b1.setDq [1, 2, 2 * t] = .ok (B t)) ∧
    (∀ i < demoLoaded.dof, HasDerivAt (fun t : ℝ => [t, 2 * t, t ^ 2].getD i 0)
      ([1, 2, 2 * t0].getD i 0) t0) ∧
    (∀ i < demoLoaded.dof, HasDerivAt (fun t : ℝ => [1, 2, 2 * t].getD i 0)
      ([0, 0, 2].getD i 0) t0) ∧
    (∀ s, (B t0).setQ ([t0, 2 * t0, t0 ^ 2].set i s) = .ok (C s)) ∧
    (∀ s, ∀ k < demoLoaded.dof, ∀ x, ((C s).position k x).map Prod.fst = .ok (P s k x)) ∧
    (∀ k < demoLoaded.dof, (B t0).LinkVel (fun j => if j = i then 1 else 0) k (x k)) ∧
    ∀ k < demoLoaded.dof, ((B t0).tToWorld k).map Prod.fst = .ok (T k) := by
  obtain ⟨d, h⟩ := demoLoaded_reach E
  have hB : ∀ t : ℝ, ∃ b2 b1, demoLoaded.setQ [t, 2 * t, t ^ 2] = .ok b1 ∧
      b1.setDq [1, 2, 2 * t] = .ok b2 := fun t => by
    obtain ⟨b1, h1, hd1⟩ := setQ_total (b := demoLoaded) (q := [t, 2 * t, t ^ 2]) rfl
    obtain ⟨b2, h2, -⟩ := setDq_total (b := b1) (q := [1, 2, 2 * t]) hd1.symm
    exact ⟨b2, b1, h1, h2⟩
  choose B hB using hB
  obtain ⟨hs0, hd0, -, -, -, d0, r0⟩ := h.after_set (hB t0)
  have hC : ∀ s, ∃ c, (B t0).setQ ([t0, 2 * t0, t0 ^ 2].set i s) = .ok c := fun s => by
    obtain ⟨b1, h1, -⟩ := setQ_total (b := B t0) (q := [t0, 2 * t0, t0 ^ 2].set i s)
      (by rw [List.length_set, hd0]; rfl)
    exact ⟨b1, h1⟩
  choose C hC using hC
  choose! x hx using fun (k : ℕ) (hk : k < demoLoaded.dof) => linkVel_exists r0.inv.tree
    (fun j => if j = i then 1 else 0) k (show k < (B t0).dof by rw [hd0]; exact hk)
  refine ⟨d, B, C, fun s k x => ((C s).viewTw k).app x, x, fun k => (B t0).viewTw k, h,
    demo_axesOK, demoLoaded_definite.massive h.inv.tree, hB, ?_, ?_, hC, ?_, hx, ?_⟩
  · intro i hi
    rcases demo_lt hi with rfl | rfl | rfl
    · simpa using hasDerivAt_id' t0
    · simpa using (hasDerivAt_id' t0).const_mul 2
    · simpa using hasDerivAt_pow 2 t0
  · intro i hi
    rcases demo_lt hi with rfl | rfl | rfl
    · simpa using hasDerivAt_const t0 (1 : ℝ)
    · simpa using hasDerivAt_const t0 (2 : ℝ)
    · simpa using (hasDerivAt_id' t0).const_mul 2
  · intro s k hk y
    have hd' := (r0.after_setQ (hC s)).2.1
    unfold Body.position
    rw [index_ofNat (show k < (C s).dof by rw [hd', hd0]; exact hk)]
    rfl
  · intro k hk
    unfold Body.tToWorld
    rw [index_ofNat (show k < (B t0).dof by rw [hd0]; exact hk)]
    rfl

/-- A joint moving alone makes no velocity-product torque at that joint. -/
theorem coriolis_alone {σ : Sys} {i : ℕ} (hi : i < σ.n)
    (hd : ∀ j < σ.n, j ≠ i → σ.dq j = 0) : σ.coriolisSpec i = 0 := by
  classical
  have hV : ∀ k, σ.V σ.dq k = σ.dq i • σ.Jw k i := by
    intro k
    unfold Sys.V
    rw [Finset.sum_eq_single i]
    · intro j hj hij; rw [hd j (mem_range.1 hj) hij, zero_smul]
    · intro hn; exact absurd (mem_range.2 hi) hn
  have hs : ∀ k, ((σ.dq i • σ.Jw i i).crossM (σ.Jw k i)) = 0 := by
    intro k
    have : σ.Jw i i = σ.axis i := if_pos .refl
    rw [this]
    unfold Sys.Jw
    split <;> simp [Motion.smul_crossM]
  have hb : ∀ k, σ.bias k = 0 := by
    intro k
    unfold Sys.bias
    refine sum_eq_zero fun j hj => ?_
    by_cases hij : j = i
    · subst hij; rw [hV, hs, smul_zero]
    · rw [hd j (mem_range.1 hj) hij, zero_smul]
  unfold Sys.coriolisSpec Sys.genForce
  refine sum_eq_zero fun k _ => ?_
  beta_reduce
  rw [hb, Sys.Iw_zero, zero_add, ← neg_neg ((σ.Jw k i).dot _), ← Motion.crossM_dot, hV,
    Motion.smul_crossM, Motion.crossM_self]
  simp

/-- The hypotheses of C74 hold for the loaded witness body turning about its root at unit rate,
the other joints held in place. -/
example (E : Ext) : ∃ (d : Bool) (B : ℝ → Body) (tau : ℝ → ℕ → ℝ),
    Reach E demoLoaded d ∧ demoLoaded.AxesOK ∧ demoLoaded.Massive ∧
    (∀ t, ∃ b1, demoLoaded.setQ [t, 0, 0] = .ok b1 ∧ b1.setDq [1, 0, 0] = .ok (B t)) ∧
    (∀ t, DefiniteForm demoLoaded.dof (B t).inertia.1) ∧
    (∀ t, ∀ i < demoLoaded.dof, HasDerivAt (fun t : ℝ => [t, 0, 0].getD i 0)
      (([1, 0, 0] : List ℝ).getD i 0) t) ∧
    (∀ t, ∀ i < demoLoaded.dof, HasDerivAt (fun _ : ℝ => ([1, 0, 0] : List ℝ).getD i 0)
      (((B t).fd E (tau t) (fun _ => none) ⟨true, true, false, 0⟩).1 i) t) ∧
    (demoLoaded.rb 0).idParent < 0 ∧ (∀ t, tau t 0 = (B t).gravity.1 0) := by
  obtain ⟨d, h⟩ := demoLoaded_reach E
  have hB : ∀ t : ℝ, ∃ b2 b1, demoLoaded.setQ [t, 0, 0] = .ok b1 ∧
      b1.setDq [1, 0, 0] = .ok b2 := fun t => by
    obtain ⟨b1, h1, hd1⟩ := setQ_total (b := demoLoaded) (q := [t, 0, 0]) rfl
    obtain ⟨b2, h2, -⟩ := setDq_total (b := b1) (q := [1, 0, 0]) hd1.symm
    exact ⟨b2, b1, h1, h2⟩
  choose B hB using hB
  have hdef : ∀ t, (B t).Definite := fun t => by
    obtain ⟨hs, hd, -⟩ := h.after_set (hB t)
    have hr : (B t).rb = demoLoaded.rb := by unfold Body.rb; rw [hs.rbs]
    obtain ⟨a1, a2, a3, a4, a5⟩ := demoLoaded_definite
    refine ⟨?_, ?_, ?_, ?_, ?_⟩
    · rw [hd, hr]; exact a1
    · rw [hd, hr]; exact a2
    · rw [hd, hr]; exact a3
    · rw [hd, hs.load]; exact a4
    · rw [hd, hr]; exact a5
  refine ⟨d, B, fun t => ((B t).inverseDynamics (fun _ => 0) (fun _ => none)
    ⟨true, true, false, 0⟩).1, h, demo_axesOK, demoLoaded_definite.massive h.inv.tree, hB, ?_, ?_,
    ?_, by decide, ?_⟩
  · intro t
    obtain ⟨hs, hd, -, -, -, d', r⟩ := h.after_set (hB t)
    have := (hdef t).form r
    rwa [hd] at this
  · intro t i hi
    rcases demo_lt hi with rfl | rfl | rfl
    · simpa using hasDerivAt_id' t
    · simpa using hasDerivAt_const t (0 : ℝ)
    · simpa using hasDerivAt_const t (0 : ℝ)
  · intro t i hi
    obtain ⟨hs, hd, -, -, -, d', r⟩ := h.after_set (hB t)
    have := C29_forward_inverse r ((hdef t).massive r.inv.tree) ((hdef t).form r)
      (fun _ => 0) (fun _ => none) ⟨true, true, false, 0⟩ 0 rfl i (by rw [hd]; exact hi)
    simp only at this ⊢
    rw [this]
    exact hasDerivAt_const _ _
  · intro t
    obtain ⟨hs, hd, hf, -, hv, d', r⟩ := h.after_set (hB t)
    have h0 : 0 < (B t).dof := by rw [hd]; decide
    have hm := (hdef t).massive r.inv.tree
    choose! x hx using fun (k : ℕ) (hk : k < (B t).dof) => linkVel_exists r.inv.tree
      (fun j => if j = 0 then 1 else 0) k hk
    have hT : ∀ k < (B t).dof, ((B t).tToWorld k).map Prod.fst =
        .ok ((fun k => (B t).freshTw k) k) := by
      intro k hk
      unfold Body.tToWorld
      rw [index_ofNat hk]
      show Out.ok _ = _
      rw [r.inv.viewTw k hk]
    beta_reduce
    rw [inverseDynamics_parts r hm (fun _ => 0) (fun _ => none) ⟨true, true, false, 0⟩ rfl rfl rfl
      h0 hx hT, (gravity_run r.inv).2 0 h0, coriolis_alone h0]
    · simp
    · intro j hj hne
      have : (B t).vel j = 0 := by
        rw [hv]
        have hj : j < 3 := by
          have : j < (B t).dof := hj
          rw [hd] at this; exact this
        show ([1, 0, 0] : List ℝ).getD j 0 = 0
        interval_cases j
        · exact absurd rfl hne
        · rfl
        · rfl
      exact this

/-- The hypotheses of C75 hold for the moving witness body. -/
example (E : Ext) : ∃ (d : Bool) (C : ℕ → ℝ → Body), Reach E demoLoaded d ∧ demoLoaded.AxesOK ∧
    demoLoaded.Massive ∧ demoLoaded.dof = 3 ∧
    ∀ k < demoLoaded.dof, ∀ s, demoLoaded.setQ (demoLoaded.q.set k s) = .ok (C k s) := by
  obtain ⟨d, h⟩ := demoLoaded_reach E
  have hC : ∀ (k : ℕ) (s : ℝ), ∃ c, demoLoaded.setQ (demoLoaded.q.set k s) = .ok c := fun k s => by
    obtain ⟨b1, h1, -⟩ := setQ_total (b := demoLoaded) (q := demoLoaded.q.set k s)
      (by rw [List.length_set, h.inv.tree.lq])
    exact ⟨b1, h1⟩
  choose C hC using hC
  exact ⟨d, C, h, demo_axesOK, demoLoaded_definite.massive h.inv.tree, rfl, fun k _ s => hC k s⟩

end SpatialDyn
