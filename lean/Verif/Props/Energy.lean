import Verif.Props.Dynamics

/-!
# C25, C26: gravity is the gradient of the potential energy; energy balance
-/

namespace SpatialDyn
open Body Finset

variable {E : Ext} {b : Body} {d : Bool}

/-- Potential energy in the field `g` of the links and loads of `b`, when the point `x` of link `k`
is at `P k x`. -/
noncomputable def Body.potential (b : Body) (P : ℕ → Vec3 → Vec3) : ℝ :=
  -∑ k ∈ range b.dof, ((b.parts k).map fun I => I.mass * b.g.dot (P k I.com)).sum

theorem HasDerivAt.list_sum {α : Type*} (l : List α) {f : α → ℝ → ℝ} {f' : α → ℝ} {s : ℝ}
    (h : ∀ a ∈ l, HasDerivAt (f a) (f' a) s) :
    HasDerivAt (fun s => (l.map fun a => f a s).sum) (l.map f').sum s := by
  induction l with
  | nil => simpa using hasDerivAt_const s (0 : ℝ)
  | cons a l ih =>
    simp only [List.map_cons, List.sum_cons]
    exact (h a (List.mem_cons_self ..)).add (ih fun x hx => h x (List.mem_cons_of_mem _ hx))

/-- Derivative of the potential energy along a motion of the joints through the current state. -/
theorem potential_deriv (h : Reach E b d) (ha : b.AxesOK) (hm : b.Massive) {u : ℝ → ℕ → ℝ}
    {w : ℕ → ℝ} {s : ℝ} (hu0 : u s = b.pos)
    (hu : ∀ j < b.dof, HasDerivAt (fun s => u s j) (w j) s) :
    HasDerivAt (fun s => b.potential fun k x => (b.twAt (u s) k).app x)
      (∑ k ∈ range b.dof, (b.fresh.V w k).dot (b.fresh.Iw k (-b.fresh.g))) s := by
  have hpart : ∀ k ∈ range b.dof, HasDerivAt (fun s => ((b.parts k).map fun I =>
      I.mass * b.g.dot ((b.twAt (u s) k).app I.com)).sum)
      ((b.fresh.V w k).dot (b.fresh.Iw k ⟨b.g, 0⟩)) s := by
    intro k hk
    have hk := mem_range.1 hk
    rw [hm.weight h.inv hk]
    refine HasDerivAt.list_sum _ fun I _ => ?_
    have htw := (twAt_twist h.inv.tree h.inv.rigid ha hu b.vel k hk).app I.com
    have e2 : b.twAt (u s) k = b.freshTw k := by rw [hu0]; rfl
    have e3 : b.sysAt (u s) b.vel = b.fresh := by rw [hu0]; rfl
    rw [e2, e3] at htw
    have := ((HasDerivVec.const b.g s).dot htw).const_mul I.mass
    refine this.congr_deriv ?_
    simp only [Motion.atPoint]
    simp [Vec3.dot]
  have := (HasDerivAt.fun_sum hpart).neg
  refine this.congr_deriv ?_
  rw [← sum_neg_distrib]
  refine sum_congr rfl fun k _ => ?_
  rw [Sys.Iw_neg, Motion.dot_neg]
  rfl

/-- C25 along arbitrary motions: the power of the gravity torques is the rate of change of the
potential energy. -/
theorem C25_power (h : Reach E b d) (ha : b.AxesOK) (hm : b.Massive) {u : ℝ → ℕ → ℝ}
    {w : ℕ → ℝ} {s : ℝ} (hu0 : u s = b.pos)
    (hu : ∀ j < b.dof, HasDerivAt (fun s => u s j) (w j) s) {P : ℝ → ℕ → Vec3 → Vec3}
    (hP : ∀ s, ∀ k < b.dof, ∀ x, b.positionQ (u s) k x = .ok (P s k x)) :
    HasDerivAt (fun s => b.potential (P s)) (∑ j ∈ range b.dof, w j * b.gravity.1 j) s := by
  have hU : (fun s => b.potential (P s)) = fun s => b.potential fun k x => (b.twAt (u s) k).app x := by
    funext s
    unfold Body.potential
    congr 1
    refine sum_congr rfl fun k hk => ?_
    have hk := mem_range.1 hk
    congr 1
    refine List.map_congr_left fun I _ => ?_
    obtain ⟨X, hX⟩ := linkPose_exists h.inv.tree (u s) k hk
    have := C17_position_q h (i := k) ⟨hk, Or.inl rfl⟩ hX I.com
    rw [hP s k hk] at this
    beta_reduce
    rw [hX.twAt h.inv.tree hk, Out.ok.inj this]
  rw [hU]
  refine (potential_deriv h ha hm hu0 hu).congr_deriv ?_
  refine (Sys.genForce_power (σ := b.fresh) w fun k => b.fresh.Iw k (-b.fresh.g)).symm.trans ?_
  exact sum_congr rfl fun j hj => by rw [(gravity_run h.inv).2 j (mem_range.1 hj)]; rfl

/-- C25: `Gravity` is the gradient of the potential energy, loads included. -/
theorem C25_gradient (h : Reach E b d) (ha : b.AxesOK) (hm : b.Massive) {j : ℕ} (hj : j < b.dof)
    {P : ℝ → ℕ → Vec3 → Vec3} (hP : ∀ s, ∀ k < b.dof, ∀ x,
      b.positionQ (Function.update b.pos j s) k x = .ok (P s k x)) :
    HasDerivAt (fun s => b.potential (P s)) (b.gravity.1 j) (b.pos j) := by
  refine (C25_power h ha hm (u := fun s => Function.update b.pos j s)
    (w := fun i => if i = j then 1 else 0) (s := b.pos j) (Function.update_eq_self j b.pos)
    (fun i _ => ?_) hP).congr_deriv ?_
  · by_cases hij : i = j
    · subst hij
      simpa using hasDerivAt_id' (b.pos i)
    · simpa [Function.update_of_ne hij, hij] using hasDerivAt_const (b.pos j) (b.pos i)
  · rw [Finset.sum_eq_single j]
    · simp
    · intro i _ hij; simp [hij]
    · intro hn; exact absurd (mem_range.2 hj) hn

/-- C25: `Gravity` is linear in the gravity vector. -/
theorem C25_linear (h : Reach E b d) (g1 g2 : Vec3) (c : ℝ) (j : ℕ) (hj : j < b.dof) :
    (b.setG (c • g1 + g2)).gravity.1 j = c * (b.setG g1).gravity.1 j + (b.setG g2).gravity.1 j := by
  have hr : ∀ g, ∃ d', Reach E (b.setG g) d' := fun g => ⟨_, h.step (.setG g) trivial rfl⟩
  have hv : ∀ g, (b.setG g).gravity.1 j = b.fresh.genForce (fun k => b.fresh.Iw k (-⟨g, 0⟩)) j := by
    intro g
    obtain ⟨d', h'⟩ := hr g
    exact (gravity_run h'.inv).2 j hj
  rw [hv, hv, hv]
  unfold Sys.genForce
  rw [mul_sum, ← sum_add_distrib]
  refine sum_congr rfl fun k _ => ?_
  have e : (-⟨c • g1 + g2, 0⟩ : Motion) = c • (-⟨g1, 0⟩) + -⟨g2, 0⟩ := by
    ext <;> simp <;> ring
  beta_reduce
  rw [e, Sys.Iw_add, Sys.Iw_smul, Motion.dot_add, Motion.dot_smul]

/-! ## C26 -/

theorem Body.StateOnly.fresh {b b' : Body} (h : StateOnly b b') :
    b'.fresh = b.sysAt b'.pos b'.vel := by
  have hr : b'.rb = b.rb := by unfold Body.rb; rw [h.rbs]
  have hd : b'.dof = b.dof := by unfold Body.dof; rw [h.rbs]
  have hp : b'.par = b.par := by unfold Body.par; rw [hr]
  have hT : b'.TpAt = b.TpAt := by unfold Body.TpAt; rw [hr]
  have h1 : b'.freshTp = fun i => b.TpAt i (b'.pos i) := by
    funext i; unfold freshTp; rw [hT]; rfl
  have h2 : b'.freshTw = b.twAt b'.pos := by
    unfold freshTw Body.twAt; rw [h1, hd, hp, h.T0]
  unfold Body.fresh Body.sysAt
  rw [h1, h2]
  unfold Body.sysWith
  rw [hd, hp, hr, h.load, h.g]
  rfl

theorem Body.StateOnly.massive {b b' : Body} (h : StateOnly b b') (hm : b.Massive) : b'.Massive := by
  have hr : b'.rb = b.rb := by unfold Body.rb; rw [h.rbs]
  have hd : b'.dof = b.dof := by unfold Body.dof; rw [h.rbs]
  have hp : b'.parts = b.parts := by unfold Body.parts; rw [hr, h.load]
  have hl : b'.linkMass = b.linkMass := by unfold Body.linkMass; rw [hp]
  constructor
  · rw [hd, hp]; exact hm.symm
  · rw [hd, hp]; exact hm.nonneg
  · rw [hd, hl, h.load]; exact hm.merge
  · rw [hd, hl, hr, h.sub]; exact hm.tree

theorem setQ_pos {b b' : Body} {q : List ℝ} (hq : b.setQ q = .ok b') :
    b'.q = q ∧ b'.dq = b.dq := by
  unfold Body.setQ at hq
  split at hq
  · cases hq
  · split at hq
    · next e => cases hq; exact ⟨e, rfl⟩
    · cases hq; exact ⟨rfl, rfl⟩

theorem setDq_vel {b b' : Body} {q : List ℝ} (hq : b.setDq q = .ok b') :
    b'.dq = q ∧ b'.q = b.q := by
  unfold Body.setDq at hq
  split at hq
  · cases hq
  · split at hq
    · next e => cases hq; exact ⟨e, rfl⟩
    · cases hq; exact ⟨rfl, rfl⟩

/-- The kinetic energy along a trajectory changes at the rate of the inertial forces. -/
theorem kinetic_deriv (h : Inv E b) (ha : b.AxesOK) (hs : ∀ u w, (b.sysAt u w).SymI)
    {u w : ℝ → ℕ → ℝ} {a : ℕ → ℝ} {s : ℝ}
    (hu : ∀ i < b.dof, HasDerivAt (fun s => u s i) (w s i) s)
    (hw : ∀ i < b.dof, HasDerivAt (fun s => w s i) (a i) s) :
    HasDerivAt (fun s => (b.sysAt (u s) (w s)).energy2 (w s))
      (2 * ∑ k ∈ range b.dof, ((b.sysAt (u s) (w s)).V (w s) k).dot ((b.sysAt (u s) (w s)).Iw k
        ((b.sysAt (u s) (w s)).V a k + (b.sysAt (u s) (w s)).bias k))) s := by
  unfold Sys.energy2
  rw [mul_sum]
  refine HasDerivAt.fun_sum (u := range b.dof) fun k hk => ?_
  have hk := mem_range.1 hk
  have hv := V_deriv h.tree h.rigid ha hu hw k
  have ht := twAt_twist h.tree h.rigid ha hu (w s) k hk
  have hval : ∀ s, (b.twAt (u s) k).Valid := fun s => twAt_valid h.tree h.rigid (u s) k hk
  have h1 := ht.inv_actM (hval s) hv
  rw [Motion.crossM_self, sub_zero] at h1
  have h2 := h1.quad (I := (b.sysAt (u s) (w s)).Itot k) (hs _ _ k hk)
  have e : ∀ t m n, m.dot ((b.sysAt (u t) (w t)).Iw k n) =
      ((b.twAt (u t) k).inv.actM m).dot (((b.sysAt (u s) (w s)).Itot k).app
        ((b.twAt (u t) k).inv.actM n)) := by
    intro t m n
    unfold Sys.Iw
    rw [sysAt_Tw hk, (hval t).dot_actF]
    rfl
  simp only [e]
  exact h2

theorem Motion.dot_crossF_self (m : Motion) (f : Force) : m.dot (m.crossF f) = 0 := by
  have := Motion.crossM_dot m m f
  rw [Motion.crossM_self] at this
  simpa using this.symm

/-- C26: along a trajectory of the state, the rate of change of kinetic plus potential energy is the
power of the torques of `InverseDynamics` plus the power of the external forces.  `B t` is the body
after `set_q(q(t))` and `set_dq(dq(t))`. -/
theorem C26_energy_balance (h : Reach E b d) (ha : b.AxesOK) (hm : b.Massive)
    {q dq : ℝ → List ℝ} {B : ℝ → Body}
    (hB : ∀ t, ∃ b1, b.setQ (q t) = .ok b1 ∧ b1.setDq (dq t) = .ok (B t)) {t0 : ℝ} {ddq : ℕ → ℝ}
    (hq : ∀ i < b.dof, HasDerivAt (fun t => (q t).getD i 0) ((dq t0).getD i 0) t0)
    (hdq : ∀ i < b.dof, HasDerivAt (fun t => (dq t).getD i 0) (ddq i) t0)
    {P : ℝ → ℕ → Vec3 → Vec3}
    (hP : ∀ t, ∀ k < b.dof, ∀ x, ((B t).position k x).map Prod.fst = .ok (P t k x))
    (fext : FExt) (o : IDOpts) (hg : o.gravity = true) (hcc : o.cc = true)
    (hf : o.friction = false) {v : ℕ → Motion} {T : ℕ → Iso}
    (hv : ∀ k < b.dof, (B t0).LinkVel (B t0).vel k (v k))
    (hT : ∀ k < b.dof, ((B t0).tToWorld k).map Prod.fst = .ok (T k)) :
    HasDerivAt (fun t => 1 / 2 * ∑ i ∈ range b.dof, ∑ j ∈ range b.dof,
        (dq t).getD i 0 * (B t).inertia.1 i j * (dq t).getD j 0 + b.potential (P t))
      (∑ i ∈ range b.dof, (dq t0).getD i 0 * ((B t0).inverseDynamics ddq fext o).1 i +
        ∑ k ∈ range b.dof, ((T k).actM (v k)).dot ((fext k).getD 0)) t0 := by
  set u : ℝ → ℕ → ℝ := fun t i => (q t).getD i 0 with hu
  set w : ℝ → ℕ → ℝ := fun t i => (dq t).getD i 0 with hw
  -- the bodies along the trajectory
  have hst : ∀ t, StateOnly b (B t) ∧ (B t).pos = u t ∧ (B t).vel = w t ∧
      ∃ d', Reach E (B t) d' := by
    intro t
    obtain ⟨b1, h1, h2⟩ := hB t
    have r1 : Reach E b1 _ := h.step (b' := b1) (.setQ (q t)) trivial (by simp [Op.exec, Op.step, h1])
    have r2 : Reach E (B t) _ := r1.step (b' := B t) (.setDq (dq t)) trivial
      (by simp [Op.exec, Op.step, h2])
    refine ⟨(setQ_stateOnly h.inv.tree.lq h1).trans (setDq_stateOnly r1.inv.tree.ldq h2), ?_, ?_,
      _, r2⟩
    · unfold Body.pos; rw [(setDq_vel h2).2, (setQ_pos h1).1]
    · unfold Body.vel; rw [(setDq_vel h2).1]
  have hfr : ∀ t, (B t).fresh = b.sysAt (u t) (w t) := fun t => by
    rw [(hst t).1.fresh, (hst t).2.1, (hst t).2.2.1]
  have hd : ∀ t, (B t).dof = b.dof := fun t => by unfold Body.dof; rw [(hst t).1.rbs]
  have hmt : ∀ t, (B t).Massive := fun t => (hst t).1.massive hm
  have hsym : ∀ u w, (b.sysAt u w).SymI := fun u w => hm.symI
  -- kinetic energy
  have hK : ∀ t, ∑ i ∈ range b.dof, ∑ j ∈ range b.dof, w t i * (B t).inertia.1 i j * w t j =
      (b.sysAt (u t) (w t)).energy2 (w t) := by
    intro t
    obtain ⟨d', r⟩ := (hst t).2.2.2
    rw [Sys.energy2_eq]
    refine sum_congr rfl fun i hi => ?_
    rw [mul_sum]
    refine sum_congr rfl fun j hj => ?_
    rw [(inertia_run r.inv).2.1.mass r.inv.wf (hmt t).symI ((hmt t).posMass r.inv.tree) i j
      (show i < (B t).dof by rw [hd t]; exact mem_range.1 hi)
      (show j < (B t).dof by rw [hd t]; exact mem_range.1 hj), hfr t]
    ring
  have hKd := (kinetic_deriv h.inv ha hsym hq hdq).const_mul (1 / 2)
  -- potential energy
  obtain ⟨d0, r0⟩ := (hst t0).2.2.2
  have hax0 : (B t0).AxesOK := by
    intro i hi
    have := ha i (by rwa [hd t0] at hi)
    unfold Body.rb at this ⊢
    rw [(hst t0).1.rbs]; exact this
  have hpot : (fun t => b.potential (P t)) =
      fun t => (B t0).potential fun k x => ((B t0).twAt (u t) k).app x := by
    funext t
    obtain ⟨d', r⟩ := (hst t).2.2.2
    unfold Body.potential
    rw [hd t0]
    congr 1
    refine sum_congr rfl fun k hk => ?_
    have hk := mem_range.1 hk
    have hp : (B t0).parts k = b.parts k := by
      unfold Body.parts Body.rb; rw [(hst t0).1.rbs, (hst t0).1.load]
    rw [hp, (hst t0).1.g]
    congr 1
    refine List.map_congr_left fun I _ => ?_
    have h1 := hP t k hk I.com
    unfold Body.position at h1
    rw [index_ofNat (show k < (B t).dof by rw [hd t]; exact hk)] at h1
    have h2 := Out.ok.inj h1
    have h3 := r.inv.viewTw k (by rw [hd t]; exact hk)
    have h4 : (B t).freshTw k = (B t0).twAt (u t) k := by
      have e1 : (B t).freshTw = b.twAt (u t) := by
        show (B t).twAt (B t).pos = _
        rw [(hst t).2.1]
        unfold Body.twAt Body.par Body.TpAt Body.rb
        rw [hd t, (hst t).1.rbs, (hst t).1.T0]
      have e2 : (B t0).twAt (u t) = b.twAt (u t) := by
        unfold Body.twAt Body.par Body.TpAt Body.rb
        rw [hd t0, (hst t0).1.rbs, (hst t0).1.T0]
      rw [e1, e2]
    rw [← h2, h3, h4]
  have hPd := potential_deriv r0 hax0 (hmt t0) (u := u) (w := w t0) (s := t0) (hst t0).2.1.symm
    (fun j hj => hq j (by rwa [hd t0] at hj))
  rw [← hpot, hd t0, hfr t0] at hPd
  have htot := hKd.add hPd
  have hfun : (fun t => 1 / 2 * ∑ i ∈ range b.dof, ∑ j ∈ range b.dof,
        w t i * (B t).inertia.1 i j * w t j + b.potential (P t)) =
      (fun t => 1 / 2 * (b.sysAt (u t) (w t)).energy2 (w t)) + fun t => b.potential (P t) := by
    funext t; rw [hK]; rfl
  refine (hfun ▸ htot : HasDerivAt (fun t => 1 / 2 * ∑ i ∈ range b.dof, ∑ j ∈ range b.dof,
        w t i * (B t).inertia.1 i j * w t j + b.potential (P t)) _ t0).congr_deriv ?_
  -- power of the torques
  have hτ : ∀ i ∈ range b.dof, w t0 i * ((B t0).inverseDynamics ddq fext o).1 i =
      w t0 i * (b.sysAt (u t0) (w t0)).genForce (fun k =>
        ((b.sysAt (u t0) (w t0)).Iw k ((b.sysAt (u t0) (w t0)).V ddq k) +
        ((b.sysAt (u t0) (w t0)).Iw k ((b.sysAt (u t0) (w t0)).bias k) +
          ((b.sysAt (u t0) (w t0)).V (w t0) k).crossF ((b.sysAt (u t0) (w t0)).Iw k
            ((b.sysAt (u t0) (w t0)).V (w t0) k))) +
        (b.sysAt (u t0) (w t0)).Iw k (-(b.sysAt (u t0) (w t0)).g)) - (fext k).getD 0) i := by
    intro i hi
    congr 1
    rw [inverseDynamics_val r0.inv (hmt t0).symI ((hmt t0).posMass r0.inv.tree) ddq fext o i
      (by rw [hd t0]; exact mem_range.1 hi), hfr t0]
    unfold Sys.addFriction
    rw [hf, if_neg Bool.false_ne_true]
    rw [Sys.genForce_sub, Sys.genForce_add, Sys.genForce_add]
    unfold Sys.idSpec Sys.extSpec
    rw [Sys.genForce_Iw_V, sub_eq_add_neg, hcc, hg]
    rfl
  have hvel : ∀ k ∈ range b.dof, ((T k).actM (v k)).dot ((fext k).getD 0) =
      ((b.sysAt (u t0) (w t0)).V (w t0) k).dot ((fext k).getD 0) := by
    intro k hk
    have hk : k < b.dof := mem_range.1 hk
    have hk0 : k < (B t0).dof := by rw [hd t0]; exact hk
    have hTk : T k = (B t0).freshTw k := by
      have := hT k hk
      unfold Body.tToWorld at this
      rw [index_ofNat hk0] at this
      have := Out.ok.inj this
      rw [← this, r0.inv.viewTw k hk0]
    rw [hTk, (hv k hk).world r0.inv hk0, hfr t0, (hst t0).2.2.1]
  rw [sum_congr rfl hτ, sum_congr rfl hvel]
  have hpow := Sys.genForce_power (σ := b.sysAt (u t0) (w t0)) (w t0) (fun k =>
        ((b.sysAt (u t0) (w t0)).Iw k ((b.sysAt (u t0) (w t0)).V ddq k) +
        ((b.sysAt (u t0) (w t0)).Iw k ((b.sysAt (u t0) (w t0)).bias k) +
          ((b.sysAt (u t0) (w t0)).V (w t0) k).crossF ((b.sysAt (u t0) (w t0)).Iw k
            ((b.sysAt (u t0) (w t0)).V (w t0) k))) +
        (b.sysAt (u t0) (w t0)).Iw k (-(b.sysAt (u t0) (w t0)).g)) - (fext k).getD 0)
  rw [show range b.dof = range (b.sysAt (u t0) (w t0)).n from rfl, hpow, ← sum_add_distrib,
    ← mul_assoc, show (1 / 2 : ℝ) * 2 = 1 by norm_num, one_mul, ← sum_add_distrib]
  refine sum_congr rfl fun k _ => ?_
  simp only [Motion.dot_sub, Motion.dot_add, Sys.Iw_add, Motion.dot_crossF_self]
  ring

/-! ## Witness -/

theorem setQ_total {q : List ℝ} (hq : q.length = b.dof) :
    ∃ b1, b.setQ q = .ok b1 ∧ b1.dof = b.dof := by
  unfold Body.setQ
  rw [if_neg (not_not.2 hq)]
  split
  · exact ⟨b, rfl, rfl⟩
  · exact ⟨_, rfl, rfl⟩

theorem setDq_total {q : List ℝ} (hq : q.length = b.dof) :
    ∃ b1, b.setDq q = .ok b1 ∧ b1.dof = b.dof := by
  unfold Body.setDq
  rw [if_neg (not_not.2 hq)]
  split
  · exact ⟨b, rfl, rfl⟩
  · exact ⟨_, rfl, rfl⟩

/-- The hypotheses of C25 and C26 hold for the loaded witness body moving with
`q(t) = (t, 2t, t²)`. -/
example (E : Ext) : ∃ (d : Bool) (B : ℝ → Body), Reach E demoLoaded d ∧ demoLoaded.AxesOK ∧
    demoLoaded.Massive ∧ demoLoaded.dof = 3 ∧
    (∀ t, ∃ b1, demoLoaded.setQ [t, 2 * t, t ^ 2] = .ok b1 ∧ b1.setDq [1, 2, 2 * t] = .ok (B t)) ∧
    (∀ t, ∀ i < demoLoaded.dof, HasDerivAt (fun t : ℝ => [t, 2 * t, t ^ 2].getD i 0)
      ([1, 2, 2 * t].getD i 0) t) ∧
    (∀ t, ∀ i < demoLoaded.dof, HasDerivAt (fun t : ℝ => [1, 2, 2 * t].getD i 0)
      ([0, 0, 2].getD i 0) t) := by
  obtain ⟨d, h⟩ := demoLoaded_reach E
  have hB : ∀ t : ℝ, ∃ b2 b1, demoLoaded.setQ [t, 2 * t, t ^ 2] = .ok b1 ∧
      b1.setDq [1, 2, 2 * t] = .ok b2 := fun t => by
    obtain ⟨b1, h1, hd1⟩ := setQ_total (b := demoLoaded) (q := [t, 2 * t, t ^ 2]) rfl
    obtain ⟨b2, h2, -⟩ := setDq_total (b := b1) (q := [1, 2, 2 * t]) hd1.symm
    exact ⟨b2, b1, h1, h2⟩
  choose B hB using hB
  refine ⟨d, B, h, demo_axesOK, demoLoaded_definite.massive h.inv.tree, rfl, hB, ?_, ?_⟩
  · intro t i hi
    rcases demo_lt hi with rfl | rfl | rfl
    · simpa using hasDerivAt_id' t
    · simpa using (hasDerivAt_id' t).const_mul 2
    · simpa using hasDerivAt_pow 2 t
  · intro t i hi
    rcases demo_lt hi with rfl | rfl | rfl
    · simpa using hasDerivAt_const t (1 : ℝ)
    · simpa using hasDerivAt_const t (2 : ℝ)
    · simpa using (hasDerivAt_id' t).const_mul 2

end SpatialDyn
