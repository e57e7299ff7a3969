import Verif.Lemmas.Reach

/-! Queries rewrite the cache only, in every state (no coherence needed). -/

namespace SpatialDyn
namespace Body
variable {b : Body} {E : Ext}

theorem Same.refl (b : Body) : b.Same b := rfl

theorem Same.trans {b1 b2 b3 : Body} (h1 : b1.Same b2) (h2 : b2.Same b3) : b1.Same b3 := by
  unfold Same at *
  rw [h2, h1]

theorem Same.cache (b : Body) (c : Cache) : b.Same { b with c := c } := rfl

theorem Same.upd {b b' : Body} (h : b.Same b') (c : Cache) : b.Same { b' with c := c } :=
  h.trans (Same.cache b' c)

theorem Same.dof {b b' : Body} (h : b.Same b') : b'.dof = b.dof := by rw [h]; rfl

theorem touchTp_same : b.Same b.touchTp := rfl

theorem touchTw_same : b.Same b.touchTw := by unfold touchTw; split <;> rfl

theorem touch_same (x y : Bool) : b.Same (b.touch x y) := by
  unfold touch
  cases x <;> cases y
  · rfl
  · exact touchTw_same
  · rfl
  · exact touchTw_same.trans touchTp_same

theorem jacobian_same {l : ℤ} {x : Vec3} {r : (ℕ → Motion) × Body}
    (hr : b.jacobian l x = .ok r) : b.Same r.2 := by
  obtain ⟨k, -, hr⟩ := Out.bind_ok hr
  split at hr
  · cases hr; rfl
  · cases hr; exact touchTw_same.upd _

theorem hessian_same {l : ℤ} {x : Vec3} {r : (ℕ → ℕ → Motion) × Body}
    (hr : b.hessian l x = .ok r) : b.Same r.2 := by
  obtain ⟨k, -, hr⟩ := Out.bind_ok hr
  obtain ⟨s, hs, hr⟩ := Out.bind_ok hr
  cases hr
  exact (jacobian_same hs).trans touchTw_same

theorem externalTorques_same (f : FExt) : b.Same (b.externalTorques f).2 :=
  (touch_same _ _).upd _

theorem inverseDynamics_same (a : ℕ → ℝ) (f : FExt) (o : IDOpts) :
    b.Same (b.inverseDynamics a f o).2 := by
  unfold inverseDynamics
  split
  · exact externalTorques_same f
  · exact (touch_same _ _).upd _

theorem centrifugalCoriolis_same : b.Same b.centrifugalCoriolis.2 := by
  unfold centrifugalCoriolis
  split
  · rfl
  · exact (touch_same _ _).upd _

theorem gravity_same : b.Same b.gravity.2 := by
  unfold gravity
  split
  · rfl
  · exact (touch_same _ _).upd _

theorem inertia_same : b.Same b.inertia.2 := by
  unfold inertia
  split
  · rfl
  · exact (touch_same _ _).upd _

theorem inertiaInverse_same : b.Same b.inertiaInverse.2 := by
  unfold inertiaInverse
  split
  · rfl
  · exact inertia_same.upd _

theorem fd_same (t : ℕ → ℝ) (f : FExt) (o : FDOpts) : b.Same (b.fd E t f o).2 :=
  (inverseDynamics_same _ _ _).trans inertiaInverse_same

theorem forwardDynamicsAba_same (t : ℕ → ℝ) (f : FExt) (o : FDOpts) :
    b.Same (b.forwardDynamicsAba t f o).2 := (touch_same _ _).upd _

theorem inertiaInverseAba_same : b.Same b.inertiaInverseAba.2 := by
  unfold inertiaInverseAba
  split
  · rfl
  · exact (touch_same _ _).upd _

theorem opsInvCompute_same {J : DMat} {r : DMat × Body} (hr : b.opsInvCompute E J = .ok r) :
    b.Same r.2 := by
  unfold opsInvCompute at hr
  split at hr
  · cases hr
  · cases hr; exact inertiaInverse_same.upd _

theorem opsInertiaInverse_same {J : DMat} {r : DMat × Body}
    (hr : b.opsInertiaInverse E J = .ok r) : b.Same r.2 := by
  unfold opsInertiaInverse at hr
  split at hr
  · exact opsInvCompute_same hr
  · obtain ⟨s, -, hr⟩ := Out.bind_ok hr
    split at hr
    · cases hr; rfl
    · exact opsInvCompute_same hr

theorem opsLambdaCompute_same {J : DMat} {e : ℝ} {r : DMat × Body}
    (hr : b.opsLambdaCompute E J e = .ok r) : b.Same r.2 := by
  obtain ⟨s, hs, hr⟩ := Out.bind_ok hr
  cases hr
  exact (opsInertiaInverse_same hs).upd _

theorem opsInertia_same {J : DMat} {e : ℝ} {r : DMat × Body}
    (hr : b.opsInertia E J e = .ok r) : b.Same r.2 := by
  unfold opsInertia at hr
  split at hr
  · exact opsLambdaCompute_same hr
  · obtain ⟨s, -, hr⟩ := Out.bind_ok hr
    split at hr
    · cases hr; rfl
    · exact opsLambdaCompute_same hr

theorem opsIsSingular_same {J : DMat} {e : ℝ} {r : Bool × Body}
    (hr : b.opsIsSingular E J e = .ok r) : b.Same r.2 := by
  obtain ⟨s, hs, hr⟩ := Out.bind_ok hr
  cases hr
  exact opsInertia_same hs

theorem opsJbarCompute_same {J : DMat} {e : ℝ} {r : DMat × Body}
    (hr : b.opsJbarCompute E J e = .ok r) : b.Same r.2 := by
  obtain ⟨s, hs, hr⟩ := Out.bind_ok hr
  cases hr
  exact (opsInertia_same hs).upd _

theorem opsJbar_same {J : DMat} {e : ℝ} {r : DMat × Body}
    (hr : b.opsJbar E J e = .ok r) : b.Same r.2 := by
  unfold opsJbar at hr
  split at hr
  · exact opsJbarCompute_same hr
  · obtain ⟨s, -, hr⟩ := Out.bind_ok hr
    split at hr
    · cases hr; rfl
    · exact opsJbarCompute_same hr

theorem opsCoriolis_same {J : DMat} {l : ℤ} {e : ℝ} {r : (ℕ → ℝ) × Body}
    (hr : b.opsCoriolis E J l e = .ok r) : b.Same r.2 := by
  unfold opsCoriolis at hr
  split at hr
  · cases hr
  · obtain ⟨s, hs, hr⟩ := Out.bind_ok hr
    obtain ⟨t, ht, hr⟩ := Out.bind_ok hr
    obtain ⟨k, -, hr⟩ := Out.bind_ok hr
    cases hr
    exact (((opsJbar_same hs).trans centrifugalCoriolis_same).trans (opsInertia_same ht)).trans
      touchTw_same

theorem opsGravity_same {J : DMat} {e : ℝ} {r : (ℕ → ℝ) × Body}
    (hr : b.opsGravity E J e = .ok r) : b.Same r.2 := by
  obtain ⟨s, hs, hr⟩ := Out.bind_ok hr
  cases hr
  exact (opsJbar_same hs).trans gravity_same

theorem opsExternal_same {J : DMat} {f : FExt} {e : ℝ} {r : (ℕ → ℝ) × Body}
    (hr : b.opsExternal E J f e = .ok r) : b.Same r.2 := by
  obtain ⟨s, hs, hr⟩ := Out.bind_ok hr
  cases hr
  exact (opsJbar_same hs).trans (externalTorques_same f)

theorem opsFriction_same {J : DMat} {tau : ℕ → ℝ} {e se : ℝ} {r : (ℕ → ℝ) × Body}
    (hr : b.opsFriction E J tau e se = .ok r) : b.Same r.2 := by
  obtain ⟨s, hs, hr⟩ := Out.bind_ok hr
  cases hr
  exact opsJbar_same hs

theorem opsAdd_same {flag : Bool} {s : (ℕ → ℝ) × Body}
    {term : Body → (ℕ → ℝ) → Out ((ℕ → ℝ) × Body)}
    (ht : ∀ r, term s.2 s.1 = .ok r → s.2.Same r.2) {r : (ℕ → ℝ) × Body}
    (hr : opsAdd flag s term = .ok r) : s.2.Same r.2 := by
  unfold opsAdd at hr
  split at hr
  · obtain ⟨t, htt, hr⟩ := Out.bind_ok hr
    cases hr
    exact ht t htt
  · cases hr; rfl

theorem opsNull_same {Jx : DMat} {N : Option DMat} {e : ℝ} {r : Option DMat × Body}
    (hr : b.opsNull E Jx N e = .ok r) : b.Same r.2 := by
  unfold opsNull at hr
  cases N with
  | none => cases hr; rfl
  | some M =>
    obtain ⟨s, hs, hr⟩ := Out.bind_ok hr
    obtain ⟨-, -, hr⟩ := Out.bind_ok hr
    cases hr
    exact opsJbar_same hs

theorem opsInverseDynamics_same {J : DMat} {ddx : ℕ → ℝ} {N : Option DMat}
    {fext : FExt} {se : Bool} {o : OpsOpts} {r : (ℕ → ℝ) × Option DMat × Body}
    (hr : b.opsInverseDynamics E J ddx N fext se o = .ok r) : b.Same r.2.2 := by
  unfold opsInverseDynamics at hr
  obtain ⟨-, -, hr⟩ := Out.bind_ok hr
  obtain ⟨l, hl, hr⟩ := Out.bind_ok hr
  obtain ⟨s1, hs1, hr⟩ := Out.bind_ok hr
  obtain ⟨s2, hs2, hr⟩ := Out.bind_ok hr
  obtain ⟨s3, hs3, hr⟩ := Out.bind_ok hr
  obtain ⟨s4, hs4, hr⟩ := Out.bind_ok hr
  obtain ⟨s5, hs5, hr⟩ := Out.bind_ok hr
  cases hr
  have h1 := opsInertia_same hl
  have h2 := opsAdd_same (fun r hr => opsExternal_same hr) hs1
  have h3 := opsAdd_same (fun r hr => opsGravity_same hr) hs2
  have h4 := opsAdd_same (fun r hr => opsCoriolis_same hr) hs3
  have h5 := opsAdd_same (fun r hr => opsFriction_same hr) hs4
  exact ((((h1.trans h2).trans h3).trans h4).trans h5).trans (opsNull_same hs5)

theorem opsInertiaInverseAba_same {l : ℤ} {x : Vec3} {r : Matrix (Fin 6) (Fin 6) ℝ × Body}
    (hr : b.opsInertiaInverseAba l x = .ok r) : b.Same r.2 := by
  obtain ⟨k, -, hr⟩ := Out.bind_ok hr
  split at hr
  · cases hr; rfl
  · cases hr; exact (touchTw_same.trans touchTp_same).upd _

theorem opsInertiaAba_same {l : ℤ} {x : Vec3} {e : ℝ} {r : Matrix (Fin 6) (Fin 6) ℝ × Body}
    (hr : b.opsInertiaAba E l x e = .ok r) : b.Same r.2 := by
  obtain ⟨k, -, hr⟩ := Out.bind_ok hr
  split at hr
  · cases hr; rfl
  · obtain ⟨s, hs, hr⟩ := Out.bind_ok hr
    cases hr; exact (opsInertiaInverseAba_same hs).upd _

theorem opsCoriolisAba_same {l : ℤ} {x : Vec3} {e : ℝ} {r : (Fin 6 → ℝ) × Body}
    (hr : b.opsCoriolisAba E l x e = .ok r) : b.Same r.2 := by
  obtain ⟨k, -, hr⟩ := Out.bind_ok hr
  obtain ⟨s, hs, hr⟩ := Out.bind_ok hr
  cases hr
  exact ((touchTw_same.trans touchTp_same).upd _).trans (opsInertiaAba_same hs)

theorem opsGravityAba_same {l : ℤ} {x : Vec3} {f : FExt} {e : ℝ} {r : (Fin 6 → ℝ) × Body}
    (hr : b.opsGravityAba E l x f e = .ok r) : b.Same r.2 := by
  obtain ⟨k, -, hr⟩ := Out.bind_ok hr
  obtain ⟨s, hs, hr⟩ := Out.bind_ok hr
  cases hr
  exact ((touchTw_same.trans touchTp_same).upd _).trans (opsInertiaAba_same hs)

theorem forcedID_same (a : ℕ → ℝ) (f : FExt) (o : IDOpts) : b.Same (b.forcedID a f o) :=
  ((Same.cache b _).trans (inverseDynamics_same a f o)).upd _

theorem velocityDerivative_same (a : ℕ → ℝ) (f : FExt) (o : IDOpts) :
    b.Same (b.velocityDerivative a f o).2 := by
  unfold velocityDerivative
  split
  · rfl
  · exact (forcedID_same a f o).trans (touch_same _ _)

theorem positionDerivative_same {a : ℕ → ℝ} {f : FExt} {o : IDOpts} {r : (ℕ → ℕ → ℝ) × Body}
    (hr : b.positionDerivative a f o = .ok r) : b.Same r.2 := by
  unfold positionDerivative at hr
  split at hr
  · cases hr
  · cases hr; exact ((forcedID_same a f o).trans (touch_same _ _)).upd _

theorem discreteID_same (u : ℕ → ℝ) (dt : ℝ) (f : FExt) (g : Bool) :
    b.Same (b.discreteID E u dt f g).2 := by
  have h1 : b.Same (b.refreshPrev dt) := by unfold refreshPrev; split <;> rfl
  have h2 : ∀ b : Body, b.Same (b.refreshMomentum E dt) := by
    intro b
    unfold refreshMomentum
    split
    · rfl
    · exact (touch_same _ _).upd _
  unfold discreteID
  simp only
  split
  · exact ((((h1.trans (h2 _)).trans (touch_same _ _))).upd _).trans gravity_same
  · exact (((h1.trans (h2 _)).trans (touch_same _ _))).upd _

end Body

open Body in
/-- Every query, in every state, changes the cache only. -/
theorem Query.run_same {E : Ext} {b : Body} (x : Query) {r : Ans × Body}
    (hr : x.run E b = .ok r) : b.Same r.2 := by
  cases x with
  | rigidBody i => obtain ⟨a, -, rfl⟩ := Out.map_ok hr; exact Same.refl b
  | q i => obtain ⟨a, -, rfl⟩ := Out.map_ok hr; exact Same.refl b
  | dq i => obtain ⟨a, -, rfl⟩ := Out.map_ok hr; exact Same.refl b
  | ancestors i => obtain ⟨a, -, rfl⟩ := Out.map_ok hr; exact Same.refl b
  | subtree i => obtain ⟨a, -, rfl⟩ := Out.map_ok hr; exact Same.refl b
  | tToParent i =>
    obtain ⟨a, ha, rfl⟩ := Out.map_ok hr
    obtain ⟨k, -, ha⟩ := Out.bind_ok ha
    cases ha; exact touchTp_same
  | tToWorld i =>
    obtain ⟨a, ha, rfl⟩ := Out.map_ok hr
    obtain ⟨k, -, ha⟩ := Out.bind_ok ha
    cases ha; exact touchTw_same
  | tFromParent i =>
    obtain ⟨a, ha, rfl⟩ := Out.map_ok hr
    obtain ⟨s, hs, ha⟩ := Out.bind_ok ha
    obtain ⟨k, -, hs⟩ := Out.bind_ok hs
    cases ha; cases hs; exact touchTp_same
  | tFromWorld i =>
    obtain ⟨a, ha, rfl⟩ := Out.map_ok hr
    obtain ⟨s, hs, ha⟩ := Out.bind_ok ha
    obtain ⟨k, -, hs⟩ := Out.bind_ok hs
    cases ha; cases hs; exact touchTw_same
  | position i x =>
    obtain ⟨a, ha, rfl⟩ := Out.map_ok hr
    obtain ⟨k, -, ha⟩ := Out.bind_ok ha
    cases ha; exact touchTw_same
  | positionQ q i x => obtain ⟨a, -, rfl⟩ := Out.map_ok hr; exact Same.refl b
  | orientation i =>
    obtain ⟨a, ha, rfl⟩ := Out.map_ok hr
    obtain ⟨k, -, ha⟩ := Out.bind_ok ha
    cases ha; exact touchTw_same
  | orientationQ q i => obtain ⟨a, -, rfl⟩ := Out.map_ok hr; exact Same.refl b
  | cartesianPose i x =>
    obtain ⟨a, ha, rfl⟩ := Out.map_ok hr
    obtain ⟨k, -, ha⟩ := Out.bind_ok ha
    cases ha; exact touchTw_same
  | jacobian i x => obtain ⟨a, ha, rfl⟩ := Out.map_ok hr; exact jacobian_same ha
  | jacobianQ q i x => obtain ⟨a, -, rfl⟩ := Out.map_ok hr; exact Same.refl b
  | linearJacobian i x =>
    obtain ⟨a, ha, rfl⟩ := Out.map_ok hr
    obtain ⟨s, hs, ha⟩ := Out.bind_ok ha
    cases ha; exact jacobian_same hs
  | angularJacobian i =>
    obtain ⟨a, ha, rfl⟩ := Out.map_ok hr
    obtain ⟨s, hs, ha⟩ := Out.bind_ok ha
    cases ha; exact jacobian_same hs
  | hessian i x => obtain ⟨a, ha, rfl⟩ := Out.map_ok hr; exact hessian_same ha
  | inverseDynamics a f o => cases hr; exact inverseDynamics_same a f o
  | centrifugalCoriolis => cases hr; exact centrifugalCoriolis_same
  | gravity => cases hr; exact gravity_same
  | externalTorques f => cases hr; exact externalTorques_same f
  | friction t c e => cases hr; exact Same.refl b
  | inertia => cases hr; exact inertia_same
  | compositeInertia i =>
    obtain ⟨a, ha, rfl⟩ := Out.map_ok hr
    obtain ⟨k, -, ha⟩ := Out.bind_ok ha
    cases ha; exact inertia_same
  | inertiaInverse => cases hr; exact inertiaInverse_same
  | forwardDynamics t f o => cases hr; exact fd_same (E := E) t f o
  | forwardDynamicsAba t f o => cases hr; exact forwardDynamicsAba_same t f o
  | inertiaInverseAba => cases hr; exact inertiaInverseAba_same
  | opsInertia J e => obtain ⟨a, ha, rfl⟩ := Out.map_ok hr; exact opsInertia_same ha
  | opsInertiaInverse J => obtain ⟨a, ha, rfl⟩ := Out.map_ok hr; exact opsInertiaInverse_same ha
  | opsIsSingular J e => obtain ⟨a, ha, rfl⟩ := Out.map_ok hr; exact opsIsSingular_same ha
  | opsJbar J e => obtain ⟨a, ha, rfl⟩ := Out.map_ok hr; exact opsJbar_same ha
  | opsCoriolis J l e => obtain ⟨a, ha, rfl⟩ := Out.map_ok hr; exact opsCoriolis_same ha
  | opsGravity J e => obtain ⟨a, ha, rfl⟩ := Out.map_ok hr; exact opsGravity_same ha
  | opsExternal J f e => obtain ⟨a, ha, rfl⟩ := Out.map_ok hr; exact opsExternal_same ha
  | opsFriction J t e s => obtain ⟨a, ha, rfl⟩ := Out.map_ok hr; exact opsFriction_same ha
  | opsInverseDynamics J x N f sf o =>
    obtain ⟨a, ha, rfl⟩ := Out.map_ok hr; exact opsInverseDynamics_same ha
  | opsInertiaInverseAba l x =>
    obtain ⟨a, ha, rfl⟩ := Out.map_ok hr; exact opsInertiaInverseAba_same ha
  | opsInertiaAba l x e => obtain ⟨a, ha, rfl⟩ := Out.map_ok hr; exact opsInertiaAba_same ha
  | opsCoriolisAba l x e => obtain ⟨a, ha, rfl⟩ := Out.map_ok hr; exact opsCoriolisAba_same ha
  | opsGravityAba l x f e => obtain ⟨a, ha, rfl⟩ := Out.map_ok hr; exact opsGravityAba_same ha
  | velocityDerivative a f o => cases hr; exact velocityDerivative_same a f o
  | positionDerivative a f o =>
    obtain ⟨a, ha, rfl⟩ := Out.map_ok hr; exact positionDerivative_same ha
  | discreteInverseDynamics u dt f g => cases hr; exact discreteID_same u dt f g

/-! ## What a call may change -/

namespace Body

/-- Only the state (`q`, `dq`) and the cache differ, and the sizes agree. -/
structure StateOnly (b b' : Body) : Prop where
  rbs : b'.rbs = b.rbs
  g : b'.g = b.g
  load : b'.load = b.load
  T0 : b'.T0 = b.T0
  inertiaBase : b'.inertiaBase = b.inertiaBase
  anc : b'.anc = b.anc
  sub : b'.sub = b.sub
  lq : b'.q.length = b.q.length
  ldq : b'.dq.length = b.dq.length

variable {b : Body} {E : Ext}

theorem StateOnly.trans {b1 b2 b3 : Body} (h : StateOnly b1 b2) (k : StateOnly b2 b3) :
    StateOnly b1 b3 :=
  ⟨k.rbs.trans h.rbs, k.g.trans h.g, k.load.trans h.load, k.T0.trans h.T0,
    k.inertiaBase.trans h.inertiaBase, k.anc.trans h.anc, k.sub.trans h.sub, k.lq.trans h.lq,
    k.ldq.trans h.ldq⟩

theorem Same.stateOnly {b b' : Body} (h : b.Same b') : StateOnly b b' := by
  unfold Same at h
  constructor <;> rw [h]

theorem setQ_stateOnly {q : List ℝ} {b' : Body} (hl : b.q.length = b.dof)
    (hs : b.setQ q = .ok b') : StateOnly b b' := by
  unfold setQ at hs
  split at hs
  · cases hs
  · next h =>
    split at hs
    · cases hs; exact (Same.refl b).stateOnly
    · cases hs; exact ⟨rfl, rfl, rfl, rfl, rfl, rfl, rfl, (not_not.1 h).trans hl.symm, rfl⟩

theorem setDq_stateOnly {q : List ℝ} {b' : Body} (hl : b.dq.length = b.dof)
    (hs : b.setDq q = .ok b') : StateOnly b b' := by
  unfold setDq at hs
  split at hs
  · cases hs
  · next h =>
    split at hs
    · cases hs; exact (Same.refl b).stateOnly
    · cases hs; exact ⟨rfl, rfl, rfl, rfl, rfl, rfl, rfl, rfl, (not_not.1 h).trans hl.symm⟩

theorem StateOnly.tree {b b' : Body} (h : StateOnly b b') (ht : b.Tree) : b'.Tree := by
  have hr : b'.rb = b.rb := by unfold Body.rb; rw [h.rbs]
  have hd : b'.dof = b.dof := by unfold Body.dof; rw [h.rbs]
  have hp : b'.par = b.par := by unfold Body.par; rw [hr]
  constructor
  · rw [h.lq, ht.lq, hd]
  · rw [h.ldq, ht.ldq, hd]
  · rw [h.anc, ht.lanc, hd]
  · rw [h.sub, ht.lsub, hd]
  · rw [hd, hr]; exact ht.ids
  · rw [hd, hp, h.anc]; exact ht.anc_mem
  · rw [hd, h.anc]; exact ht.anc_sorted
  · rw [hd, hp, h.sub]; exact ht.sub_mem
  · rw [hd, h.sub]; exact ht.sub_sorted

theorem accel_same (tau : ℕ → ℝ) (fext : FExt) (o : IntOpts) : b.Same (b.accel E tau fext o).2 := by
  unfold accel
  split
  · exact forwardDynamicsAba_same _ _ _
  · exact fd_same _ _ _

theorem setState_stateOnly (ht : b.Tree) {lim : Bool} {q dq : ℕ → ℝ} {b' : Body}
    (hs : b.setState lim q dq = .ok b') : StateOnly b b' := by
  obtain ⟨b1, h1, hs⟩ := Out.bind_ok hs
  have k := setQ_stateOnly ht.lq h1
  exact k.trans (setDq_stateOnly (k.tree ht).ldq hs)

theorem integrate_stateOnly (ht : b.Tree) {tau : ℕ → ℝ} {dt : ℝ} {fext : FExt} {o : IntOpts}
    {b' : Body} (hs : b.integrate E tau dt fext o = .ok b') : StateOnly b b' := by
  unfold integrate integrateWith at hs
  have h0 := (accel_same (b := b) (E := E) tau fext o).stateOnly
  have i0 := h0.tree ht
  have nx : ∀ {b1 : Body}, b1.Tree → StateOnly b1 (b1.accel E tau fext o).2 ∧
      (b1.accel E tau fext o).2.Tree := fun h =>
    ⟨(accel_same tau fext o).stateOnly, (accel_same tau fext o).stateOnly.tree h⟩
  simp only at hs
  split at hs
  · exact h0.trans (setState_stateOnly i0 hs)
  · obtain ⟨b1, h1, hs⟩ := Out.bind_ok hs
    have k1 := setState_stateOnly i0 h1
    obtain ⟨n1, m1⟩ := nx (k1.tree i0)
    exact ((h0.trans k1).trans n1).trans (setState_stateOnly m1 hs)
  · obtain ⟨b1, h1, hs⟩ := Out.bind_ok hs
    have k1 := setState_stateOnly i0 h1
    obtain ⟨n1, m1⟩ := nx (k1.tree i0)
    obtain ⟨b2, h2, hs⟩ := Out.bind_ok hs
    have k2 := setState_stateOnly m1 h2
    obtain ⟨n2, m2⟩ := nx (k2.tree m1)
    obtain ⟨b3, h3, hs⟩ := Out.bind_ok hs
    have k3 := setState_stateOnly m2 h3
    obtain ⟨n3, m3⟩ := nx (k3.tree m2)
    exact ((((((h0.trans k1).trans n1).trans k2).trans n2).trans k3).trans n3).trans
      (setState_stateOnly m3 hs)

theorem discreteLoop_same (tau : ℕ → ℝ) (dt : ℝ) (fext : FExt) (o : DIntOpts) (k : ℕ)
    (s : (ℕ → ℝ) × Body) : s.2.Same (discreteLoop E tau dt fext o k s).2 := by
  induction k generalizing s with
  | zero => rfl
  | succ k ih =>
    unfold discreteLoop
    simp only
    split
    · exact discreteID_same _ _ _ _
    · exact ((discreteID_same _ _ _ _).trans inertiaInverse_same).trans (ih _)

theorem discreteIntegrate_stateOnly (ht : b.Tree) {tau : ℕ → ℝ} {dt : ℝ} {fext : FExt}
    {o : DIntOpts} {b' : Body} (hs : b.discreteIntegrate E tau dt fext o = .ok b') :
    StateOnly b b' := by
  unfold discreteIntegrate at hs
  obtain ⟨b1, h1, hs⟩ := Out.bind_ok hs
  obtain ⟨b2, h2, hs⟩ := Out.bind_ok hs
  cases hs
  have k0 := (fd_same (b := b) (E := E) tau fext ⟨o.gravity, true, false, 0.01⟩).stateOnly
  have k1 := fun u => k0.trans (discreteLoop_same (E := E) tau dt fext o o.maxIter (u, _)).stateOnly
  have k2 := (k1 _).trans (setQ_stateOnly ((k1 _).tree ht).lq h1)
  have k3 := k2.trans (setDq_stateOnly (k2.tree ht).ldq h2)
  exact k3.trans (Same.cache b2 _).stateOnly

end Body

open Body

/-- Every call, allowed or not, keeps the tree well formed. -/
theorem Op.step_tree {E : Ext} {b b' : Body} {op : Op} (h : b.Tree) (hs : op.step E b = .ok b') :
    b'.Tree := by
  cases op with
  | addRigidBody rb p =>
    obtain ⟨⟨id, b1⟩, h1, rfl⟩ := Out.map_ok hs
    exact h.addRigidBody h1
  | setQ q => exact (setQ_stateOnly h.lq hs).tree h
  | setDq dq => exact (setDq_stateOnly h.ldq hs).tree h
  | setG g =>
    cases hs
    exact ⟨h.lq, h.ldq, h.lanc, h.lsub, h.ids, h.anc_mem, h.anc_sorted, h.sub_mem, h.sub_sorted⟩
  | addLoad I i =>
    cases hs
    exact ⟨h.lq, h.ldq, h.lanc, h.lsub, h.ids, h.anc_mem, h.anc_sorted, h.sub_mem, h.sub_sorted⟩
  | replaceLoad I i =>
    cases hs
    exact ⟨h.lq, h.ldq, h.lanc, h.lsub, h.ids, h.anc_mem, h.anc_sorted, h.sub_mem, h.sub_sorted⟩
  | clearLoad i =>
    cases hs
    exact ⟨h.lq, h.ldq, h.lanc, h.lsub, h.ids, h.anc_mem, h.anc_sorted, h.sub_mem, h.sub_sorted⟩
  | setBase T =>
    cases hs
    exact ⟨h.lq, h.ldq, h.lanc, h.lsub, h.ids, h.anc_mem, h.anc_sorted, h.sub_mem, h.sub_sorted⟩
  | setInertiaBase I =>
    change b.setInertiaBase I = .ok b' at hs
    unfold Body.setInertiaBase at hs
    split at hs
    · cases hs
    · cases hs
      exact ⟨h.lq, h.ldq, h.lanc, h.lsub, h.ids, h.anc_mem, h.anc_sorted, h.sub_mem, h.sub_sorted⟩
  | query x =>
    obtain ⟨r, hr, rfl⟩ := Out.map_ok hs
    exact (x.run_same hr).stateOnly.tree h
  | integrate t dt f o => exact (integrate_stateOnly h hs).tree h
  | discreteIntegrate t dt f o => exact (discreteIntegrate_stateOnly h hs).tree h

theorem execAll_tree {E : Ext} (h : List Op) {b b' : Body} (ht : b.Tree)
    (hs : execAll E b h = some b') : b'.Tree := by
  induction h generalizing b with
  | nil => cases hs; exact ht
  | cons op l ih =>
    unfold execAll at hs
    obtain ⟨b1, h1, h2⟩ := Option.bind_eq_some_iff.1 hs
    rcases Out.exec_cases h1 with h3 | ⟨-, rfl⟩
    · exact ih (Op.step_tree ht h3) h2
    · exact ih ht h2

end SpatialDyn
