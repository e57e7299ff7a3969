import Verif.Spec.Opspace
import Verif.Lemmas.Reach

/-! Which tolerance the cached dynamically consistent inverse belongs to. -/

namespace SpatialDyn
namespace Body
variable {b b' : Body} {E : Ext} {T : Set ℝ}

/-- The cached inverse was computed with a tolerance of `T`. -/
def TolC (E : Ext) (T : Set ℝ) (o : OpsCache) : Prop :=
  o.jbarDone = true → ∃ e ∈ T, o.Jbar = o.AinvJT.mul (E.pinvOf o.LambdaInv e).1

theorem touchTw_ops : b.touchTw.c.ops = b.c.ops := by unfold touchTw; split <;> rfl

theorem touchTp_ops : b.touchTp.c.ops = b.c.ops := rfl

theorem touch_ops (x y : Bool) : (b.touch x y).c.ops = b.c.ops := by
  unfold touch
  cases x <;> cases y
  · rfl
  · exact touchTw_ops
  · rfl
  · exact touchTw_ops

theorem jacobian_ops {l : ℤ} {x : Vec3} {r : (ℕ → Motion) × Body}
    (hr : b.jacobian l x = .ok r) : r.2.c.ops = b.c.ops := by
  obtain ⟨k, -, hr⟩ := Out.bind_ok hr
  split at hr
  · cases hr; rfl
  · cases hr; exact touchTw_ops

theorem hessian_ops {l : ℤ} {x : Vec3} {r : (ℕ → ℕ → Motion) × Body}
    (hr : b.hessian l x = .ok r) : r.2.c.ops = b.c.ops := by
  obtain ⟨k, -, hr⟩ := Out.bind_ok hr
  obtain ⟨s, hs, hr⟩ := Out.bind_ok hr
  cases hr
  exact touchTw_ops.trans (jacobian_ops hs)

theorem externalTorques_ops (f : FExt) : (b.externalTorques f).2.c.ops = b.c.ops :=
  touch_ops (b := b) _ _

theorem inverseDynamics_ops (a : ℕ → ℝ) (f : FExt) (o : IDOpts) :
    (b.inverseDynamics a f o).2.c.ops = b.c.ops := by
  unfold inverseDynamics
  split
  · exact externalTorques_ops f
  · exact touch_ops (b := b) _ _

theorem centrifugalCoriolis_ops : b.centrifugalCoriolis.2.c.ops = b.c.ops := by
  unfold centrifugalCoriolis
  split
  · rfl
  · exact touch_ops (b := b) _ _

theorem gravity_ops : b.gravity.2.c.ops = b.c.ops := by
  unfold gravity
  split
  · rfl
  · exact touch_ops (b := b) _ _

theorem inertia_ops : b.inertia.2.c.ops = b.c.ops := by
  unfold inertia
  split
  · rfl
  · exact touch_ops (b := b) _ _

theorem inertiaInverse_ops : b.inertiaInverse.2.c.ops = b.c.ops := by
  unfold inertiaInverse
  split
  · rfl
  · exact inertia_ops

theorem fd_ops (t : ℕ → ℝ) (f : FExt) (o : FDOpts) : (b.fd E t f o).2.c.ops = b.c.ops :=
  inertiaInverse_ops.trans (inverseDynamics_ops _ _ _)

theorem forwardDynamicsAba_ops (t : ℕ → ℝ) (f : FExt) (o : FDOpts) :
    (b.forwardDynamicsAba t f o).2.c.ops = b.c.ops := touch_ops (b := b) _ _

theorem inertiaInverseAba_ops : b.inertiaInverseAba.2.c.ops = b.c.ops := by
  unfold inertiaInverseAba
  split
  · rfl
  · exact touch_ops (b := b) _ _

theorem opsInvAbaCompute_ops (k : ℕ) (x : Vec3) :
    (b.opsInvAbaCompute k x).2.c.ops = b.c.ops := touchTw_ops

theorem opsInertiaInverseAba_ops {l : ℤ} {x : Vec3} {r : Matrix (Fin 6) (Fin 6) ℝ × Body}
    (hr : b.opsInertiaInverseAba l x = .ok r) : r.2.c.ops = b.c.ops := by
  obtain ⟨k, -, hr⟩ := Out.bind_ok hr
  split at hr
  · cases hr; rfl
  · cases hr; exact opsInvAbaCompute_ops _ _

theorem opsInertiaAba_ops {l : ℤ} {x : Vec3} {e : ℝ} {r : Matrix (Fin 6) (Fin 6) ℝ × Body}
    (hr : b.opsInertiaAba E l x e = .ok r) : r.2.c.ops = b.c.ops := by
  obtain ⟨k, -, hr⟩ := Out.bind_ok hr
  split at hr
  · cases hr; rfl
  · obtain ⟨s, hs, hr⟩ := Out.bind_ok hr
    cases hr
    have := opsInertiaInverseAba_ops hs
    exact this

theorem opsCoriolisAba_ops {l : ℤ} {x : Vec3} {e : ℝ} {r : (Fin 6 → ℝ) × Body}
    (hr : b.opsCoriolisAba E l x e = .ok r) : r.2.c.ops = b.c.ops := by
  obtain ⟨k, -, hr⟩ := Out.bind_ok hr
  obtain ⟨s, hs, hr⟩ := Out.bind_ok hr
  cases hr
  exact (opsInertiaAba_ops hs).trans touchTw_ops

theorem opsGravityAba_ops {l : ℤ} {x : Vec3} {f : FExt} {e : ℝ} {r : (Fin 6 → ℝ) × Body}
    (hr : b.opsGravityAba E l x f e = .ok r) : r.2.c.ops = b.c.ops := by
  obtain ⟨k, -, hr⟩ := Out.bind_ok hr
  obtain ⟨s, hs, hr⟩ := Out.bind_ok hr
  cases hr
  exact (opsInertiaAba_ops hs).trans touchTw_ops

theorem forcedID_ops (a : ℕ → ℝ) (f : FExt) (o : IDOpts) :
    (b.forcedID a f o).c.ops = b.c.ops := by
  unfold forcedID
  exact inverseDynamics_ops (b := { b with c := { b.c with crbaDone := false } }) a f o

theorem velocityDerivative_ops (a : ℕ → ℝ) (f : FExt) (o : IDOpts) :
    (b.velocityDerivative a f o).2.c.ops = b.c.ops := by
  unfold velocityDerivative
  split
  · rfl
  · exact (touch_ops _ _).trans (forcedID_ops a f o)

theorem positionDerivative_ops {a : ℕ → ℝ} {f : FExt} {o : IDOpts} {r : (ℕ → ℕ → ℝ) × Body}
    (hr : b.positionDerivative a f o = .ok r) : r.2.c.ops = b.c.ops := by
  unfold positionDerivative at hr
  split at hr
  · cases hr
  · cases hr
    exact (touch_ops (b := b.forcedID a f o) _ _).trans (forcedID_ops a f o)

theorem refreshPrev_ops (dt : ℝ) : (b.refreshPrev dt).c.ops = b.c.ops := by
  unfold refreshPrev; split <;> rfl

theorem refreshMomentum_ops (dt : ℝ) : (b.refreshMomentum E dt).c.ops = b.c.ops := by
  unfold refreshMomentum
  split
  · rfl
  · exact touch_ops (b := b) _ _

theorem discreteID_ops (u : ℕ → ℝ) (dt : ℝ) (f : FExt) (g : Bool) :
    (b.discreteID E u dt f g).2.c.ops = b.c.ops := by
  unfold discreteID
  have h1 : ((b.refreshPrev dt).refreshMomentum E dt).c.ops = b.c.ops :=
    (refreshMomentum_ops dt).trans (refreshPrev_ops dt)
  simp only
  set b1 := (b.refreshPrev dt).refreshMomentum E dt
  have h2 := (touch_ops (b := b1) (decide (0 < b1.dof)) (b1.hasExt f)).trans h1
  split
  · exact gravity_ops.trans h2
  · exact h2

theorem discreteLoop_ops (t : ℕ → ℝ) (dt : ℝ) (f : FExt) (o : DIntOpts) (n : ℕ)
    (s : (ℕ → ℝ) × Body) : (discreteLoop E t dt f o n s).2.c.ops = s.2.c.ops := by
  induction n generalizing s with
  | zero => rfl
  | succ n ih =>
    simp only [discreteLoop]
    split
    · exact discreteID_ops _ _ _ _
    · exact (ih _).trans (inertiaInverse_ops.trans (discreteID_ops _ _ _ _))

/-- The operational-space entry is untouched, or marked invalid. -/
def Keeps (b b' : Body) : Prop := b'.c.ops = b.c.ops ∨ b'.c.ops.jbarDone = false

theorem Keeps.trans {b'' : Body} (h : b.Keeps b') (h' : b'.Keeps b'') : b.Keeps b'' := by
  rcases h' with h' | h'
  · rcases h with h | h
    · exact .inl (h'.trans h)
    · exact .inr (by rw [h']; exact h)
  · exact .inr h'

theorem Keeps.tol (h : b.Keeps b') (ht : TolC E T b.c.ops) : TolC E T b'.c.ops := by
  rcases h with h | h
  · rw [h]; exact ht
  · intro x; rw [h] at x; cases x

theorem setQ_keeps {q : List ℝ} (hr : b.setQ q = .ok b') : b.Keeps b' := by
  unfold setQ at hr
  split at hr
  · cases hr
  · split at hr
    · cases hr; exact .inl rfl
    · cases hr; exact .inr rfl

theorem setDq_keeps {q : List ℝ} (hr : b.setDq q = .ok b') : b.Keeps b' := by
  unfold setDq at hr
  split at hr
  · cases hr
  · split at hr
    · cases hr; exact .inl rfl
    · cases hr; exact .inl rfl

theorem accel_keeps (t : ℕ → ℝ) (f : FExt) (o : IntOpts) : b.Keeps (b.accel E t f o).2 := by
  unfold accel
  split
  · exact .inl (forwardDynamicsAba_ops _ _ _)
  · exact .inl (fd_ops _ _ _)

theorem setState_keeps {lim : Bool} {q dq : ℕ → ℝ} (hr : b.setState lim q dq = .ok b') :
    b.Keeps b' := by
  obtain ⟨b1, h1, hr⟩ := Out.bind_ok hr
  exact (setQ_keeps h1).trans (setDq_keeps hr)

theorem integrate_keeps {t : ℕ → ℝ} {dt : ℝ} {f : FExt} {o : IntOpts}
    (hr : b.integrate E t dt f o = .ok b') : b.Keeps b' := by
  unfold integrate integrateWith at hr
  cases hm : o.method with
  | euler =>
    rw [hm] at hr
    exact (accel_keeps t f o).trans (setState_keeps hr)
  | heuns =>
    rw [hm] at hr
    obtain ⟨b1, h1, hr⟩ := Out.bind_ok hr
    exact (((accel_keeps t f o).trans (setState_keeps h1)).trans (accel_keeps t f o)).trans
      (setState_keeps hr)
  | rk4 =>
    rw [hm] at hr
    obtain ⟨b1, h1, hr⟩ := Out.bind_ok hr
    obtain ⟨b2, h2, hr⟩ := Out.bind_ok hr
    obtain ⟨b3, h3, hr⟩ := Out.bind_ok hr
    exact (((((((accel_keeps t f o).trans (setState_keeps h1)).trans (accel_keeps t f o)).trans
      (setState_keeps h2)).trans (accel_keeps t f o)).trans (setState_keeps h3)).trans
      (accel_keeps t f o)).trans (setState_keeps hr)

theorem discreteIntegrate_keeps {t : ℕ → ℝ} {dt : ℝ} {f : FExt} {o : DIntOpts}
    (hr : b.discreteIntegrate E t dt f o = .ok b') : b.Keeps b' := by
  obtain ⟨b1, h1, hr⟩ := Out.bind_ok hr
  obtain ⟨b2, h2, hr⟩ := Out.bind_ok hr
  cases hr
  have h0 := discreteLoop_ops (E := E) t dt f o o.maxIter
    (fun i => b.qFun i + dt * b.dqFun i +
      dt * dt * (b.fd E t f ⟨o.gravity, true, false, 0.01⟩).1 i,
      (b.fd E t f ⟨o.gravity, true, false, 0.01⟩).2)
  exact (Keeps.trans (.inl (h0.trans (fd_ops (E := E) t _ _))) (setQ_keeps h1)).trans
    ((setDq_keeps h2).trans (.inl rfl))

/-! ### Operational-space calls -/

theorem opsInvCompute_tol {J : DMat} {r : DMat × Body} (hr : b.opsInvCompute E J = .ok r) :
    r.2.c.ops.jbarDone = false := by
  unfold opsInvCompute at hr
  split at hr
  · cases hr
  · cases hr; rfl

theorem opsInertiaInverse_keeps {J : DMat} {r : DMat × Body}
    (hr : b.opsInertiaInverse E J = .ok r) : b.Keeps r.2 := by
  unfold opsInertiaInverse at hr
  split at hr
  · exact .inr (opsInvCompute_tol hr)
  · obtain ⟨s, -, hr⟩ := Out.bind_ok hr
    cases s with
    | true => cases hr; exact .inl rfl
    | false => exact .inr (opsInvCompute_tol hr)

theorem opsLambdaCompute_tol (ht : TolC E T b.c.ops) {J : DMat} {e : ℝ} {r : DMat × Body}
    (hr : b.opsLambdaCompute E J e = .ok r) : TolC E T r.2.c.ops := by
  obtain ⟨s, hs, hr⟩ := Out.bind_ok hr
  cases hr
  exact (opsInertiaInverse_keeps hs).tol ht

theorem opsInertia_tol (ht : TolC E T b.c.ops) {J : DMat} {e : ℝ} {r : DMat × Body}
    (hr : b.opsInertia E J e = .ok r) : TolC E T r.2.c.ops := by
  unfold opsInertia at hr
  split at hr
  · exact opsLambdaCompute_tol ht hr
  · obtain ⟨s, -, hr⟩ := Out.bind_ok hr
    split at hr
    · cases hr; exact ht
    · exact opsLambdaCompute_tol ht hr

theorem opsIsSingular_tol (ht : TolC E T b.c.ops) {J : DMat} {e : ℝ} {r : Bool × Body}
    (hr : b.opsIsSingular E J e = .ok r) : TolC E T r.2.c.ops := by
  obtain ⟨s, hs, hr⟩ := Out.bind_ok hr
  cases hr
  exact opsInertia_tol ht hs

theorem opsJbar_tol (h : Inv E b) (ht : TolC E T b.c.ops) {J : DMat} {e : ℝ} (he : e ∈ T)
    {r : DMat × Body} (hr : b.opsJbar E J e = .ok r) : TolC E T r.2.c.ops := by
  have hc : ∀ {r : DMat × Body}, b.opsJbarCompute E J e = .ok r → TolC E T r.2.c.ops := by
    intro r hr _
    obtain ⟨-, -, -, h4, h5⟩ := opsJbarCompute_run h hr
    exact ⟨e, he, h4 ▸ h5⟩
  unfold opsJbar at hr
  split at hr
  · exact hc hr
  · obtain ⟨s, -, hr⟩ := Out.bind_ok hr
    split at hr
    · cases hr; exact ht
    · exact hc hr

theorem opsCoriolis_tol (h : Inv E b) (ht : TolC E T b.c.ops) {J : DMat} {l : ℤ} {e : ℝ}
    (he : e ∈ T) {r : (ℕ → ℝ) × Body} (hr : b.opsCoriolis E J l e = .ok r) :
    TolC E T r.2.c.ops := by
  unfold opsCoriolis at hr
  split at hr
  · cases hr
  · obtain ⟨s, hs, hr⟩ := Out.bind_ok hr
    have h1 := opsJbar_tol h ht he hs
    obtain ⟨t, h2, hr⟩ := Out.bind_ok hr
    obtain ⟨k, -, hr⟩ := Out.bind_ok hr
    cases hr
    simp only
    rw [touchTw_ops]
    exact opsInertia_tol (by rw [centrifugalCoriolis_ops]; exact h1) h2

theorem opsGravity_tol (h : Inv E b) (ht : TolC E T b.c.ops) {J : DMat} {e : ℝ}
    (he : e ∈ T) {r : (ℕ → ℝ) × Body} (hr : b.opsGravity E J e = .ok r) :
    TolC E T r.2.c.ops := by
  obtain ⟨s, hs, hr⟩ := Out.bind_ok hr
  cases hr
  simp only
  rw [gravity_ops]
  exact opsJbar_tol h ht he hs

theorem opsExternal_tol (h : Inv E b) (ht : TolC E T b.c.ops) {J : DMat} {f : FExt} {e : ℝ}
    (he : e ∈ T) {r : (ℕ → ℝ) × Body} (hr : b.opsExternal E J f e = .ok r) :
    TolC E T r.2.c.ops := by
  obtain ⟨s, hs, hr⟩ := Out.bind_ok hr
  cases hr
  simp only
  rw [externalTorques_ops]
  exact opsJbar_tol h ht he hs

theorem opsFriction_tol (h : Inv E b) (ht : TolC E T b.c.ops) {J : DMat} {tau : ℕ → ℝ} {e s : ℝ}
    (he : e ∈ T) {r : (ℕ → ℝ) × Body} (hr : b.opsFriction E J tau e s = .ok r) :
    TolC E T r.2.c.ops := by
  obtain ⟨s, hs, hr⟩ := Out.bind_ok hr
  cases hr
  exact opsJbar_tol h ht he hs

theorem opsAdd_tol {flag : Bool} {s : (ℕ → ℝ) × Body}
    {term : Body → (ℕ → ℝ) → Out ((ℕ → ℝ) × Body)} (ht : TolC E T s.2.c.ops)
    (hc : flag = true → ∀ r, term s.2 s.1 = .ok r → TolC E T r.2.c.ops) {r : (ℕ → ℝ) × Body}
    (hr : opsAdd flag s term = .ok r) : TolC E T r.2.c.ops := by
  unfold opsAdd at hr
  split at hr
  · next hf =>
    obtain ⟨t, htt, hr⟩ := Out.bind_ok hr
    cases hr
    exact hc hf t htt
  · cases hr; exact ht

theorem opsNull_tol (h : Inv E b) (ht : TolC E T b.c.ops) {Jx : DMat} {N : Option DMat} {e : ℝ}
    (he : e ∈ T) {r : Option DMat × Body} (hr : b.opsNull E Jx N e = .ok r) :
    TolC E T r.2.c.ops := by
  unfold opsNull at hr
  cases N with
  | none => cases hr; exact ht
  | some M =>
    obtain ⟨s, hs, hr⟩ := Out.bind_ok hr
    obtain ⟨-, -, hr⟩ := Out.bind_ok hr
    cases hr
    exact opsJbar_tol h ht he hs

/-- The intermediate results of `opspace::InverseDynamics`. -/
theorem opsInverseDynamics_parts (h : Inv E b) {J : DMat} {ddx : ℕ → ℝ} {N : Option DMat}
    {fext : FExt} {se : Bool} {o : OpsOpts} {r : (ℕ → ℝ) × Option DMat × Body}
    (hr : b.opsInverseDynamics E J ddx N fext se o = .ok r) :
    ∃ (l : DMat × Body) (s1 s2 s3 s4 : (ℕ → ℝ) × Body),
      b.opsInertia E (opsJx J N) o.svdEps = .ok l ∧
      opsAdd se (clipForce (opsJx J N).rows o.fAccMax (l.1.mulVec ddx), l.2)
        (fun b _ => b.opsExternal E (opsJx J N) fext o.svdEps) = .ok s1 ∧
      opsAdd o.gravity s1 (fun b _ => b.opsGravity E (opsJx J N) o.svdEps) = .ok s2 ∧
      opsAdd o.cc s2 (fun b _ => b.opsCoriolis E (opsJx J N) (truncInt o.svdEps) 0) = .ok s3 ∧
      opsAdd o.friction s3 (fun b F => b.opsFriction E (opsJx J N)
        ((opsJx J N).tr.mulVec F) o.svdEps o.stictionEps) = .ok s4 ∧
      s4.2.opsNull E (opsJx J N) N o.svdEps = .ok r.2 ∧
      r.1 = (opsJx J N).tr.mulVec s4.1 ∧
      Step E b l.2 ∧ Step E b s1.2 ∧ Step E b s2.2 ∧ Step E b s3.2 ∧ Step E b s4.2 ∧
      Step E b r.2.2 := by
  unfold opsInverseDynamics at hr
  obtain ⟨-, -, hr⟩ := Out.bind_ok hr
  obtain ⟨l, hl, hr⟩ := Out.bind_ok hr
  have h1 := (opsInertia_run h hl).1
  have i1 := h.step h1
  obtain ⟨s1, hs1, hr⟩ := Out.bind_ok hr
  have h2 := opsAdd_step i1 (fun r hr => opsExternal_step i1 hr) hs1
  have i2 := i1.step h2
  obtain ⟨s2, hs2, hr⟩ := Out.bind_ok hr
  have h3 := opsAdd_step i2 (fun r hr => opsGravity_step i2 hr) hs2
  have i3 := i2.step h3
  obtain ⟨s3, hs3, hr⟩ := Out.bind_ok hr
  have h4 := opsAdd_step i3 (fun r hr => opsCoriolis_step i3 hr) hs3
  have i4 := i3.step h4
  obtain ⟨s4, hs4, hr⟩ := Out.bind_ok hr
  have h5 := opsAdd_step i4 (fun r hr => opsFriction_step i4 hr) hs4
  have i5 := i4.step h5
  obtain ⟨s5, hs5, hr⟩ := Out.bind_ok hr
  have h6 := opsNull_step i5 hs5
  cases hr
  exact ⟨l, s1, s2, s3, s4, hl, hs1, hs2, hs3, hs4, hs5, rfl, h1, h1.trans h2,
    (h1.trans h2).trans h3, ((h1.trans h2).trans h3).trans h4,
    (((h1.trans h2).trans h3).trans h4).trans h5,
    ((((h1.trans h2).trans h3).trans h4).trans h5).trans h6⟩

theorem opsInverseDynamics_tol (h : Inv E b) (ht : TolC E T b.c.ops) {J : DMat} {ddx : ℕ → ℝ}
    {N : Option DMat} {fext : FExt} {se : Bool} {o : OpsOpts} (he : o.svdEps ∈ T)
    (h0 : o.cc = true → (0 : ℝ) ∈ T) {r : (ℕ → ℝ) × Option DMat × Body}
    (hr : b.opsInverseDynamics E J ddx N fext se o = .ok r) : TolC E T r.2.2.c.ops := by
  obtain ⟨l, s1, s2, s3, s4, hl, hs1, hs2, hs3, hs4, hN, -, k0, k1, k2, k3, k4, -⟩ :=
    opsInverseDynamics_parts h hr
  have t0 := opsInertia_tol ht hl
  have t1 := opsAdd_tol t0 (fun _ r hr => opsExternal_tol (h.step k0) t0 he hr) hs1
  have t2 := opsAdd_tol t1 (fun _ r hr => opsGravity_tol (h.step k1) t1 he hr) hs2
  have t3 := opsAdd_tol t2 (fun hc r hr => opsCoriolis_tol (h.step k2) t2 (h0 hc) hr) hs3
  have t4 := opsAdd_tol t3 (fun _ r hr => opsFriction_tol (h.step k3) t3 he hr) hs4
  exact opsNull_tol (h.step k4) t4 he hN

end Body

open Body in
/-- Every allowed call with tolerances of `T` keeps the tolerance of the cached inverse in `T`. -/
theorem Op.step_tol {E : Ext} {T : Set ℝ} {b b' : Body} (h : Inv E b) (ht : TolC E T b.c.ops)
    (op : Op) (hT : op.Tol T) (hr : op.step E b = .ok b') : TolC E T b'.c.ops := by
  cases op with
  | addRigidBody rb p =>
    obtain ⟨a, ha, rfl⟩ := Out.map_ok hr
    unfold Body.addRigidBody at ha
    simp only at ha
    split at ha
    · cases ha
    · cases ha; intro x; cases x
  | setQ q => exact (setQ_keeps hr).tol ht
  | setDq q => exact (setDq_keeps hr).tol ht
  | setG g => cases hr; exact ht
  | addLoad L i => cases hr; intro x; cases x
  | replaceLoad L i => cases hr; intro x; cases x
  | clearLoad i => cases hr; intro x; cases x
  | setBase T => cases hr; exact ht
  | setInertiaBase L =>
    simp only [Op.step, Body.setInertiaBase] at hr
    split at hr
    · cases hr
    · cases hr; exact ht
  | integrate t dt f o => exact (integrate_keeps hr).tol ht
  | discreteIntegrate t dt f o => exact (discreteIntegrate_keeps hr).tol ht
  | query x =>
    obtain ⟨r, hq, rfl⟩ := Out.map_ok hr
    clear hr
    have hr := hq
    clear hq
    have kp : r.2.c.ops = b.c.ops → TolC E T r.2.c.ops := fun e => by rw [e]; exact ht
    cases x with
    | rigidBody i => obtain ⟨a, -, rfl⟩ := Out.map_ok hr; exact ht
    | q i => obtain ⟨a, -, rfl⟩ := Out.map_ok hr; exact ht
    | dq i => obtain ⟨a, -, rfl⟩ := Out.map_ok hr; exact ht
    | ancestors i => obtain ⟨a, -, rfl⟩ := Out.map_ok hr; exact ht
    | subtree i => obtain ⟨a, -, rfl⟩ := Out.map_ok hr; exact ht
    | tToParent i =>
      obtain ⟨a, ha, rfl⟩ := Out.map_ok hr
      obtain ⟨k, -, ha⟩ := Out.bind_ok ha
      cases ha; exact kp touchTp_ops
    | tToWorld i =>
      obtain ⟨a, ha, rfl⟩ := Out.map_ok hr
      obtain ⟨k, -, ha⟩ := Out.bind_ok ha
      cases ha; exact kp touchTw_ops
    | tFromParent i =>
      obtain ⟨a, ha, rfl⟩ := Out.map_ok hr
      obtain ⟨s, hs, ha⟩ := Out.bind_ok ha
      obtain ⟨k, -, hs⟩ := Out.bind_ok hs
      cases ha; cases hs; exact kp touchTp_ops
    | tFromWorld i =>
      obtain ⟨a, ha, rfl⟩ := Out.map_ok hr
      obtain ⟨s, hs, ha⟩ := Out.bind_ok ha
      obtain ⟨k, -, hs⟩ := Out.bind_ok hs
      cases ha; cases hs; exact kp touchTw_ops
    | position i x =>
      obtain ⟨a, ha, rfl⟩ := Out.map_ok hr
      obtain ⟨k, -, ha⟩ := Out.bind_ok ha
      cases ha; exact kp touchTw_ops
    | positionQ q i x => obtain ⟨a, -, rfl⟩ := Out.map_ok hr; exact ht
    | orientation i =>
      obtain ⟨a, ha, rfl⟩ := Out.map_ok hr
      obtain ⟨k, -, ha⟩ := Out.bind_ok ha
      cases ha; exact kp touchTw_ops
    | orientationQ q i => obtain ⟨a, -, rfl⟩ := Out.map_ok hr; exact ht
    | cartesianPose i x =>
      obtain ⟨a, ha, rfl⟩ := Out.map_ok hr
      obtain ⟨k, -, ha⟩ := Out.bind_ok ha
      cases ha; exact kp touchTw_ops
    | jacobian i x => obtain ⟨a, ha, rfl⟩ := Out.map_ok hr; exact kp (jacobian_ops ha)
    | jacobianQ q i x => obtain ⟨a, -, rfl⟩ := Out.map_ok hr; exact ht
    | linearJacobian i x =>
      obtain ⟨a, ha, rfl⟩ := Out.map_ok hr
      obtain ⟨s, hs, ha⟩ := Out.bind_ok ha
      cases ha; exact kp (jacobian_ops hs)
    | angularJacobian i =>
      obtain ⟨a, ha, rfl⟩ := Out.map_ok hr
      obtain ⟨s, hs, ha⟩ := Out.bind_ok ha
      cases ha; exact kp (jacobian_ops hs)
    | hessian i x => obtain ⟨a, ha, rfl⟩ := Out.map_ok hr; exact kp (hessian_ops ha)
    | inverseDynamics a f o => cases hr; exact kp (inverseDynamics_ops a f o)
    | centrifugalCoriolis => cases hr; exact kp centrifugalCoriolis_ops
    | gravity => cases hr; exact kp gravity_ops
    | externalTorques f => cases hr; exact kp (externalTorques_ops f)
    | friction t c e => cases hr; exact ht
    | inertia => cases hr; exact kp inertia_ops
    | compositeInertia i =>
      obtain ⟨a, ha, rfl⟩ := Out.map_ok hr
      obtain ⟨k, -, ha⟩ := Out.bind_ok ha
      cases ha; exact kp inertia_ops
    | inertiaInverse => cases hr; exact kp inertiaInverse_ops
    | forwardDynamics t f o => cases hr; exact kp (fd_ops (E := E) t f o)
    | forwardDynamicsAba t f o => cases hr; exact kp (forwardDynamicsAba_ops t f o)
    | inertiaInverseAba => cases hr; exact kp inertiaInverseAba_ops
    | opsInertia J e => obtain ⟨a, ha, rfl⟩ := Out.map_ok hr; exact opsInertia_tol ht ha
    | opsInertiaInverse J =>
      obtain ⟨a, ha, rfl⟩ := Out.map_ok hr; exact (opsInertiaInverse_keeps ha).tol ht
    | opsIsSingular J e => obtain ⟨a, ha, rfl⟩ := Out.map_ok hr; exact opsIsSingular_tol ht ha
    | opsJbar J e => obtain ⟨a, ha, rfl⟩ := Out.map_ok hr; exact opsJbar_tol h ht hT ha
    | opsCoriolis J l e => obtain ⟨a, ha, rfl⟩ := Out.map_ok hr; exact opsCoriolis_tol h ht hT ha
    | opsGravity J e => obtain ⟨a, ha, rfl⟩ := Out.map_ok hr; exact opsGravity_tol h ht hT ha
    | opsExternal J f e => obtain ⟨a, ha, rfl⟩ := Out.map_ok hr; exact opsExternal_tol h ht hT ha
    | opsFriction J t e s => obtain ⟨a, ha, rfl⟩ := Out.map_ok hr; exact opsFriction_tol h ht hT ha
    | opsInverseDynamics J x N f sf o =>
      obtain ⟨a, ha, rfl⟩ := Out.map_ok hr; exact opsInverseDynamics_tol h ht hT.1 hT.2 ha
    | opsInertiaInverseAba l x =>
      obtain ⟨a, ha, rfl⟩ := Out.map_ok hr; exact kp (opsInertiaInverseAba_ops ha)
    | opsInertiaAba l x e =>
      obtain ⟨a, ha, rfl⟩ := Out.map_ok hr; exact kp (opsInertiaAba_ops ha)
    | opsCoriolisAba l x e =>
      obtain ⟨a, ha, rfl⟩ := Out.map_ok hr; exact kp (opsCoriolisAba_ops ha)
    | opsGravityAba l x f e =>
      obtain ⟨a, ha, rfl⟩ := Out.map_ok hr; exact kp (opsGravityAba_ops ha)
    | velocityDerivative a f o => cases hr; exact kp (velocityDerivative_ops a f o)
    | positionDerivative a f o =>
      obtain ⟨a, ha, rfl⟩ := Out.map_ok hr; exact kp (positionDerivative_ops ha)
    | discreteInverseDynamics u dt f g => cases hr; exact kp (discreteID_ops u dt f g)

theorem Careful.inv {E : Ext} {T : Set ℝ} {b : Body} {d : Bool} (h : Careful E T b d) :
    Body.Inv E b := h.reach.inv

theorem Careful.tol {E : Ext} {T : Set ℝ} {b : Body} {d : Bool} (h : Careful E T b d) :
    Body.TolC E T b.c.ops := by
  induction h with
  | init c => intro x; cases x
  | step op hc _ ht he ih =>
    rcases Out.exec_cases he with h1 | h1
    · exact op.step_tol hc.inv ih ht h1
    · rw [h1.2]; exact ih

end SpatialDyn
