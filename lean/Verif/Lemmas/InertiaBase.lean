import Verif.Lemmas.Same

/-! No call reads the base inertia: runs from bodies that differ in it only stay in step. -/

namespace SpatialDyn
namespace Body
variable {b : Body} {E : Ext}

/-- The body with another base inertia. -/
abbrev withIB (I : Inertia) (b : Body) : Body := { b with inertiaBase := I }

variable (I : Inertia)

/-- Replace the base inertia in a result. -/
abbrev ib2 {α : Type*} (r : α × Body) : α × Body := (r.1, r.2.withIB I)

theorem touchTw_ib : (b.withIB I).touchTw = b.touchTw.withIB I := by
  unfold touchTw; split <;> rfl

theorem touchTp_ib : (b.withIB I).touchTp = b.touchTp.withIB I := rfl

theorem touch_ib (x y : Bool) : (b.withIB I).touch x y = (b.touch x y).withIB I := by
  unfold touch
  cases x <;> cases y
  · rfl
  · exact touchTw_ib I
  · rfl
  · show touchTp _ = _
    simp only [if_true]
    rw [touchTw_ib]
    rfl

theorem view_ib : (b.withIB I).view = b.view := rfl
theorem viewTw_ib : (b.withIB I).viewTw = b.viewTw := rfl
theorem viewTp_ib : (b.withIB I).viewTp = b.viewTp := rfl
theorem dof_ib : (b.withIB I).dof = b.dof := rfl
theorem index_ib (i : ℤ) : (b.withIB I).index i = b.index i := rfl
theorem hasExt_ib (f : FExt) : (b.withIB I).hasExt f = b.hasExt f := rfl
theorem hasChild_ib : (b.withIB I).hasChild = b.hasChild := rfl
theorem hasRoot_ib : (b.withIB I).hasRoot = b.hasRoot := rfl
theorem vaf_ib : (b.withIB I).vaf = b.vaf := rfl
theorem unitForce_ib (k : ℕ) (j : Fin 6) : (b.withIB I).unitForce k j = b.unitForce k j := rfl
theorem qFun_ib : (b.withIB I).qFun = b.qFun := rfl
theorem dqFun_ib : (b.withIB I).dqFun = b.dqFun := rfl
theorem nextStep_ib : Body.nextStep E (b.withIB I) = b.nextStep E := rfl
theorem prevStep_ib : Body.prevStep E (b.withIB I) = b.prevStep E := rfl

theorem hessLoop_ib (Tw : ℕ → Iso) (J : ℕ → Motion) (l : List ℕ) (H : ℕ → ℕ → Motion) :
    (b.withIB I).hessLoop Tw J l H = b.hessLoop Tw J l H := by
  induction l generalizing H with
  | nil => rfl
  | cons a l ih => simp only [hessLoop]; exact ih _

theorem jacobian_ib (l : ℤ) (x : Vec3) :
    (b.withIB I).jacobian l x = (b.jacobian l x).map (ib2 I) := by
  unfold jacobian
  show (b.index l).bind _ = _
  cases b.index l with
  | ok k =>
    simp only [Out.bind, Out.map, touchTw_ib]
    split <;> rfl
  | throws => rfl
  | ub => rfl

theorem hessian_ib (l : ℤ) (x : Vec3) :
    (b.withIB I).hessian l x = (b.hessian l x).map (ib2 I) := by
  unfold hessian
  show (b.index l).bind _ = _
  cases b.index l with
  | ok k =>
    simp only [Out.bind, Out.map, jacobian_ib]
    cases b.jacobian (k : ℤ) x with
    | ok r => simp only [touchTw_ib, hessLoop_ib, viewTw_ib]
    | throws => rfl
    | ub => rfl
  | throws => rfl
  | ub => rfl

theorem externalTorques_ib (f : FExt) :
    (b.withIB I).externalTorques f = ib2 I (b.externalTorques f) := by
  unfold externalTorques
  simp only [touch_ib]
  rfl

theorem inverseDynamics_ib (a : ℕ → ℝ) (f : FExt) (o : IDOpts) :
    (b.withIB I).inverseDynamics a f o = ib2 I (b.inverseDynamics a f o) := by
  unfold inverseDynamics
  simp only [touch_ib, externalTorques_ib]
  split
  · rfl
  · rfl

theorem centrifugalCoriolis_ib :
    (b.withIB I).centrifugalCoriolis = ib2 I b.centrifugalCoriolis := by
  unfold centrifugalCoriolis
  simp only [touch_ib]
  split <;> rfl

theorem gravity_ib : (b.withIB I).gravity = ib2 I b.gravity := by
  unfold gravity
  simp only [touch_ib]
  split <;> rfl

theorem inertia_ib : (b.withIB I).inertia = ib2 I b.inertia := by
  unfold inertia
  simp only [touch_ib]
  split <;> rfl

theorem inertiaInverse_ib : (b.withIB I).inertiaInverse = ib2 I b.inertiaInverse := by
  unfold inertiaInverse
  simp only [inertia_ib]
  split <;> rfl

theorem fd_ib (t : ℕ → ℝ) (f : FExt) (o : FDOpts) :
    (b.withIB I).fd E t f o = ib2 I (b.fd E t f o) := by
  unfold fd
  simp only [inverseDynamics_ib, inertiaInverse_ib]
  rfl

theorem forwardDynamicsAba_ib (t : ℕ → ℝ) (f : FExt) (o : FDOpts) :
    (b.withIB I).forwardDynamicsAba t f o = ib2 I (b.forwardDynamicsAba t f o) := by
  unfold forwardDynamicsAba
  simp only [touch_ib]
  rfl

theorem inertiaInverseAba_ib : (b.withIB I).inertiaInverseAba = ib2 I b.inertiaInverseAba := by
  unfold inertiaInverseAba
  simp only [touch_ib]
  split <;> rfl

theorem opsInvCompute_ib (J : DMat) :
    (b.withIB I).opsInvCompute E J = (b.opsInvCompute E J).map (ib2 I) := by
  unfold opsInvCompute
  simp only [inertiaInverse_ib]
  show (if J.cols ≠ b.dof then _ else _) = _
  split <;> rfl

theorem opsInertiaInverse_ib (J : DMat) :
    (b.withIB I).opsInertiaInverse E J = (b.opsInertiaInverse E J).map (ib2 I) := by
  unfold opsInertiaInverse
  simp only [opsInvCompute_ib]
  show (if (!b.c.ops.lambdaInvDone) = true then _ else Out.bind (b.opsSame J) _) = _
  split
  · rfl
  · cases b.opsSame J with
    | ok s => cases s <;> rfl
    | throws => rfl
    | ub => rfl

theorem opsLambdaCompute_ib (J : DMat) (e : ℝ) :
    (b.withIB I).opsLambdaCompute E J e = (b.opsLambdaCompute E J e).map (ib2 I) := by
  unfold opsLambdaCompute
  rw [opsInertiaInverse_ib]
  cases b.opsInertiaInverse E J <;> rfl

theorem opsInertia_ib (J : DMat) (e : ℝ) :
    (b.withIB I).opsInertia E J e = (b.opsInertia E J e).map (ib2 I) := by
  unfold opsInertia
  simp only [opsLambdaCompute_ib]
  show (if (!b.c.ops.lambdaDone) = true then _ else Out.bind (b.opsSame J) _) = _
  split
  · rfl
  · cases b.opsSame J with
    | ok s =>
      simp only [Out.bind]
      split <;> rfl
    | throws => rfl
    | ub => rfl

theorem opsIsSingular_ib (J : DMat) (e : ℝ) :
    (b.withIB I).opsIsSingular E J e = (b.opsIsSingular E J e).map (ib2 I) := by
  unfold opsIsSingular
  rw [opsInertia_ib]
  cases b.opsInertia E J e <;> rfl

theorem opsJbarCompute_ib (J : DMat) (e : ℝ) :
    (b.withIB I).opsJbarCompute E J e = (b.opsJbarCompute E J e).map (ib2 I) := by
  unfold opsJbarCompute
  rw [opsInertia_ib]
  cases b.opsInertia E J e <;> rfl

theorem opsJbar_ib (J : DMat) (e : ℝ) :
    (b.withIB I).opsJbar E J e = (b.opsJbar E J e).map (ib2 I) := by
  unfold opsJbar
  simp only [opsJbarCompute_ib]
  show (if (!b.c.ops.jbarDone) = true then _ else Out.bind (b.opsSame J) _) = _
  split
  · rfl
  · cases b.opsSame J with
    | ok s =>
      simp only [Out.bind]
      split <;> rfl
    | throws => rfl
    | ub => rfl

theorem opsCoriolis_ib (J : DMat) (l : ℤ) (e : ℝ) :
    (b.withIB I).opsCoriolis E J l e = (b.opsCoriolis E J l e).map (ib2 I) := by
  unfold opsCoriolis
  rw [opsJbar_ib]
  split
  · rfl
  · cases b.opsJbar E J e with
    | ok r =>
      simp only [Out.bind, Out.map, centrifugalCoriolis_ib, opsInertia_ib]
      cases r.2.centrifugalCoriolis.2.opsInertia E J 0 with
      | ok s =>
        simp only [index_ib, viewTw_ib]
        cases s.2.index l with
        | ok k => simp only [touchTw_ib]
        | throws => rfl
        | ub => rfl
      | throws => rfl
      | ub => rfl
    | throws => rfl
    | ub => rfl

theorem opsGravity_ib (J : DMat) (e : ℝ) :
    (b.withIB I).opsGravity E J e = (b.opsGravity E J e).map (ib2 I) := by
  unfold opsGravity
  rw [opsJbar_ib]
  cases b.opsJbar E J e with
  | ok r => simp only [Out.bind, Out.map, gravity_ib]
  | throws => rfl
  | ub => rfl

theorem opsExternal_ib (J : DMat) (f : FExt) (e : ℝ) :
    (b.withIB I).opsExternal E J f e = (b.opsExternal E J f e).map (ib2 I) := by
  unfold opsExternal
  rw [opsJbar_ib]
  cases b.opsJbar E J e with
  | ok r => simp only [Out.bind, Out.map, externalTorques_ib]
  | throws => rfl
  | ub => rfl

theorem opsFriction_ib (J : DMat) (t : ℕ → ℝ) (e s : ℝ) :
    (b.withIB I).opsFriction E J t e s = (b.opsFriction E J t e s).map (ib2 I) := by
  unfold opsFriction
  rw [opsJbar_ib]
  cases b.opsJbar E J e <;> rfl

theorem opsAdd_ib (flag : Bool) (s : (ℕ → ℝ) × Body)
    (term : Body → (ℕ → ℝ) → Out ((ℕ → ℝ) × Body))
    (ht : ∀ b F, term (b.withIB I) F = (term b F).map (ib2 I)) :
    opsAdd flag (ib2 I s) term = (opsAdd flag s term).map (ib2 I) := by
  unfold opsAdd
  split
  · rw [ht]
    cases term s.2 s.1 <;> rfl
  · rfl

theorem opsNull_ib (Jx : DMat) (N : Option DMat) (e : ℝ) :
    (b.withIB I).opsNull E Jx N e = (b.opsNull E Jx N e).map (ib2 I) := by
  unfold opsNull
  cases N with
  | none => rfl
  | some M =>
    simp only [opsJbar_ib]
    cases b.opsJbar E Jx e with
    | throws => rfl
    | ub => rfl
    | ok r =>
      show Out.bind (Out.need (M.size = 0 ∨ M.rows = b.dof)) _ =
        Out.map _ (Out.bind (Out.need (M.size = 0 ∨ M.rows = b.dof)) _)
      cases Out.need (M.size = 0 ∨ M.rows = b.dof) <;> rfl

theorem opsInverseDynamics_ib (J : DMat) (x : ℕ → ℝ) (N : Option DMat) (f : FExt) (sf : Bool)
    (o : OpsOpts) : (b.withIB I).opsInverseDynamics E J x N f sf o =
      (b.opsInverseDynamics E J x N f sf o).map fun r => (r.1, r.2.1, r.2.2.withIB I) := by
  unfold opsInverseDynamics
  cases opsFits J N with
  | throws => rfl
  | ub => rfl
  | ok u =>
  simp only [Out.bind]
  simp only [opsInertia_ib]
  cases b.opsInertia E (opsJx J N) o.svdEps with
  | throws => rfl
  | ub => rfl
  | ok l =>
    simp only [Out.bind, Out.map]
    have h1 := opsAdd_ib I sf (clipForce (opsJx J N).rows o.fAccMax (l.1.mulVec x), l.2)
      (fun b _ => b.opsExternal E (opsJx J N) f o.svdEps) (fun b F => opsExternal_ib I _ _ _)
    simp only [ib2] at h1
    rw [h1]
    generalize opsAdd sf (clipForce (opsJx J N).rows o.fAccMax (l.1.mulVec x), l.2)
      (fun b _ => b.opsExternal E (opsJx J N) f o.svdEps) = X
    cases X with
    | throws => rfl
    | ub => rfl
    | ok s =>
      simp only [Out.bind, Out.map]
      have h2 := opsAdd_ib I o.gravity s (fun b _ => b.opsGravity E (opsJx J N) o.svdEps)
        (fun b F => opsGravity_ib I _ _)
      rw [h2]
      generalize opsAdd o.gravity s (fun b _ => b.opsGravity E (opsJx J N) o.svdEps) = X
      cases X with
      | throws => rfl
      | ub => rfl
      | ok s =>
        simp only [Out.bind, Out.map]
        have h3 := opsAdd_ib I o.cc s
          (fun b _ => b.opsCoriolis E (opsJx J N) (truncInt o.svdEps) 0)
          (fun b F => opsCoriolis_ib I _ _ _)
        rw [h3]
        generalize opsAdd o.cc s
          (fun b _ => b.opsCoriolis E (opsJx J N) (truncInt o.svdEps) 0) = X
        cases X with
        | throws => rfl
        | ub => rfl
        | ok s =>
          simp only [Out.bind, Out.map]
          have h4 := opsAdd_ib I o.friction s
            (fun b F => b.opsFriction E (opsJx J N) ((opsJx J N).tr.mulVec F) o.svdEps
              o.stictionEps) (fun b F => opsFriction_ib I _ _ _ _)
          rw [h4]
          generalize opsAdd o.friction s
            (fun b F => b.opsFriction E (opsJx J N) ((opsJx J N).tr.mulVec F) o.svdEps
              o.stictionEps) = X
          cases X with
          | throws => rfl
          | ub => rfl
          | ok s =>
            simp only [Out.bind, Out.map, opsNull_ib]
            cases s.2.opsNull E (opsJx J N) N o.svdEps <;> rfl

theorem opsInvAbaCompute_ib (k : ℕ) (x : Vec3) :
    (b.withIB I).opsInvAbaCompute k x = ib2 I (b.opsInvAbaCompute k x) := by
  unfold opsInvAbaCompute
  simp only [touchTw_ib]
  rfl

theorem opsInertiaInverseAba_ib (l : ℤ) (x : Vec3) :
    (b.withIB I).opsInertiaInverseAba l x = (b.opsInertiaInverseAba l x).map (ib2 I) := by
  unfold opsInertiaInverseAba
  show (b.index l).bind _ = _
  cases b.index l with
  | ok k =>
    simp only [Out.bind, Out.map, opsInvAbaCompute_ib]
    split <;> rfl
  | throws => rfl
  | ub => rfl

theorem opsInertiaAba_ib (l : ℤ) (x : Vec3) (e : ℝ) :
    (b.withIB I).opsInertiaAba E l x e = (b.opsInertiaAba E l x e).map (ib2 I) := by
  unfold opsInertiaAba
  show (b.index l).bind _ = _
  cases b.index l with
  | ok k =>
    simp only [Out.bind, Out.map, opsInertiaInverseAba_ib]
    split
    · rfl
    · cases b.opsInertiaInverseAba (k : ℤ) x <;> rfl
  | throws => rfl
  | ub => rfl

theorem opsInertiaAba_ib' (b : Body) (c : Cache) (l : ℤ) (x : Vec3) (e : ℝ)
    (m : Motion) :
    ((⟨b.rbs, b.q, b.dq, b.g, b.load, b.T0, I, b.anc, b.sub, c⟩ : Body).opsInertiaAba E l x e).bind
        (fun r => .ok (mulVec6 r.1 m, r.2)) =
      (((⟨b.rbs, b.q, b.dq, b.g, b.load, b.T0, b.inertiaBase, b.anc, b.sub, c⟩ : Body).opsInertiaAba
        E l x e).bind fun r => .ok (mulVec6 r.1 m, r.2)).map (ib2 I) := by
  have h := opsInertiaAba_ib (E := E)
    (b := ⟨b.rbs, b.q, b.dq, b.g, b.load, b.T0, b.inertiaBase, b.anc, b.sub, c⟩) I l x e
  rw [show (⟨b.rbs, b.q, b.dq, b.g, b.load, b.T0, I, b.anc, b.sub, c⟩ : Body) =
    withIB I ⟨b.rbs, b.q, b.dq, b.g, b.load, b.T0, b.inertiaBase, b.anc, b.sub, c⟩ from rfl, h]
  generalize Body.opsInertiaAba E _ l x e = X
  cases X <;> rfl

theorem opsCoriolisAba_ib (l : ℤ) (x : Vec3) (e : ℝ) :
    (b.withIB I).opsCoriolisAba E l x e = (b.opsCoriolisAba E l x e).map (ib2 I) := by
  unfold opsCoriolisAba
  show (b.index l).bind _ = _
  cases b.index l with
  | ok k =>
    have ok_bind : ∀ {α β : Type} (a : α) (f : α → Out β), (Out.ok a).bind f = f a :=
      fun _ _ => rfl
    simp only [ok_bind, touchTw_ib, touchTp_ib, view_ib, viewTw_ib, vaf_ib]
    generalize b.touchTw.touchTp = b'
    exact opsInertiaAba_ib' I b' _ _ _ _ _
  | throws => rfl
  | ub => rfl

theorem opsGravityAba_ib (l : ℤ) (x : Vec3) (f : FExt) (e : ℝ) :
    (b.withIB I).opsGravityAba E l x f e = (b.opsGravityAba E l x f e).map (ib2 I) := by
  unfold opsGravityAba
  show (b.index l).bind _ = _
  cases b.index l with
  | ok k =>
    have ok_bind : ∀ {α β : Type} (a : α) (f : α → Out β), (Out.ok a).bind f = f a :=
      fun _ _ => rfl
    simp only [ok_bind, touchTw_ib, touchTp_ib, view_ib, viewTw_ib, vaf_ib]
    generalize b.touchTw.touchTp = b'
    exact opsInertiaAba_ib' I b' _ _ _ _ _
  | throws => rfl
  | ub => rfl

theorem forcedID_ib (a : ℕ → ℝ) (f : FExt) (o : IDOpts) :
    (b.withIB I).forcedID a f o = (b.forcedID a f o).withIB I := by
  unfold forcedID
  have := inverseDynamics_ib (b := { b with c := { b.c with crbaDone := false } }) I a f o
  simp only [withIB] at this ⊢
  rw [this]

theorem velocityDerivative_ib (a : ℕ → ℝ) (f : FExt) (o : IDOpts) :
    (b.withIB I).velocityDerivative a f o = ib2 I (b.velocityDerivative a f o) := by
  unfold velocityDerivative
  simp only [forcedID_ib, touch_ib, hasChild_ib, view_ib]
  split <;> rfl

theorem positionDerivative_ib (a : ℕ → ℝ) (f : FExt) (o : IDOpts) :
    (b.withIB I).positionDerivative a f o = (b.positionDerivative a f o).map (ib2 I) := by
  unfold positionDerivative
  simp only [forcedID_ib, touch_ib, hasChild_ib, view_ib, hasRoot_ib, hasExt_ib]
  split <;> rfl

theorem refreshPrev_ib (dt : ℝ) : (b.withIB I).refreshPrev dt = (b.refreshPrev dt).withIB I := by
  unfold refreshPrev
  split <;> rfl

theorem refreshMomentum_ib (dt : ℝ) :
    (b.withIB I).refreshMomentum E dt = (b.refreshMomentum E dt).withIB I := by
  unfold refreshMomentum
  simp only [touch_ib]
  split <;> rfl

theorem discreteID_ib (u : ℕ → ℝ) (dt : ℝ) (f : FExt) (g : Bool) :
    (b.withIB I).discreteID E u dt f g = ib2 I (b.discreteID E u dt f g) := by
  unfold discreteID
  simp only [refreshPrev_ib, refreshMomentum_ib, touch_ib, dof_ib, view_ib, viewTp_ib, nextStep_ib,
    hasExt_ib]
  generalize (b.refreshPrev dt).refreshMomentum E dt = b1
  generalize b1.touch (decide (0 < b1.dof)) (b1.hasExt f) = b2
  have hg : ∀ (c : Cache) (w : ℕ → ℝ), (if (g && decide (0 < b2.dof)) = true then
      ((fun i => w i + dt * (withIB I { b2 with c := c }).gravity.1 i),
        (withIB I { b2 with c := c }).gravity.2)
      else (w, withIB I { b2 with c := c })) = ib2 I (if (g && decide (0 < b2.dof)) = true then
      ((fun i => w i + dt * ({ b2 with c := c } : Body).gravity.1 i),
        ({ b2 with c := c } : Body).gravity.2) else (w, { b2 with c := c })) := by
    intro c w
    rw [gravity_ib]
    by_cases h : (g && decide (0 < b2.dof)) = true
    · rw [if_pos h, if_pos h]
    · rw [if_neg h, if_neg h]
  exact hg _ _

theorem setQ_ib (q : List ℝ) : (b.withIB I).setQ q = (b.setQ q).map (withIB I) := by
  unfold setQ
  show (if q.length ≠ b.dof then _ else if b.q = q then _ else _) = _
  split
  · rfl
  · split <;> rfl

theorem setDq_ib (q : List ℝ) : (b.withIB I).setDq q = (b.setDq q).map (withIB I) := by
  unfold setDq
  show (if q.length ≠ b.dof then _ else if b.dq = q then _ else _) = _
  split
  · rfl
  · split <;> rfl

theorem addRigidBody_ib (r : RB) (p : ℤ) :
    (b.withIB I).addRigidBody r p = (b.addRigidBody r p).map (ib2 I) := by
  unfold addRigidBody
  by_cases h : p ≥ (b.rbs.length : ℤ) ∨ p < -1
  · simp only [if_pos h]; rfl
  · simp only [if_neg h]; rfl

theorem accel_ib (t : ℕ → ℝ) (f : FExt) (o : IntOpts) :
    (b.withIB I).accel E t f o = ib2 I (b.accel E t f o) := by
  unfold accel
  split
  · exact forwardDynamicsAba_ib I _ _ _
  · exact fd_ib I _ _ _

theorem setState_ib (lim : Bool) (q dq : ℕ → ℝ) :
    (b.withIB I).setState lim q dq = (b.setState lim q dq).map (withIB I) := by
  unfold setState
  simp only [setQ_ib, dof_ib]
  show Out.bind (Out.map _ (b.setQ (toVec b.dof fun i =>
    if lim = true then clipQ1 (b.rb i).joint (q i) else q i))) _ = _
  cases b.setQ (toVec b.dof fun i => if lim = true then clipQ1 (b.rb i).joint (q i) else q i) with
  | ok b1 => exact setDq_ib I _
  | throws => rfl
  | ub => rfl

theorem bind_ib {f : Body → Out Body} (hf : ∀ b, f (b.withIB I) = (f b).map (withIB I))
    (x : Out Body) : (x.map (withIB I)).bind f = (x.bind f).map (withIB I) := by
  cases x with
  | ok b => exact hf b
  | throws => rfl
  | ub => rfl

theorem integrate_ib (t : ℕ → ℝ) (dt : ℝ) (f : FExt) (o : IntOpts) :
    (b.withIB I).integrate E t dt f o = (b.integrate E t dt f o).map (withIB I) := by
  unfold integrate integrateWith
  cases o.method with
  | euler => simp only [accel_ib, qFun_ib, dqFun_ib, setState_ib]
  | heuns =>
    simp only [accel_ib, qFun_ib, dqFun_ib, setState_ib]
    refine bind_ib I (fun b1 => ?_) _
    simp only [accel_ib, dqFun_ib, setState_ib]
  | rk4 =>
    simp only [accel_ib, qFun_ib, dqFun_ib, setState_ib]
    refine bind_ib I (fun b1 => ?_) _
    simp only [accel_ib, dqFun_ib, setState_ib]
    refine bind_ib I (fun b2 => ?_) _
    simp only [accel_ib, dqFun_ib, setState_ib]
    refine bind_ib I (fun b3 => ?_) _
    simp only [accel_ib, dqFun_ib, setState_ib]

theorem discreteLoop_ib (t : ℕ → ℝ) (dt : ℝ) (f : FExt) (o : DIntOpts) (n : ℕ)
    (s : (ℕ → ℝ) × Body) : discreteLoop E t dt f o n (ib2 I s) =
      ib2 I (discreteLoop E t dt f o n s) := by
  induction n generalizing s with
  | zero => rfl
  | succ n ih =>
    simp only [discreteLoop, discreteID_ib, inertiaInverse_ib, dof_ib]
    split
    · rfl
    · exact ih (_, _)

theorem discreteIntegrate_ib (t : ℕ → ℝ) (dt : ℝ) (f : FExt) (o : DIntOpts) :
    (b.withIB I).discreteIntegrate E t dt f o =
      (b.discreteIntegrate E t dt f o).map (withIB I) := by
  unfold discreteIntegrate
  simp only [fd_ib, qFun_ib, dqFun_ib, dof_ib]
  have h := discreteLoop_ib (E := E) I t dt f o o.maxIter
    (fun i => b.qFun i + dt * b.dqFun i +
      dt * dt * (b.fd E t f ⟨o.gravity, true, false, 0.01⟩).1 i,
      (b.fd E t f ⟨o.gravity, true, false, 0.01⟩).2)
  simp only [ib2] at h
  rw [h]
  generalize discreteLoop E t dt f o o.maxIter _ = s
  simp only [setQ_ib]
  refine bind_ib I (fun b1 => ?_) _
  simp only [setDq_ib]
  exact bind_ib I (fun b2 => rfl) _

end Body

/-- Queries do not read the base inertia. -/
theorem Query.run_ib (E : Ext) (b : Body) (I : Inertia) (x : Query) :
    x.run E (b.withIB I) = (x.run E b).map (Body.ib2 I) := by
  cases x <;> simp only [Query.run]
  case rigidBody i => show Out.map _ (b.rigidBody i) = _; cases b.rigidBody i <;> rfl
  case q i => show Out.map _ (b.qAt i) = _; cases b.qAt i <;> rfl
  case dq i => show Out.map _ (b.dqAt i) = _; cases b.dqAt i <;> rfl
  case ancestors i => show Out.map _ (b.ancestors i) = _; cases b.ancestors i <;> rfl
  case subtree i => show Out.map _ (b.subtree i) = _; cases b.subtree i <;> rfl
  case tToParent i =>
    unfold Body.tToParent; rw [Body.index_ib]; cases b.index i <;> rfl
  case tToWorld i =>
    unfold Body.tToWorld; rw [Body.index_ib, Body.touchTw_ib]; cases b.index i <;> rfl
  case tFromParent i =>
    unfold Body.tFromParent Body.tToParent; rw [Body.index_ib]; cases b.index i <;> rfl
  case tFromWorld i =>
    unfold Body.tFromWorld Body.tToWorld; rw [Body.index_ib, Body.touchTw_ib]
    cases b.index i <;> rfl
  case position i y =>
    unfold Body.position; rw [Body.index_ib, Body.touchTw_ib]; cases b.index i <;> rfl
  case orientation i =>
    unfold Body.orientation; rw [Body.index_ib, Body.touchTw_ib]; cases b.index i <;> rfl
  case cartesianPose i y =>
    unfold Body.cartesianPose; rw [Body.index_ib, Body.touchTw_ib]; cases b.index i <;> rfl
  case positionQ u i y =>
    have hc : ∀ {α : Type} (f : Iso → α → α) (n : ℕ) (o : Option ℕ) (z : α),
        (b.withIB I).climb u f n o z = b.climb u f n o z := by
      intro α f n
      induction n with
      | zero => intro o z; rfl
      | succ n ih =>
        intro o z
        cases o with
        | none => rfl
        | some k => exact ih _ _
    simp only [Body.positionQ, hc]
    show Out.map _ ((b.climbStart i).bind _) = _
    cases b.climbStart i <;> rfl
  case orientationQ u i =>
    have hc : ∀ {α : Type} (f : Iso → α → α) (n : ℕ) (o : Option ℕ) (z : α),
        (b.withIB I).climb u f n o z = b.climb u f n o z := by
      intro α f n
      induction n with
      | zero => intro o z; rfl
      | succ n ih =>
        intro o z
        cases o with
        | none => rfl
        | some k => exact ih _ _
    simp only [Body.orientationQ, hc]
    show Out.map _ ((b.climbStart i).bind _) = _
    cases b.climbStart i <;> rfl
  case jacobian i y => rw [Body.jacobian_ib]; cases b.jacobian i y <;> rfl
  case jacobianQ u i y =>
    show Out.map _ (b.jacobianQ u i y) = _; cases b.jacobianQ u i y <;> rfl
  case linearJacobian i y =>
    unfold Body.linearJacobian; rw [Body.jacobian_ib]; cases b.jacobian i y <;> rfl
  case angularJacobian i =>
    unfold Body.angularJacobian; rw [Body.jacobian_ib]; cases b.jacobian i _ <;> rfl
  case hessian i y => rw [Body.hessian_ib]; cases b.hessian i y <;> rfl
  case inverseDynamics a f o => rw [Body.inverseDynamics_ib]; rfl
  case centrifugalCoriolis => rw [Body.centrifugalCoriolis_ib]; rfl
  case gravity => rw [Body.gravity_ib]; rfl
  case externalTorques f => rw [Body.externalTorques_ib]; rfl
  case friction t c e => rfl
  case inertia => rw [Body.inertia_ib]; rfl
  case compositeInertia i =>
    unfold Body.compositeInertia; rw [Body.index_ib, Body.inertia_ib]; cases b.index i <;> rfl
  case inertiaInverse => rw [Body.inertiaInverse_ib]; rfl
  case forwardDynamics t f o => rw [Body.fd_ib]; rfl
  case forwardDynamicsAba t f o => rw [Body.forwardDynamicsAba_ib]; rfl
  case inertiaInverseAba => rw [Body.inertiaInverseAba_ib]; rfl
  case opsInertia J e => rw [Body.opsInertia_ib]; cases b.opsInertia E J e <;> rfl
  case opsInertiaInverse J =>
    rw [Body.opsInertiaInverse_ib]; cases b.opsInertiaInverse E J <;> rfl
  case opsIsSingular J e => rw [Body.opsIsSingular_ib]; cases b.opsIsSingular E J e <;> rfl
  case opsJbar J e => rw [Body.opsJbar_ib]; cases b.opsJbar E J e <;> rfl
  case opsCoriolis J l e => rw [Body.opsCoriolis_ib]; cases b.opsCoriolis E J l e <;> rfl
  case opsGravity J e => rw [Body.opsGravity_ib]; cases b.opsGravity E J e <;> rfl
  case opsExternal J f e => rw [Body.opsExternal_ib]; cases b.opsExternal E J f e <;> rfl
  case opsFriction J t e s => rw [Body.opsFriction_ib]; cases b.opsFriction E J t e s <;> rfl
  case opsInverseDynamics J y N f sf o =>
    rw [Body.opsInverseDynamics_ib]; cases b.opsInverseDynamics E J y N f sf o <;> rfl
  case opsInertiaInverseAba l y =>
    rw [Body.opsInertiaInverseAba_ib]; cases b.opsInertiaInverseAba l y <;> rfl
  case opsInertiaAba l y e => rw [Body.opsInertiaAba_ib]; cases b.opsInertiaAba E l y e <;> rfl
  case opsCoriolisAba l y e => rw [Body.opsCoriolisAba_ib]; cases b.opsCoriolisAba E l y e <;> rfl
  case opsGravityAba l y f e =>
    rw [Body.opsGravityAba_ib]; cases b.opsGravityAba E l y f e <;> rfl
  case velocityDerivative a f o => rw [Body.velocityDerivative_ib]; rfl
  case positionDerivative a f o =>
    rw [Body.positionDerivative_ib]; cases b.positionDerivative a f o <;> rfl
  case discreteInverseDynamics u dt f g => rw [Body.discreteID_ib]; rfl

/-- Bodies that agree except for the base inertia stay so: the base inertia is only carried along
(or overwritten by `set_inertia_base`). -/
theorem Op.step_ib (E : Ext) (b : Body) (I : Inertia) (op : Op) :
    ∃ I', op.step E (b.withIB I) = (op.step E b).map (Body.withIB I') := by
  cases op with
  | addRigidBody rb p =>
    refine ⟨I, ?_⟩
    simp only [Op.step, Body.addRigidBody_ib]
    cases b.addRigidBody rb p <;> rfl
  | setQ q => exact ⟨I, Body.setQ_ib I q⟩
  | setDq q => exact ⟨I, Body.setDq_ib I q⟩
  | setG g => exact ⟨I, rfl⟩
  | addLoad L i => exact ⟨I, rfl⟩
  | replaceLoad L i => exact ⟨I, rfl⟩
  | clearLoad i => exact ⟨I, rfl⟩
  | setBase T => exact ⟨I, rfl⟩
  | setInertiaBase L =>
    refine ⟨Inertia.ofFlat L.mass L.com L.flat, ?_⟩
    simp only [Op.step, Body.setInertiaBase]
    split <;> rfl
  | query x =>
    refine ⟨I, ?_⟩
    simp only [Op.step, Query.run_ib]
    cases x.run E b <;> rfl
  | integrate t dt f o => exact ⟨I, Body.integrate_ib I t dt f o⟩
  | discreteIntegrate t dt f o => exact ⟨I, Body.discreteIntegrate_ib I t dt f o⟩

end SpatialDyn
