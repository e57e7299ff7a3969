import Verif.Lemmas.Same

/-! Calls that do not touch the cache of the discrete dynamics. -/

namespace SpatialDyn
namespace Body
variable {b : Body} {E : Ext}

/-- The cache of the discrete dynamics is unchanged. -/
def KeepD (b b' : Body) : Prop := b'.c.drnea = b.c.drnea

theorem KeepD.refl (b : Body) : b.KeepD b := rfl

theorem KeepD.trans {b1 b2 b3 : Body} (h1 : b1.KeepD b2) (h2 : b2.KeepD b3) : b1.KeepD b3 :=
  Eq.trans h2 h1

theorem KeepD.cache (b : Body) (c : Cache) (hc : c.drnea = b.c.drnea) :
    b.KeepD { b with c := c } := hc

theorem KeepD.upd {b b' : Body} (h : b.KeepD b') (c : Cache) (hc : c.drnea = b'.c.drnea) :
    b.KeepD { b' with c := c } :=
  h.trans (KeepD.cache b' c hc)

theorem touchTp_keep : b.KeepD b.touchTp := rfl

theorem touchTw_keep : b.KeepD b.touchTw := by unfold touchTw; split <;> rfl

theorem touch_keep (x y : Bool) : b.KeepD (b.touch x y) := by
  unfold touch
  cases x <;> cases y
  · rfl
  · exact touchTw_keep
  · rfl
  · exact touchTw_keep.trans touchTp_keep

theorem jacobian_keep {l : ℤ} {x : Vec3} {r : (ℕ → Motion) × Body}
    (hr : b.jacobian l x = .ok r) : b.KeepD r.2 := by
  obtain ⟨k, -, hr⟩ := Out.bind_ok hr
  split at hr
  · cases hr; rfl
  · cases hr; exact touchTw_keep.upd _ rfl

theorem hessian_keep {l : ℤ} {x : Vec3} {r : (ℕ → ℕ → Motion) × Body}
    (hr : b.hessian l x = .ok r) : b.KeepD r.2 := by
  obtain ⟨k, -, hr⟩ := Out.bind_ok hr
  obtain ⟨s, hs, hr⟩ := Out.bind_ok hr
  cases hr
  exact (jacobian_keep hs).trans touchTw_keep

theorem externalTorques_keep (f : FExt) : b.KeepD (b.externalTorques f).2 :=
  (touch_keep _ _).upd _ rfl

theorem inverseDynamics_keep (a : ℕ → ℝ) (f : FExt) (o : IDOpts) :
    b.KeepD (b.inverseDynamics a f o).2 := by
  unfold inverseDynamics
  split
  · exact externalTorques_keep f
  · exact (touch_keep _ _).upd _ rfl

theorem centrifugalCoriolis_keep : b.KeepD b.centrifugalCoriolis.2 := by
  unfold centrifugalCoriolis
  split
  · rfl
  · exact (touch_keep _ _).upd _ rfl

theorem gravity_keep : b.KeepD b.gravity.2 := by
  unfold gravity
  split
  · rfl
  · exact (touch_keep _ _).upd _ rfl

theorem inertia_keep : b.KeepD b.inertia.2 := by
  unfold inertia
  split
  · rfl
  · exact (touch_keep _ _).upd _ rfl

theorem inertiaInverse_keep : b.KeepD b.inertiaInverse.2 := by
  unfold inertiaInverse
  split
  · rfl
  · exact inertia_keep.upd _ rfl

theorem fd_keep (t : ℕ → ℝ) (f : FExt) (o : FDOpts) : b.KeepD (b.fd E t f o).2 :=
  (inverseDynamics_keep _ _ _).trans inertiaInverse_keep

theorem forwardDynamicsAba_keep (t : ℕ → ℝ) (f : FExt) (o : FDOpts) :
    b.KeepD (b.forwardDynamicsAba t f o).2 := (touch_keep _ _).upd _ rfl

theorem inertiaInverseAba_keep : b.KeepD b.inertiaInverseAba.2 := by
  unfold inertiaInverseAba
  split
  · rfl
  · exact (touch_keep _ _).upd _ rfl

theorem opsInvCompute_keep {J : DMat} {r : DMat × Body} (hr : b.opsInvCompute E J = .ok r) :
    b.KeepD r.2 := by
  unfold opsInvCompute at hr
  split at hr
  · cases hr
  · cases hr; exact inertiaInverse_keep.upd _ rfl

theorem opsInertiaInverse_keep {J : DMat} {r : DMat × Body}
    (hr : b.opsInertiaInverse E J = .ok r) : b.KeepD r.2 := by
  unfold opsInertiaInverse at hr
  split at hr
  · exact opsInvCompute_keep hr
  · obtain ⟨s, -, hr⟩ := Out.bind_ok hr
    split at hr
    · cases hr; rfl
    · exact opsInvCompute_keep hr

theorem opsLambdaCompute_keep {J : DMat} {e : ℝ} {r : DMat × Body}
    (hr : b.opsLambdaCompute E J e = .ok r) : b.KeepD r.2 := by
  obtain ⟨s, hs, hr⟩ := Out.bind_ok hr
  cases hr
  exact (opsInertiaInverse_keep hs).upd _ rfl

theorem opsInertia_keep {J : DMat} {e : ℝ} {r : DMat × Body}
    (hr : b.opsInertia E J e = .ok r) : b.KeepD r.2 := by
  unfold opsInertia at hr
  split at hr
  · exact opsLambdaCompute_keep hr
  · obtain ⟨s, -, hr⟩ := Out.bind_ok hr
    split at hr
    · cases hr; rfl
    · exact opsLambdaCompute_keep hr

theorem opsIsSingular_keep {J : DMat} {e : ℝ} {r : Bool × Body}
    (hr : b.opsIsSingular E J e = .ok r) : b.KeepD r.2 := by
  obtain ⟨s, hs, hr⟩ := Out.bind_ok hr
  cases hr
  exact opsInertia_keep hs

theorem opsJbarCompute_keep {J : DMat} {e : ℝ} {r : DMat × Body}
    (hr : b.opsJbarCompute E J e = .ok r) : b.KeepD r.2 := by
  obtain ⟨s, hs, hr⟩ := Out.bind_ok hr
  cases hr
  exact (opsInertia_keep hs).upd _ rfl

theorem opsJbar_keep {J : DMat} {e : ℝ} {r : DMat × Body}
    (hr : b.opsJbar E J e = .ok r) : b.KeepD r.2 := by
  unfold opsJbar at hr
  split at hr
  · exact opsJbarCompute_keep hr
  · obtain ⟨s, -, hr⟩ := Out.bind_ok hr
    split at hr
    · cases hr; rfl
    · exact opsJbarCompute_keep hr

theorem opsCoriolis_keep {J : DMat} {l : ℤ} {e : ℝ} {r : (ℕ → ℝ) × Body}
    (hr : b.opsCoriolis E J l e = .ok r) : b.KeepD r.2 := by
  unfold opsCoriolis at hr
  split at hr
  · cases hr
  · obtain ⟨s, hs, hr⟩ := Out.bind_ok hr
    obtain ⟨t, ht, hr⟩ := Out.bind_ok hr
    obtain ⟨k, -, hr⟩ := Out.bind_ok hr
    cases hr
    exact (((opsJbar_keep hs).trans centrifugalCoriolis_keep).trans (opsInertia_keep ht)).trans
      touchTw_keep

theorem opsGravity_keep {J : DMat} {e : ℝ} {r : (ℕ → ℝ) × Body}
    (hr : b.opsGravity E J e = .ok r) : b.KeepD r.2 := by
  obtain ⟨s, hs, hr⟩ := Out.bind_ok hr
  cases hr
  exact (opsJbar_keep hs).trans gravity_keep

theorem opsExternal_keep {J : DMat} {f : FExt} {e : ℝ} {r : (ℕ → ℝ) × Body}
    (hr : b.opsExternal E J f e = .ok r) : b.KeepD r.2 := by
  obtain ⟨s, hs, hr⟩ := Out.bind_ok hr
  cases hr
  exact (opsJbar_keep hs).trans (externalTorques_keep f)

theorem opsFriction_keep {J : DMat} {tau : ℕ → ℝ} {e se : ℝ} {r : (ℕ → ℝ) × Body}
    (hr : b.opsFriction E J tau e se = .ok r) : b.KeepD r.2 := by
  obtain ⟨s, hs, hr⟩ := Out.bind_ok hr
  cases hr
  exact opsJbar_keep hs

theorem opsAdd_keep {flag : Bool} {s : (ℕ → ℝ) × Body}
    {term : Body → (ℕ → ℝ) → Out ((ℕ → ℝ) × Body)}
    (ht : ∀ r, term s.2 s.1 = .ok r → s.2.KeepD r.2) {r : (ℕ → ℝ) × Body}
    (hr : opsAdd flag s term = .ok r) : s.2.KeepD r.2 := by
  unfold opsAdd at hr
  split at hr
  · obtain ⟨t, htt, hr⟩ := Out.bind_ok hr
    cases hr
    exact ht t htt
  · cases hr; rfl

theorem opsNull_keep {Jx : DMat} {N : Option DMat} {e : ℝ} {r : Option DMat × Body}
    (hr : b.opsNull E Jx N e = .ok r) : b.KeepD r.2 := by
  unfold opsNull at hr
  cases N with
  | none => cases hr; rfl
  | some M =>
    obtain ⟨s, hs, hr⟩ := Out.bind_ok hr
    obtain ⟨-, -, hr⟩ := Out.bind_ok hr
    cases hr
    exact opsJbar_keep hs

theorem opsInverseDynamics_keep {J : DMat} {ddx : ℕ → ℝ} {N : Option DMat}
    {fext : FExt} {se : Bool} {o : OpsOpts} {r : (ℕ → ℝ) × Option DMat × Body}
    (hr : b.opsInverseDynamics E J ddx N fext se o = .ok r) : b.KeepD r.2.2 := by
  unfold opsInverseDynamics at hr
  obtain ⟨-, -, hr⟩ := Out.bind_ok hr
  obtain ⟨l, hl, hr⟩ := Out.bind_ok hr
  obtain ⟨s1, hs1, hr⟩ := Out.bind_ok hr
  obtain ⟨s2, hs2, hr⟩ := Out.bind_ok hr
  obtain ⟨s3, hs3, hr⟩ := Out.bind_ok hr
  obtain ⟨s4, hs4, hr⟩ := Out.bind_ok hr
  obtain ⟨s5, hs5, hr⟩ := Out.bind_ok hr
  cases hr
  have h1 := opsInertia_keep hl
  have h2 := opsAdd_keep (fun r hr => opsExternal_keep hr) hs1
  have h3 := opsAdd_keep (fun r hr => opsGravity_keep hr) hs2
  have h4 := opsAdd_keep (fun r hr => opsCoriolis_keep hr) hs3
  have h5 := opsAdd_keep (fun r hr => opsFriction_keep hr) hs4
  exact ((((h1.trans h2).trans h3).trans h4).trans h5).trans (opsNull_keep hs5)

theorem opsInertiaInverseAba_keep {l : ℤ} {x : Vec3} {r : Matrix (Fin 6) (Fin 6) ℝ × Body}
    (hr : b.opsInertiaInverseAba l x = .ok r) : b.KeepD r.2 := by
  obtain ⟨k, -, hr⟩ := Out.bind_ok hr
  split at hr
  · cases hr; rfl
  · cases hr; exact (touchTw_keep.trans touchTp_keep).upd _ rfl

theorem opsInertiaAba_keep {l : ℤ} {x : Vec3} {e : ℝ} {r : Matrix (Fin 6) (Fin 6) ℝ × Body}
    (hr : b.opsInertiaAba E l x e = .ok r) : b.KeepD r.2 := by
  obtain ⟨k, -, hr⟩ := Out.bind_ok hr
  split at hr
  · cases hr; rfl
  · obtain ⟨s, hs, hr⟩ := Out.bind_ok hr
    cases hr; exact (opsInertiaInverseAba_keep hs).upd _ rfl

theorem opsCoriolisAba_keep {l : ℤ} {x : Vec3} {e : ℝ} {r : (Fin 6 → ℝ) × Body}
    (hr : b.opsCoriolisAba E l x e = .ok r) : b.KeepD r.2 := by
  obtain ⟨k, -, hr⟩ := Out.bind_ok hr
  obtain ⟨s, hs, hr⟩ := Out.bind_ok hr
  cases hr
  have h2 := opsInertiaAba_keep hs
  have h1 : b.KeepD b.touchTw.touchTp := touchTw_keep.trans touchTp_keep
  unfold KeepD at h1 h2 ⊢
  dsimp only at h2
  exact h2.trans h1

theorem opsGravityAba_keep {l : ℤ} {x : Vec3} {f : FExt} {e : ℝ} {r : (Fin 6 → ℝ) × Body}
    (hr : b.opsGravityAba E l x f e = .ok r) : b.KeepD r.2 := by
  obtain ⟨k, -, hr⟩ := Out.bind_ok hr
  obtain ⟨s, hs, hr⟩ := Out.bind_ok hr
  cases hr
  have h2 := opsInertiaAba_keep hs
  have h1 : b.KeepD b.touchTw.touchTp := touchTw_keep.trans touchTp_keep
  unfold KeepD at h1 h2 ⊢
  dsimp only at h2
  exact h2.trans h1

theorem forcedID_keep (a : ℕ → ℝ) (f : FExt) (o : IDOpts) : b.KeepD (b.forcedID a f o) :=
  (inverseDynamics_keep (b := { b with c := { b.c with crbaDone := false } }) a f o).upd _ rfl

theorem velocityDerivative_keep (a : ℕ → ℝ) (f : FExt) (o : IDOpts) :
    b.KeepD (b.velocityDerivative a f o).2 := by
  unfold velocityDerivative
  split
  · rfl
  · exact (forcedID_keep a f o).trans (touch_keep _ _)

theorem positionDerivative_keep {a : ℕ → ℝ} {f : FExt} {o : IDOpts} {r : (ℕ → ℕ → ℝ) × Body}
    (hr : b.positionDerivative a f o = .ok r) : b.KeepD r.2 := by
  unfold positionDerivative at hr
  split at hr
  · cases hr
  · cases hr; exact ((forcedID_keep a f o).trans (touch_keep _ _)).upd _ rfl

end Body

open Body in
/-- Every query but the discrete inverse dynamics leaves the discrete-dynamics cache alone. -/
theorem Query.run_keep {E : Ext} {b : Body} (x : Query) {r : Ans × Body}
    (hx : ∀ u dt f g, x ≠ .discreteInverseDynamics u dt f g) (hr : x.run E b = .ok r) :
    b.KeepD r.2 := by
  cases x with
  | rigidBody i => obtain ⟨a, -, rfl⟩ := Out.map_ok hr; exact KeepD.refl b
  | q i => obtain ⟨a, -, rfl⟩ := Out.map_ok hr; exact KeepD.refl b
  | dq i => obtain ⟨a, -, rfl⟩ := Out.map_ok hr; exact KeepD.refl b
  | ancestors i => obtain ⟨a, -, rfl⟩ := Out.map_ok hr; exact KeepD.refl b
  | subtree i => obtain ⟨a, -, rfl⟩ := Out.map_ok hr; exact KeepD.refl b
  | tToParent i =>
    obtain ⟨a, ha, rfl⟩ := Out.map_ok hr
    obtain ⟨k, -, ha⟩ := Out.bind_ok ha
    cases ha; exact touchTp_keep
  | tToWorld i =>
    obtain ⟨a, ha, rfl⟩ := Out.map_ok hr
    obtain ⟨k, -, ha⟩ := Out.bind_ok ha
    cases ha; exact touchTw_keep
  | tFromParent i =>
    obtain ⟨a, ha, rfl⟩ := Out.map_ok hr
    obtain ⟨s, hs, ha⟩ := Out.bind_ok ha
    obtain ⟨k, -, hs⟩ := Out.bind_ok hs
    cases ha; cases hs; exact touchTp_keep
  | tFromWorld i =>
    obtain ⟨a, ha, rfl⟩ := Out.map_ok hr
    obtain ⟨s, hs, ha⟩ := Out.bind_ok ha
    obtain ⟨k, -, hs⟩ := Out.bind_ok hs
    cases ha; cases hs; exact touchTw_keep
  | position i x =>
    obtain ⟨a, ha, rfl⟩ := Out.map_ok hr
    obtain ⟨k, -, ha⟩ := Out.bind_ok ha
    cases ha; exact touchTw_keep
  | positionQ q i x => obtain ⟨a, -, rfl⟩ := Out.map_ok hr; exact KeepD.refl b
  | orientation i =>
    obtain ⟨a, ha, rfl⟩ := Out.map_ok hr
    obtain ⟨k, -, ha⟩ := Out.bind_ok ha
    cases ha; exact touchTw_keep
  | orientationQ q i => obtain ⟨a, -, rfl⟩ := Out.map_ok hr; exact KeepD.refl b
  | cartesianPose i x =>
    obtain ⟨a, ha, rfl⟩ := Out.map_ok hr
    obtain ⟨k, -, ha⟩ := Out.bind_ok ha
    cases ha; exact touchTw_keep
  | jacobian i x => obtain ⟨a, ha, rfl⟩ := Out.map_ok hr; exact jacobian_keep ha
  | jacobianQ q i x => obtain ⟨a, -, rfl⟩ := Out.map_ok hr; exact KeepD.refl b
  | linearJacobian i x =>
    obtain ⟨a, ha, rfl⟩ := Out.map_ok hr
    obtain ⟨s, hs, ha⟩ := Out.bind_ok ha
    cases ha; exact jacobian_keep hs
  | angularJacobian i =>
    obtain ⟨a, ha, rfl⟩ := Out.map_ok hr
    obtain ⟨s, hs, ha⟩ := Out.bind_ok ha
    cases ha; exact jacobian_keep hs
  | hessian i x => obtain ⟨a, ha, rfl⟩ := Out.map_ok hr; exact hessian_keep ha
  | inverseDynamics a f o => cases hr; exact inverseDynamics_keep a f o
  | centrifugalCoriolis => cases hr; exact centrifugalCoriolis_keep
  | gravity => cases hr; exact gravity_keep
  | externalTorques f => cases hr; exact externalTorques_keep f
  | friction t c e => cases hr; exact KeepD.refl b
  | inertia => cases hr; exact inertia_keep
  | compositeInertia i =>
    obtain ⟨a, ha, rfl⟩ := Out.map_ok hr
    obtain ⟨k, -, ha⟩ := Out.bind_ok ha
    cases ha; exact inertia_keep
  | inertiaInverse => cases hr; exact inertiaInverse_keep
  | forwardDynamics t f o => cases hr; exact fd_keep (E := E) t f o
  | forwardDynamicsAba t f o => cases hr; exact forwardDynamicsAba_keep t f o
  | inertiaInverseAba => cases hr; exact inertiaInverseAba_keep
  | opsInertia J e => obtain ⟨a, ha, rfl⟩ := Out.map_ok hr; exact opsInertia_keep ha
  | opsInertiaInverse J => obtain ⟨a, ha, rfl⟩ := Out.map_ok hr; exact opsInertiaInverse_keep ha
  | opsIsSingular J e => obtain ⟨a, ha, rfl⟩ := Out.map_ok hr; exact opsIsSingular_keep ha
  | opsJbar J e => obtain ⟨a, ha, rfl⟩ := Out.map_ok hr; exact opsJbar_keep ha
  | opsCoriolis J l e => obtain ⟨a, ha, rfl⟩ := Out.map_ok hr; exact opsCoriolis_keep ha
  | opsGravity J e => obtain ⟨a, ha, rfl⟩ := Out.map_ok hr; exact opsGravity_keep ha
  | opsExternal J f e => obtain ⟨a, ha, rfl⟩ := Out.map_ok hr; exact opsExternal_keep ha
  | opsFriction J t e s => obtain ⟨a, ha, rfl⟩ := Out.map_ok hr; exact opsFriction_keep ha
  | opsInverseDynamics J x N f sf o =>
    obtain ⟨a, ha, rfl⟩ := Out.map_ok hr; exact opsInverseDynamics_keep ha
  | opsInertiaInverseAba l x =>
    obtain ⟨a, ha, rfl⟩ := Out.map_ok hr; exact opsInertiaInverseAba_keep ha
  | opsInertiaAba l x e => obtain ⟨a, ha, rfl⟩ := Out.map_ok hr; exact opsInertiaAba_keep ha
  | opsCoriolisAba l x e => obtain ⟨a, ha, rfl⟩ := Out.map_ok hr; exact opsCoriolisAba_keep ha
  | opsGravityAba l x f e => obtain ⟨a, ha, rfl⟩ := Out.map_ok hr; exact opsGravityAba_keep ha
  | velocityDerivative a f o => cases hr; exact velocityDerivative_keep a f o
  | positionDerivative a f o =>
    obtain ⟨a, ha, rfl⟩ := Out.map_ok hr; exact positionDerivative_keep ha
  | discreteInverseDynamics u dt f g => exact absurd rfl (hx u dt f g)

end SpatialDyn
