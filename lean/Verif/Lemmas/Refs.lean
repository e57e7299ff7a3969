import Verif.Spec.Refs
import Verif.Lemmas.Keep
import Verif.Props.OpsCache

/-!
# Results returned by reference: helper lemmas
-/

namespace SpatialDyn

open Body

variable {E : Ext} {b b' b1 b2 : Body} {kj ko ka : Prop} {d : Bool}

/-- What every query keeps. -/
theorem Query.run_kept {x : Query} {a : Ans} (h : x.run E b = .ok (a, b')) :
    Kept (x.point b = none) (x.task = none) (x.taskAba b = none) b b' := by
  cases x <;> simp only [Query.run] at h
  case rigidBody => obtain ⟨r, -, e⟩ := Out.map_ok h; cases e; exact .refl _
  case q => obtain ⟨r, -, e⟩ := Out.map_ok h; cases e; exact .refl _
  case dq => obtain ⟨r, -, e⟩ := Out.map_ok h; cases e; exact .refl _
  case ancestors => obtain ⟨r, -, e⟩ := Out.map_ok h; cases e; exact .refl _
  case subtree => obtain ⟨r, -, e⟩ := Out.map_ok h; cases e; exact .refl _
  case tToParent i =>
    obtain ⟨r, h1, e0⟩ := Out.map_ok h; cases e0
    obtain ⟨k, -, h11⟩ := Out.bind_ok h1; cases h11; exact touchTp_kept
  case tToWorld i =>
    obtain ⟨r, h1, e0⟩ := Out.map_ok h; cases e0
    obtain ⟨k, -, h11⟩ := Out.bind_ok h1; cases h11; exact touchTw_kept
  case tFromParent i =>
    obtain ⟨r, h1, e0⟩ := Out.map_ok h; cases e0
    obtain ⟨s, h11, e0⟩ := Out.bind_ok h1; cases e0
    obtain ⟨k, -, h111⟩ := Out.bind_ok h11; cases h111; exact touchTp_kept
  case tFromWorld i =>
    obtain ⟨r, h1, e0⟩ := Out.map_ok h; cases e0
    obtain ⟨s, h11, e0⟩ := Out.bind_ok h1; cases e0
    obtain ⟨k, -, h111⟩ := Out.bind_ok h11; cases h111; exact touchTw_kept
  case position i x =>
    obtain ⟨r, h1, e0⟩ := Out.map_ok h; cases e0
    obtain ⟨k, -, h11⟩ := Out.bind_ok h1; cases h11; exact touchTw_kept
  case positionQ => obtain ⟨r, -, e⟩ := Out.map_ok h; cases e; exact .refl _
  case orientation i =>
    obtain ⟨r, h1, e0⟩ := Out.map_ok h; cases e0
    obtain ⟨k, -, h11⟩ := Out.bind_ok h1; cases h11; exact touchTw_kept
  case orientationQ => obtain ⟨r, -, e⟩ := Out.map_ok h; cases e; exact .refl _
  case cartesianPose i x =>
    obtain ⟨r, h1, e0⟩ := Out.map_ok h; cases e0
    obtain ⟨k, -, h11⟩ := Out.bind_ok h1; cases h11; exact touchTw_kept
  case jacobian i x =>
    obtain ⟨r, h1, e0⟩ := Out.map_ok h; cases e0
    exact (jacobian_kept h1).mono (by simp [Query.point]) id id
  case jacobianQ => obtain ⟨r, -, e⟩ := Out.map_ok h; cases e; exact .refl _
  case linearJacobian i x =>
    obtain ⟨r, h1, e0⟩ := Out.map_ok h; cases e0
    obtain ⟨s, h11, e0⟩ := Out.bind_ok h1; cases e0
    exact (jacobian_kept h11).mono (by simp [Query.point]) id id
  case angularJacobian i =>
    obtain ⟨r, h1, e0⟩ := Out.map_ok h; cases e0
    obtain ⟨s, h11, e0⟩ := Out.bind_ok h1; cases e0
    exact (jacobian_kept h11).mono (by simp [Query.point]) id id
  case hessian i x =>
    obtain ⟨r, h1, e0⟩ := Out.map_ok h; cases e0
    obtain ⟨k, -, h11⟩ := Out.bind_ok h1
    obtain ⟨s, h111, e0⟩ := Out.bind_ok h11; cases e0
    exact ((jacobian_kept h111).trans touchTw_kept).mono (by simp [Query.point]) id id
  case inverseDynamics => cases h; exact inverseDynamics_kept _ _ _
  case centrifugalCoriolis => cases h; exact centrifugalCoriolis_kept
  case gravity => cases h; exact gravity_kept
  case externalTorques => cases h; exact externalTorques_kept _
  case friction => cases h; exact .refl _
  case inertia => cases h; exact inertia_kept
  case compositeInertia i =>
    obtain ⟨r, h1, e0⟩ := Out.map_ok h; cases e0
    obtain ⟨k, -, h11⟩ := Out.bind_ok h1; cases h11; exact inertia_kept
  case inertiaInverse => cases h; exact inertiaInverse_kept
  case forwardDynamics => cases h; exact fd_kept _ _ _
  case forwardDynamicsAba => cases h; exact forwardDynamicsAba_kept _ _ _
  case inertiaInverseAba => cases h; exact inertiaInverseAba_kept
  case opsInertia J e =>
    obtain ⟨r, h1, e0⟩ := Out.map_ok h; cases e0
    exact (opsInertia_kept h1).mono id (by simp [Query.task]) id
  case opsInertiaInverse J =>
    obtain ⟨r, h1, e0⟩ := Out.map_ok h; cases e0
    exact (opsInertiaInverse_kept h1).mono id (by simp [Query.task]) id
  case opsIsSingular J e =>
    obtain ⟨r, h1, e0⟩ := Out.map_ok h; cases e0
    obtain ⟨s, h11, e0⟩ := Out.bind_ok h1; cases e0
    exact (opsInertia_kept h11).mono id (by simp [Query.task]) id
  case opsJbar J e =>
    obtain ⟨r, h1, e0⟩ := Out.map_ok h; cases e0
    exact (opsJbar_kept h1).mono id (by simp [Query.task]) id
  case opsCoriolis J l e =>
    obtain ⟨r, h1, e0⟩ := Out.map_ok h; cases e0
    exact (opsCoriolis_kept h1).mono id (by simp [Query.task]) id
  case opsGravity J e =>
    obtain ⟨r, h1, e0⟩ := Out.map_ok h; cases e0
    exact (opsGravity_kept h1).mono id (by simp [Query.task]) id
  case opsExternal J f e =>
    obtain ⟨r, h1, e0⟩ := Out.map_ok h; cases e0
    exact (opsExternal_kept h1).mono id (by simp [Query.task]) id
  case opsFriction J t e s =>
    obtain ⟨r, h1, e0⟩ := Out.map_ok h; cases e0
    exact (opsFriction_kept h1).mono id (by simp [Query.task]) id
  case opsInverseDynamics J x N f sf o =>
    obtain ⟨r, h1, e0⟩ := Out.map_ok h; cases e0
    exact (opsInverseDynamics_kept h1).mono id (by simp [Query.task]) id
  case opsInertiaInverseAba l x =>
    obtain ⟨r, h1, e0⟩ := Out.map_ok h; cases e0
    exact (opsInertiaInverseAba_kept h1).mono id id (by simp [Query.taskAba])
  case opsInertiaAba l x e =>
    obtain ⟨r, h1, e0⟩ := Out.map_ok h; cases e0
    exact (opsInertiaAba_kept h1).mono id id (by simp [Query.taskAba])
  case opsCoriolisAba l x e =>
    obtain ⟨r, h1, e0⟩ := Out.map_ok h; cases e0
    exact (opsCoriolisAba_kept h1).mono id id (by simp [Query.taskAba])
  case opsGravityAba l x f e =>
    obtain ⟨r, h1, e0⟩ := Out.map_ok h; cases e0
    exact (opsGravityAba_kept h1).mono id id (by simp [Query.taskAba])
  case velocityDerivative => cases h; exact velocityDerivative_kept _ _ _
  case positionDerivative =>
    obtain ⟨r, h1, e0⟩ := Out.map_ok h; cases e0
    exact positionDerivative_kept h1
  case discreteInverseDynamics => cases h; exact discreteID_kept _ _ _ _

/-! ## The operational-space matrices -/

/-- The stored matrices are those of the task `J`, with the tolerances `es`. -/
structure HeldOps (J : DMat) (es : List ℝ) (lm jb : Prop) (L M X : DMat) (o : OpsCache) : Prop where
  done : o.lambdaInvDone = true
  eqv : o.J.Eqv J
  inv : o.LambdaInv = L
  eps : ∀ e ∈ es, o.eps = e
  lam : lm → es ≠ [] ∧ o.lambdaDone = true ∧ o.Lambda = M
  jbar : jb → es ≠ [] ∧ o.jbarDone = true ∧ o.Jbar = X

section
variable {J K L M X : DMat} {es : List ℝ} {lm jb : Prop} {f : ℝ}

theorem HeldOps.same (h : HeldOps J es lm jb L M X b.c.ops) (hK : K.Eqv J) : b.opsSame K = .ok true :=
  opsSame_of_eqv (h.eqv.trans hK.symm)

theorem HeldOps.inertiaInverse (h : HeldOps J es lm jb L M X b.c.ops) (hK : K.Eqv J) :
    b.opsInertiaInverse E K = .ok (L, b) := by
  unfold Body.opsInertiaInverse
  rw [h.done, h.same hK]
  simp only [Bool.not_true, Bool.false_eq_true, if_false, Out.bind, if_true]
  rw [h.inv]

theorem HeldOps.lambdaCompute (h : HeldOps J es lm jb L M X b.c.ops) (hK : K.Eqv J)
    (hf : ∀ e ∈ es, f = e) (hn : ¬ lm) {r : DMat × Body} (hr : b.opsLambdaCompute E K f = .ok r) :
    HeldOps J es lm jb L M X r.2.c.ops := by
  unfold opsLambdaCompute at hr
  rw [h.inertiaInverse hK] at hr
  cases hr
  exact ⟨h.done, h.eqv, h.inv, hf, fun x => absurd x hn, h.jbar⟩

theorem HeldOps.inertia (h : HeldOps J es lm jb L M X b.c.ops) (hK : K.Eqv J)
    (hf : ∀ e ∈ es, f = e) {r : DMat × Body} (hr : b.opsInertia E K f = .ok r) :
    HeldOps J es lm jb L M X r.2.c.ops := by
  by_cases hl : lm
  · obtain ⟨h1, h2, h3⟩ := h.lam hl
    unfold Body.opsInertia at hr
    rw [h2, h.same hK] at hr
    simp only [Bool.not_true, Bool.false_eq_true, if_false, Out.bind] at hr
    obtain ⟨e, he⟩ := List.exists_mem_of_ne_nil _ h1
    rw [if_pos ⟨trivial, (h.eps e he).trans (hf e he).symm⟩] at hr
    cases hr
    exact h
  · unfold Body.opsInertia at hr
    split at hr
    · exact h.lambdaCompute hK hf hl hr
    · rw [h.same hK] at hr
      simp only [Out.bind] at hr
      split at hr
      · cases hr; exact h
      · exact h.lambdaCompute hK hf hl hr

theorem HeldOps.jbarInv (h : HeldOps J es lm jb L M X b.c.ops) (hK : K.Eqv J)
    (hf : ∀ e ∈ es, f = e) {r : DMat × Body} (hr : b.opsJbar E K f = .ok r) :
    HeldOps J es lm jb L M X r.2.c.ops := by
  by_cases hl : jb
  · obtain ⟨h1, h2, h3⟩ := h.jbar hl
    unfold Body.opsJbar at hr
    rw [h2, h.same hK] at hr
    simp only [Bool.not_true, Bool.false_eq_true, if_false, Out.bind] at hr
    obtain ⟨e, he⟩ := List.exists_mem_of_ne_nil _ h1
    rw [if_pos ⟨trivial, (h.eps e he).trans (hf e he).symm⟩] at hr
    cases hr
    exact h
  · have key : ∀ {r}, b.opsJbarCompute E K f = .ok r → HeldOps J es lm jb L M X r.2.c.ops := by
      intro r hr
      unfold opsJbarCompute at hr
      obtain ⟨s, hs, hr⟩ := Out.bind_ok hr
      cases hr
      have hi := h.inertia hK hf hs
      exact ⟨hi.done, hi.eqv, hi.inv, hi.eps, hi.lam, fun x => absurd x hl⟩
    unfold Body.opsJbar at hr
    split at hr
    · exact key hr
    · rw [h.same hK] at hr
      simp only [Out.bind] at hr
      split at hr
      · cases hr; exact h
      · exact key hr

theorem HeldOps.of_kept (h : HeldOps J es lm jb L M X b.c.ops) (hk : Kept kj True ka b b') :
    HeldOps J es lm jb L M X b'.c.ops := by rw [hk.cache.ops trivial]; exact h

theorem HeldOps.coriolis (h : HeldOps J es lm jb L M X b.c.ops) (hK : K.Eqv J)
    (hf : ∀ e ∈ es, f = e) (h0 : ∀ e ∈ es, 0 = e) {l : ℤ} {r : (ℕ → ℝ) × Body}
    (hr : b.opsCoriolis E K l f = .ok r) : HeldOps J es lm jb L M X r.2.c.ops := by
  unfold Body.opsCoriolis at hr
  split at hr
  · cases hr
  · obtain ⟨s, hs, hr⟩ := Out.bind_ok hr
    obtain ⟨t, ht, hr⟩ := Out.bind_ok hr
    obtain ⟨k, -, hr⟩ := Out.bind_ok hr
    cases hr
    exact (((h.jbarInv hK hf hs).of_kept (centrifugalCoriolis_kept (kj := True) (ka := True))).inertia hK
      h0 ht).of_kept (touchTw_kept (kj := True) (ka := True))

theorem HeldOps.gravity (h : HeldOps J es lm jb L M X b.c.ops) (hK : K.Eqv J)
    (hf : ∀ e ∈ es, f = e) {r : (ℕ → ℝ) × Body}
    (hr : b.opsGravity E K f = .ok r) : HeldOps J es lm jb L M X r.2.c.ops := by
  unfold Body.opsGravity at hr
  obtain ⟨s, hs, hr⟩ := Out.bind_ok hr
  cases hr
  exact (h.jbarInv hK hf hs).of_kept (gravity_kept (kj := True) (ka := True))

theorem HeldOps.external (h : HeldOps J es lm jb L M X b.c.ops) (hK : K.Eqv J)
    (hf : ∀ e ∈ es, f = e) {F : FExt} {r : (ℕ → ℝ) × Body}
    (hr : b.opsExternal E K F f = .ok r) : HeldOps J es lm jb L M X r.2.c.ops := by
  unfold Body.opsExternal at hr
  obtain ⟨s, hs, hr⟩ := Out.bind_ok hr
  cases hr
  exact (h.jbarInv hK hf hs).of_kept (externalTorques_kept (kj := True) (ka := True) F)

theorem HeldOps.friction (h : HeldOps J es lm jb L M X b.c.ops) (hK : K.Eqv J)
    (hf : ∀ e ∈ es, f = e) {t : ℕ → ℝ} {g : ℝ} {r : (ℕ → ℝ) × Body}
    (hr : b.opsFriction E K t f g = .ok r) : HeldOps J es lm jb L M X r.2.c.ops := by
  unfold Body.opsFriction at hr
  obtain ⟨s, hs, hr⟩ := Out.bind_ok hr
  cases hr
  exact h.jbarInv hK hf hs

theorem HeldOps.add {s r : (ℕ → ℝ) × Body} (h : HeldOps J es lm jb L M X s.2.c.ops) {fl : Bool}
    {t : Body → (ℕ → ℝ) → Out ((ℕ → ℝ) × Body)}
    (ht : ∀ b F r, HeldOps J es lm jb L M X b.c.ops → t b F = .ok r → HeldOps J es lm jb L M X r.2.c.ops)
    (hr : opsAdd fl s t = .ok r) : HeldOps J es lm jb L M X r.2.c.ops := by
  unfold opsAdd at hr
  split at hr
  · obtain ⟨u, hu, hr⟩ := Out.bind_ok hr
    cases hr
    exact ht _ _ u h hu
  · cases hr; exact h

theorem HeldOps.inverseDynamics (h : HeldOps J es lm jb L M X b.c.ops) {x : ℕ → ℝ} {N : Option DMat}
    {F : FExt} {sf : Bool} {o : OpsOpts} (hK : (opsJx K N).Eqv J) (hf : ∀ e ∈ es, o.svdEps = e)
    (h0 : ∀ e ∈ es, 0 = e) {r : (ℕ → ℝ) × Option DMat × Body}
    (hr : b.opsInverseDynamics E K x N F sf o = .ok r) : HeldOps J es lm jb L M X r.2.2.c.ops := by
  unfold Body.opsInverseDynamics at hr
  obtain ⟨_, -, hr⟩ := Out.bind_ok hr
  obtain ⟨l, hl, hr⟩ := Out.bind_ok hr
  obtain ⟨s1, h1, hr⟩ := Out.bind_ok hr
  obtain ⟨s2, h2, hr⟩ := Out.bind_ok hr
  obtain ⟨s3, h3, hr⟩ := Out.bind_ok hr
  obtain ⟨s4, h4, hr⟩ := Out.bind_ok hr
  obtain ⟨s5, h5, hr⟩ := Out.bind_ok hr
  cases hr
  have k1 := HeldOps.add (h.inertia hK hf hl) (fun b F r hb => hb.external hK hf) h1
  have k2 := HeldOps.add k1 (fun b F r hb => hb.gravity hK hf) h2
  have k3 := HeldOps.add k2 (fun b F r hb => hb.coriolis hK h0 h0) h3
  have k4 := HeldOps.add k3 (fun b F r hb => hb.friction hK hf) h4
  unfold opsNull at h5
  split at h5
  · cases h5; exact k4
  · obtain ⟨u, hu, h5⟩ := Out.bind_ok h5
    obtain ⟨_, -, h5⟩ := Out.bind_ok h5
    cases h5
    exact k4.jbarInv hK hf hu

/-- Queries about the same task, and about none, keep the matrices. -/
theorem HeldOps.run (h : HeldOps J es lm jb L M X b.c.ops) {y : Query} {a : Ans}
    (hy : ∀ K fs, y.task = some (K, fs) → K.Eqv J ∧ ∀ e ∈ es, ∀ f ∈ fs, f = e)
    (hr : y.run E b = .ok (a, b')) : HeldOps J es lm jb L M X b'.c.ops := by
  by_cases hn : y.task = none
  · exact h.of_kept ((Query.run_kept hr).mono id (fun _ => hn) id)
  · cases y <;> simp only [Query.task, not_true_eq_false, reduceCtorEq, not_false_eq_true] at hn <;>
      obtain ⟨hK, hf⟩ := hy _ _ rfl <;>
      simp only [List.mem_cons, List.not_mem_nil, or_false, forall_eq_or_imp, forall_eq] at hf <;>
      simp only [Query.run] at hr <;>
      obtain ⟨u, hu, e0⟩ := Out.map_ok hr
    · cases e0; exact h.inertia hK hf hu
    · cases e0; rw [h.inertiaInverse hK] at hu; cases hu; exact h
    · cases e0; obtain ⟨v, hv, e0⟩ := Out.bind_ok hu; cases e0; exact h.inertia hK hf hv
    · cases e0; exact h.jbarInv hK hf hu
    · cases e0; exact h.coriolis hK (fun e he => (hf e he).1) (fun e he => (hf e he).2) hu
    · cases e0; exact h.gravity hK hf hu
    · cases e0; exact h.external hK hf hu
    · cases e0; exact h.friction hK hf hu
    · cases e0; exact h.inverseDynamics hK (fun e he => (hf e he).1) (fun e he => (hf e he).2) hu

end

/-! ## The articulated-body matrices -/

/-- The stored matrices are those of link `k` and point `o`, with the tolerances `es`. -/
structure HeldAba (k : ℕ) (o : Vec3) (es : List ℝ) (L M : Matrix (Fin 6) (Fin 6) ℝ) (c : OpsAbaCache) :
    Prop where
  done : c.lambdaInvDone = true
  idx : c.idx = k
  offset : c.offset = o
  inv : c.LambdaInv = L
  lam : es ≠ [] → c.lambdaDone = true ∧ (∀ e ∈ es, c.eps = e) ∧ c.Lambda = M

theorem index_resolve {l l' : ℤ} {k : ℕ} (h : b.index l = .ok k) (e : b.resolve l' = b.resolve l) :
    b.index l' = .ok k := by
  unfold index at h ⊢
  rw [e]
  exact h

theorem index_toNat {l : ℤ} {k : ℕ} (h : b.index l = .ok k) : (b.resolve l).toNat = k := by
  unfold index at h
  simp only at h
  split at h
  · cases h; rfl
  · cases h

theorem index_self {l : ℤ} {k : ℕ} (h : b.index l = .ok k) : b.index (k : ℤ) = .ok k :=
  index_ofNat (index_lt h)

section
variable {k : ℕ} {o : Vec3} {es : List ℝ} {L M : Matrix (Fin 6) (Fin 6) ℝ} {f : ℝ} {l : ℤ}

theorem HeldAba.inertiaInverse (h : HeldAba k o es L M b.c.opsAba) (hl : b.index l = .ok k) :
    b.opsInertiaInverseAba l o = .ok (L, b) := by
  unfold Body.opsInertiaInverseAba
  rw [hl]
  simp only [Out.bind]
  rw [if_pos ⟨h.done, h.idx, h.offset⟩, h.inv]

theorem HeldAba.inertia (h : HeldAba k o es L M b.c.opsAba) (hl : b.index l = .ok k)
    (hf : ∀ e ∈ es, f = e) {r : Matrix (Fin 6) (Fin 6) ℝ × Body} (hr : b.opsInertiaAba E l o f = .ok r) :
    HeldAba k o es L M r.2.c.opsAba := by
  unfold Body.opsInertiaAba at hr
  rw [hl] at hr
  simp only [Out.bind] at hr
  split at hr
  · cases hr; exact h
  · next hn =>
    rw [h.inertiaInverse (index_self hl)] at hr
    cases hr
    refine ⟨h.done, h.idx, h.offset, h.inv, fun x => absurd ?_ hn⟩
    obtain ⟨e, he⟩ := List.exists_mem_of_ne_nil _ x
    obtain ⟨h1, h2, -⟩ := h.lam x
    exact ⟨h1, h.idx, h.offset, (h2 e he).trans (hf e he).symm⟩

theorem HeldAba.of_eq (h : HeldAba k o es L M b.c.opsAba) (e : b'.c.opsAba = b.c.opsAba) :
    HeldAba k o es L M b'.c.opsAba := by rw [e]; exact h

theorem Kept.index (h : Kept kj ko ka b b') (l : ℤ) : b'.index l = b.index l := by
  obtain ⟨⟨c, rfl⟩, -⟩ := h; rfl

theorem Kept.resolve (h : Kept kj ko ka b b') (l : ℤ) : b'.resolve l = b.resolve l := by
  obtain ⟨⟨c, rfl⟩, -⟩ := h; rfl

/-- Queries about the same point, and about none, keep the matrices. -/
theorem HeldAba.run (h : HeldAba k o es L M b.c.opsAba) (hl : b.index l = .ok k) {y : Query} {a : Ans}
    (hy : ∀ j p fs, y.taskAba b = some (j, p, fs) →
      j = b.resolve l ∧ p = o ∧ ∀ e ∈ es, ∀ f ∈ fs, f = e)
    (hr : y.run E b = .ok (a, b')) : HeldAba k o es L M b'.c.opsAba := by
  by_cases hn : y.taskAba b = none
  · exact h.of_eq ((Query.run_kept hr).cache.opsAba hn)
  · cases y <;> simp only [Query.taskAba, not_true_eq_false, reduceCtorEq, not_false_eq_true] at hn <;>
      obtain ⟨hj, rfl, hf⟩ := hy _ _ _ rfl <;>
      simp only [List.mem_cons, List.not_mem_nil, or_false, forall_eq] at hf <;>
      simp only [Query.run] at hr <;>
      obtain ⟨u, hu, e0⟩ := Out.map_ok hr
    · cases e0
      rw [h.inertiaInverse (index_resolve hl hj)] at hu
      cases hu
      exact h
    · cases e0
      exact h.inertia (index_resolve hl hj) hf hu
    · cases e0
      unfold Body.opsCoriolisAba at hu
      rw [index_resolve hl hj] at hu
      simp only [Out.bind] at hu
      obtain ⟨s, hs, hu⟩ := Out.bind_ok hu
      cases hu
      have hk : Kept True True True b b.touchTw.touchTp := touchTw_kept.trans touchTp_kept
      refine HeldAba.inertia (b := _) ?_ ?_ hf hs
      · exact h.of_eq (b := b) (hk.cache.opsAba trivial)
      · exact (hk.index _).trans (index_self hl)
    · cases e0
      unfold Body.opsGravityAba at hu
      rw [index_resolve hl hj] at hu
      simp only [Out.bind] at hu
      obtain ⟨s, hs, hu⟩ := Out.bind_ok hu
      cases hu
      have hk : Kept True True True b b.touchTw.touchTp := touchTw_kept.trans touchTp_kept
      refine HeldAba.inertia (b := _) ?_ ?_ hf hs
      · exact h.of_eq (b := b) (hk.cache.opsAba trivial)
      · exact (hk.index _).trans (index_self hl)

end

/-! ## The Jacobian -/

/-- The stored Jacobian is that of link `k` and point `o`. -/
def HeldJac (k : ℕ) (o : Vec3) (J : ℕ → Motion) (c : Cache) : Prop :=
  c.jacDone = true ∧ c.jacLink = k ∧ c.jacOffset = o ∧ c.J = J

theorem HeldJac.jacobian {k : ℕ} {o : Vec3} {J : ℕ → Motion} {l : ℤ} (h : HeldJac k o J b.c)
    (hl : b.index l = .ok k) : b.jacobian l o = .ok (J, b) := by
  unfold Body.jacobian
  rw [hl]
  simp only [Out.bind]
  rw [if_pos ⟨h.1, h.2.1, h.2.2.1⟩, h.2.2.2]

theorem HeldJac.run {k : ℕ} {o : Vec3} {J : ℕ → Motion} {l : ℤ} (h : HeldJac k o J b.c)
    (hl : b.index l = .ok k) {y : Query} {a : Ans}
    (hy : ∀ j p, y.point b = some (j, p) → j = b.resolve l ∧ (p = none ∨ p = some o))
    (hr : y.run E b = .ok (a, b')) : HeldJac k o J b'.c := by
  by_cases hn : y.point b = none
  · obtain ⟨e1, e2, e3, e4⟩ := (Query.run_kept hr).cache.jac hn
    exact ⟨e1.trans h.1, e2.trans h.2.1, e3.trans h.2.2.1, e4.trans h.2.2.2⟩
  · cases y <;> simp only [Query.point, not_true_eq_false, reduceCtorEq, not_false_eq_true] at hn <;>
      obtain ⟨hj, hp⟩ := hy _ _ rfl <;>
      simp only [reduceCtorEq, Option.some.injEq, false_or, true_or] at hp <;>
      simp only [Query.run] at hr <;>
      obtain ⟨u, hu, e0⟩ := Out.map_ok hr
    · cases e0; subst hp
      rw [h.jacobian (index_resolve hl hj)] at hu
      cases hu; exact h
    · cases e0; subst hp
      unfold Body.linearJacobian at hu
      rw [h.jacobian (index_resolve hl hj)] at hu
      cases hu; exact h
    · cases e0
      unfold Body.angularJacobian at hu
      rw [h.2.2.1, h.jacobian (index_resolve hl hj)] at hu
      cases hu; exact h
    · cases e0; subst hp
      unfold Body.hessian at hu
      rw [index_resolve hl hj] at hu
      simp only [Out.bind] at hu
      rw [h.jacobian (index_self hl)] at hu
      cases hu
      obtain ⟨e1, e2, e3, e4⟩ := (touchTw_kept (b := b) (kj := True) (ko := True) (ka := True)).cache.jac trivial
      exact ⟨e1.trans h.1, e2.trans h.2.1, e3.trans h.2.2.1, e4.trans h.2.2.2⟩

end SpatialDyn
