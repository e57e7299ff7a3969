import Verif.Model.Refs
import Verif.Lemmas.Steps

/-!
# What queries leave alone

A stored result whose flag is set is not written again by any query; the Jacobian and the
operational-space matrices are written only by the functions that compute them.
-/

namespace SpatialDyn

open Body

/-- Results whose flag is set stay.  `kj`, `ko`, `ka`: the Jacobian, the operational-space matrices and
their articulated-body versions stay as they are. -/
structure Keep (kj ko ka : Prop) (c c' : Cache) : Prop where
  tp : c.tpDone = true → c'.tpDone = true ∧ c'.Tp = c.Tp
  tw : c.twDone = true → c'.twDone = true ∧ c'.Tw = c.Tw
  cc : c.ccDone = true → c'.ccDone = true ∧ c'.C = c.C
  grav : c.gravDone = true → c'.gravDone = true ∧ c'.G = c.G
  crba : c.crbaDone = true → c'.crbaDone = true ∧ c'.A = c.A ∧ c'.Ic = c.Ic
  inv : c.invDone = true → c'.invDone = true ∧ c'.Afact = c.Afact
  abaInv : c.abaInvDone = true → c'.abaInvDone = true ∧ c'.abaInv = c.abaInv
  jac : kj → c'.jacDone = c.jacDone ∧ c'.jacLink = c.jacLink ∧ c'.jacOffset = c.jacOffset ∧ c'.J = c.J
  ops : ko → c'.ops = c.ops
  opsAba : ka → c'.opsAba = c.opsAba

/-- A call that changes nothing but the cache, and keeps results. -/
structure Kept (kj ko ka : Prop) (b b' : Body) : Prop where
  body : ∃ c, b' = { b with c := c }
  cache : Keep kj ko ka b.c b'.c

variable {E : Ext} {b b' b1 b2 b3 : Body} {kj ko ka : Prop}

theorem Keep.refl (c : Cache) : Keep kj ko ka c c := by
  constructor <;> intro h <;> simp_all

theorem Keep.trans {c c' c'' : Cache} (h : Keep kj ko ka c c') (h' : Keep kj ko ka c' c'') :
    Keep kj ko ka c c'' := by
  constructor
  · intro k; obtain ⟨a, e⟩ := h.tp k; exact ⟨(h'.tp a).1, (h'.tp a).2.trans e⟩
  · intro k; obtain ⟨a, e⟩ := h.tw k; exact ⟨(h'.tw a).1, (h'.tw a).2.trans e⟩
  · intro k; obtain ⟨a, e⟩ := h.cc k; exact ⟨(h'.cc a).1, (h'.cc a).2.trans e⟩
  · intro k; obtain ⟨a, e⟩ := h.grav k; exact ⟨(h'.grav a).1, (h'.grav a).2.trans e⟩
  · intro k; obtain ⟨a, e, e'⟩ := h.crba k
    exact ⟨(h'.crba a).1, (h'.crba a).2.1.trans e, (h'.crba a).2.2.trans e'⟩
  · intro k; obtain ⟨a, e⟩ := h.inv k; exact ⟨(h'.inv a).1, (h'.inv a).2.trans e⟩
  · intro k; obtain ⟨a, e⟩ := h.abaInv k; exact ⟨(h'.abaInv a).1, (h'.abaInv a).2.trans e⟩
  · intro k
    obtain ⟨e1, e2, e3, e4⟩ := h.jac k
    obtain ⟨f1, f2, f3, f4⟩ := h'.jac k
    exact ⟨f1.trans e1, f2.trans e2, f3.trans e3, f4.trans e4⟩
  · intro k; exact (h'.ops k).trans (h.ops k)
  · intro k; exact (h'.opsAba k).trans (h.opsAba k)

theorem Kept.refl (b : Body) : Kept kj ko ka b b := ⟨⟨b.c, rfl⟩, .refl _⟩

theorem Kept.trans (h : Kept kj ko ka b1 b2) (h' : Kept kj ko ka b2 b3) : Kept kj ko ka b1 b3 := by
  obtain ⟨⟨c, rfl⟩, k⟩ := h
  obtain ⟨⟨c', rfl⟩, k'⟩ := h'
  exact ⟨⟨c', rfl⟩, k.trans k'⟩

theorem Kept.mono {kj' ko' ka' : Prop} (h : Kept kj ko ka b b') (hj : kj' → kj) (ho : ko' → ko)
    (ha : ka' → ka) : Kept kj' ko' ka' b b' :=
  ⟨h.body, ⟨h.cache.tp, h.cache.tw, h.cache.cc, h.cache.grav, h.cache.crba, h.cache.inv, h.cache.abaInv,
    fun k => h.cache.jac (hj k), fun k => h.cache.ops (ho k), fun k => h.cache.opsAba (ha k)⟩⟩

theorem Kept.dof (h : Kept kj ko ka b b') : b'.dof = b.dof := by
  obtain ⟨⟨c, rfl⟩, -⟩ := h; rfl

theorem touchTp_kept : Kept kj ko ka b b.touchTp := by
  refine ⟨⟨_, rfl⟩, ?_⟩
  constructor <;> intro h <;> simp_all [touchTp, viewTp]

theorem touchTw_kept : Kept kj ko ka b b.touchTw := by
  unfold touchTw
  split
  · exact .refl _
  · next hw =>
    refine ⟨⟨_, rfl⟩, ?_⟩
    constructor <;> intro h <;> simp_all [viewTp]

theorem touch_kept (tp tw : Bool) : Kept kj ko ka b (b.touch tp tw) := by
  unfold touch
  cases tp <;> cases tw <;> simp only [Bool.false_eq_true, if_true, if_false]
  · exact .refl _
  · exact touchTw_kept
  · exact touchTp_kept
  · exact touchTw_kept.trans touchTp_kept

theorem touch_only (tp tw : Bool) : ∃ x T y U, b.touch tp tw =
    { b with c := { b.c with tpDone := x, Tp := T, twDone := y, Tw := U } } := by
  have h1 : ∃ x T y U, b.touchTw = { b with c := { b.c with tpDone := x, Tp := T, twDone := y, Tw := U } } := by
    unfold touchTw
    split
    · exact ⟨_, _, _, _, rfl⟩
    · exact ⟨_, _, _, _, rfl⟩
  unfold touch
  cases tw
  · cases tp
    · exact ⟨_, _, _, _, rfl⟩
    · exact ⟨_, _, _, _, rfl⟩
  · obtain ⟨x, T, y, U, e⟩ := h1
    simp only [if_true]
    rw [e]
    cases tp
    · exact ⟨_, _, _, _, rfl⟩
    · exact ⟨_, _, _, _, rfl⟩

theorem touch_crbaDone (tp tw : Bool) : (b.touch tp tw).c.crbaDone = b.c.crbaDone := by
  obtain ⟨x, T, y, U, e⟩ := touch_only (b := b) tp tw; rw [e]

theorem touch_invDone (tp tw : Bool) : (b.touch tp tw).c.invDone = b.c.invDone := by
  obtain ⟨x, T, y, U, e⟩ := touch_only (b := b) tp tw; rw [e]

theorem touch_ccDone (tp tw : Bool) : (b.touch tp tw).c.ccDone = b.c.ccDone := by
  obtain ⟨x, T, y, U, e⟩ := touch_only (b := b) tp tw; rw [e]

theorem touch_gravDone (tp tw : Bool) : (b.touch tp tw).c.gravDone = b.c.gravDone := by
  obtain ⟨x, T, y, U, e⟩ := touch_only (b := b) tp tw; rw [e]

theorem touch_abaInvDone (tp tw : Bool) : (b.touch tp tw).c.abaInvDone = b.c.abaInvDone := by
  obtain ⟨x, T, y, U, e⟩ := touch_only (b := b) tp tw; rw [e]

/-- Changes to the working arrays only. -/
theorem Kept.of {c : Cache} (h : Keep kj ko ka b.c c) : Kept kj ko ka b { b with c := c } := ⟨⟨_, rfl⟩, h⟩

theorem externalTorques_kept (f : FExt) : Kept kj ko ka b (b.externalTorques f).2 := by
  refine (touch_kept b.hasChild (b.hasExt f)).trans (Kept.of ?_)
  constructor <;> intro h <;> simp_all

theorem inverseDynamics_kept (a : ℕ → ℝ) (f : FExt) (o : IDOpts) :
    Kept kj ko ka b (b.inverseDynamics a f o).2 := by
  unfold inverseDynamics
  split
  · exact externalTorques_kept f
  · refine (touch_kept _ _).trans (Kept.of ?_)
    constructor <;> intro h <;> simp_all

theorem centrifugalCoriolis_kept : Kept kj ko ka b b.centrifugalCoriolis.2 := by
  unfold centrifugalCoriolis
  split
  · exact .refl _
  · next hn =>
    have e := touch_ccDone (b := b) b.hasChild false
    refine (touch_kept b.hasChild false).trans (Kept.of ?_)
    constructor <;> intro h <;> simp_all

theorem gravity_kept : Kept kj ko ka b b.gravity.2 := by
  unfold Body.gravity
  split
  · exact .refl _
  · next hn =>
    have e := touch_gravDone (b := b) b.hasChild (decide (0 < b.dof))
    refine (touch_kept b.hasChild (decide (0 < b.dof))).trans (Kept.of ?_)
    constructor <;> intro h <;> simp_all

theorem inertia_kept : Kept kj ko ka b b.inertia.2 := by
  unfold Body.inertia
  split
  · exact .refl _
  · next hn =>
    have e := touch_crbaDone (b := b) b.hasChild false
    refine (touch_kept b.hasChild false).trans (Kept.of ?_)
    constructor <;> intro h <;> simp_all

theorem inertia_invDone : b.inertia.2.c.invDone = b.c.invDone := by
  unfold Body.inertia
  split
  · rfl
  · exact touch_invDone _ _

theorem inertiaInverse_kept : Kept kj ko ka b b.inertiaInverse.2 := by
  unfold Body.inertiaInverse
  split
  · exact .refl _
  · next hn =>
    have e := inertia_invDone (b := b)
    refine inertia_kept.trans (Kept.of ?_)
    constructor <;> intro h <;> simp_all

theorem inertiaInverseAba_kept : Kept kj ko ka b b.inertiaInverseAba.2 := by
  unfold Body.inertiaInverseAba
  split
  · exact .refl _
  · next hn =>
    have e := touch_abaInvDone (b := b) b.hasChild false
    refine (touch_kept b.hasChild false).trans (Kept.of ?_)
    constructor <;> intro h <;> simp_all

theorem fd_kept (t : ℕ → ℝ) (f : FExt) (o : FDOpts) : Kept kj ko ka b (b.fd E t f o).2 :=
  (inverseDynamics_kept _ _ _).trans inertiaInverse_kept

theorem forwardDynamicsAba_kept (t : ℕ → ℝ) (f : FExt) (o : FDOpts) :
    Kept kj ko ka b (b.forwardDynamicsAba t f o).2 := by
  refine (touch_kept (b.hasChild || (o.gravity && b.hasRoot)) (b.hasExt f)).trans (Kept.of ?_)
  constructor <;> intro h <;> simp_all

theorem forcedID_kept (a : ℕ → ℝ) (f : FExt) (o : IDOpts) : Kept kj ko ka b (b.forcedID a f o) := by
  unfold forcedID inverseDynamics
  simp only [Bool.false_and, Bool.false_eq_true, if_false]
  have e : ∀ tp tw, ({ b with c := { b.c with crbaDone := false } } : Body).touch tp tw =
      { b.touch tp tw with c := { (b.touch tp tw).c with crbaDone := false } } := by
    intro tp tw
    unfold touch touchTp touchTw viewTp viewTw
    split_ifs <;> rfl
  rw [e]
  refine (touch_kept _ _).trans (Kept.of (b := b.touch _ _) ?_)
  clear e
  refine ⟨fun h => ⟨h, rfl⟩, fun h => ⟨h, rfl⟩, fun h => ⟨h, rfl⟩, fun h => ⟨h, rfl⟩,
    fun h => ⟨?_, rfl, rfl⟩, fun h => ⟨h, rfl⟩, fun h => ⟨h, rfl⟩, fun _ => ⟨rfl, rfl, rfl, rfl⟩,
    fun _ => rfl, fun _ => rfl⟩
  rwa [touch_crbaDone] at h

theorem velocityDerivative_kept (a : ℕ → ℝ) (f : FExt) (o : IDOpts) :
    Kept kj ko ka b (b.velocityDerivative a f o).2 := by
  unfold velocityDerivative
  split
  · exact .refl _
  · exact (forcedID_kept a f o).trans (touch_kept _ _)

theorem positionDerivative_kept {a : ℕ → ℝ} {f : FExt} {o : IDOpts} {r : (ℕ → ℕ → ℝ) × Body}
    (h : b.positionDerivative a f o = .ok r) : Kept kj ko ka b r.2 := by
  unfold positionDerivative at h
  split at h
  · cases h
  · cases h
    refine (forcedID_kept a f o).trans ((touch_kept _ _).trans (Kept.of (b := Body.touch _ _ _) ?_))
    constructor <;> intro h <;> simp_all

theorem refreshPrev_kept (dt : ℝ) : Kept kj ko ka b (b.refreshPrev dt) := by
  unfold refreshPrev
  split
  · refine Kept.of ?_
    constructor <;> intro h <;> simp_all
  · exact .refl _

theorem refreshMomentum_kept (dt : ℝ) : Kept kj ko ka b (b.refreshMomentum E dt) := by
  unfold refreshMomentum
  split
  · exact .refl _
  · refine (touch_kept _ _).trans (Kept.of (b := Body.touch _ _ _) ?_)
    constructor <;> intro h <;> simp_all

theorem discreteID_kept (u : ℕ → ℝ) (dt : ℝ) (f : FExt) (g : Bool) :
    Kept kj ko ka b (b.discreteID E u dt f g).2 := by
  have h0 : Kept kj ko ka b ((b.refreshPrev dt).refreshMomentum E dt) :=
    (refreshPrev_kept dt).trans (refreshMomentum_kept dt)
  unfold discreteID
  refine h0.trans ?_
  generalize (b.refreshPrev dt).refreshMomentum E dt = b'
  dsimp only
  have h1 : ∀ d, Kept kj ko ka b' { b'.touch (decide (0 < b'.dof)) (b'.hasExt f) with
      c := { (b'.touch (decide (0 < b'.dof)) (b'.hasExt f)).c with drnea := d } } := by
    intro d
    refine (touch_kept _ _).trans (Kept.of (b := Body.touch _ _ _) ?_)
    constructor <;> intro h <;> simp_all
  split
  · exact (h1 _).trans gravity_kept
  · exact h1 _

theorem jacobian_kept {i : ℤ} {x : Vec3} {r : (ℕ → Motion) × Body} (h : b.jacobian i x = .ok r) :
    Kept False ko ka b r.2 := by
  unfold Body.jacobian at h
  obtain ⟨k, -, h⟩ := Out.bind_ok h
  split at h
  · cases h; exact .refl _
  · cases h
    refine touchTw_kept.trans (Kept.of (b := b.touchTw) ?_)
    constructor <;> intro h <;> simp_all

theorem opsInvCompute_kept {J : DMat} {r : DMat × Body} (h : b.opsInvCompute E J = .ok r) :
    Kept kj False ka b r.2 := by
  unfold opsInvCompute at h
  split at h
  · cases h
  · cases h
    refine inertiaInverse_kept.trans (Kept.of (b := b.inertiaInverse.2) ?_)
    constructor <;> intro h <;> simp_all

theorem opsInertiaInverse_kept {J : DMat} {r : DMat × Body} (h : b.opsInertiaInverse E J = .ok r) :
    Kept kj False ka b r.2 := by
  unfold Body.opsInertiaInverse at h
  split at h
  · exact opsInvCompute_kept h
  · obtain ⟨s, -, h⟩ := Out.bind_ok h
    split at h
    · cases h; exact .refl _
    · exact opsInvCompute_kept h

theorem opsLambdaCompute_kept {J : DMat} {e : ℝ} {r : DMat × Body}
    (h : b.opsLambdaCompute E J e = .ok r) : Kept kj False ka b r.2 := by
  unfold opsLambdaCompute at h
  obtain ⟨s, hs, h⟩ := Out.bind_ok h
  cases h
  refine (opsInertiaInverse_kept hs).trans (Kept.of (b := s.2) ?_)
  constructor <;> intro h <;> simp_all

theorem opsInertia_kept {J : DMat} {e : ℝ} {r : DMat × Body} (h : b.opsInertia E J e = .ok r) :
    Kept kj False ka b r.2 := by
  unfold Body.opsInertia at h
  split at h
  · exact opsLambdaCompute_kept h
  · obtain ⟨s, -, h⟩ := Out.bind_ok h
    split at h
    · cases h; exact .refl _
    · exact opsLambdaCompute_kept h

theorem opsJbarCompute_kept {J : DMat} {e : ℝ} {r : DMat × Body} (h : b.opsJbarCompute E J e = .ok r) :
    Kept kj False ka b r.2 := by
  unfold opsJbarCompute at h
  obtain ⟨s, hs, h⟩ := Out.bind_ok h
  cases h
  refine (opsInertia_kept hs).trans (Kept.of (b := s.2) ?_)
  constructor <;> intro h <;> simp_all

theorem opsJbar_kept {J : DMat} {e : ℝ} {r : DMat × Body} (h : b.opsJbar E J e = .ok r) :
    Kept kj False ka b r.2 := by
  unfold Body.opsJbar at h
  split at h
  · exact opsJbarCompute_kept h
  · obtain ⟨s, -, h⟩ := Out.bind_ok h
    split at h
    · cases h; exact .refl _
    · exact opsJbarCompute_kept h

theorem opsCoriolis_kept {J : DMat} {l : ℤ} {e : ℝ} {r : (ℕ → ℝ) × Body}
    (h : b.opsCoriolis E J l e = .ok r) : Kept kj False ka b r.2 := by
  unfold Body.opsCoriolis at h
  split at h
  · cases h
  · obtain ⟨s, hs, h⟩ := Out.bind_ok h
    obtain ⟨t, ht, h⟩ := Out.bind_ok h
    obtain ⟨k, -, h⟩ := Out.bind_ok h
    cases h
    exact (opsJbar_kept hs).trans (centrifugalCoriolis_kept.trans ((opsInertia_kept ht).trans touchTw_kept))

theorem opsGravity_kept {J : DMat} {e : ℝ} {r : (ℕ → ℝ) × Body} (h : b.opsGravity E J e = .ok r) :
    Kept kj False ka b r.2 := by
  unfold Body.opsGravity at h
  obtain ⟨s, hs, h⟩ := Out.bind_ok h
  cases h
  exact (opsJbar_kept hs).trans gravity_kept

theorem opsExternal_kept {J : DMat} {f : FExt} {e : ℝ} {r : (ℕ → ℝ) × Body}
    (h : b.opsExternal E J f e = .ok r) : Kept kj False ka b r.2 := by
  unfold Body.opsExternal at h
  obtain ⟨s, hs, h⟩ := Out.bind_ok h
  cases h
  exact (opsJbar_kept hs).trans (externalTorques_kept f)

theorem opsFriction_kept {J : DMat} {t : ℕ → ℝ} {e s : ℝ} {r : (ℕ → ℝ) × Body}
    (h : b.opsFriction E J t e s = .ok r) : Kept kj False ka b r.2 := by
  unfold Body.opsFriction at h
  obtain ⟨s, hs, h⟩ := Out.bind_ok h
  cases h
  exact opsJbar_kept hs

theorem opsAdd_kept {fl : Bool} {s r : (ℕ → ℝ) × Body} {t : Body → (ℕ → ℝ) → Out ((ℕ → ℝ) × Body)}
    (ht : ∀ b F r, t b F = .ok r → Kept kj False ka b r.2) (h : opsAdd fl s t = .ok r) :
    Kept kj False ka s.2 r.2 := by
  unfold opsAdd at h
  split at h
  · obtain ⟨u, hu, h⟩ := Out.bind_ok h
    cases h
    exact ht _ _ u hu
  · cases h; exact .refl _

theorem opsInverseDynamics_kept {J : DMat} {x : ℕ → ℝ} {N : Option DMat} {f : FExt} {sf : Bool}
    {o : OpsOpts} {r : (ℕ → ℝ) × Option DMat × Body}
    (h : b.opsInverseDynamics E J x N f sf o = .ok r) : Kept kj False ka b r.2.2 := by
  unfold Body.opsInverseDynamics at h
  obtain ⟨_, -, h⟩ := Out.bind_ok h
  obtain ⟨l, hl, h⟩ := Out.bind_ok h
  obtain ⟨s1, h1, h⟩ := Out.bind_ok h
  obtain ⟨s2, h2, h⟩ := Out.bind_ok h
  obtain ⟨s3, h3, h⟩ := Out.bind_ok h
  obtain ⟨s4, h4, h⟩ := Out.bind_ok h
  obtain ⟨s5, h5, h⟩ := Out.bind_ok h
  cases h
  refine (opsInertia_kept hl).trans ((opsAdd_kept (fun _ _ _ => opsExternal_kept) h1).trans
    ((opsAdd_kept (fun _ _ _ => opsGravity_kept) h2).trans
    ((opsAdd_kept (fun _ _ _ => opsCoriolis_kept) h3).trans
    ((opsAdd_kept (fun _ _ _ => opsFriction_kept) h4).trans ?_))))
  unfold opsNull at h5
  split at h5
  · cases h5; exact .refl _
  · obtain ⟨u, hu, h5⟩ := Out.bind_ok h5
    obtain ⟨_, -, h5⟩ := Out.bind_ok h5
    cases h5
    exact opsJbar_kept hu

theorem opsInertiaInverseAba_kept {l : ℤ} {x : Vec3} {r : Matrix (Fin 6) (Fin 6) ℝ × Body}
    (h : b.opsInertiaInverseAba l x = .ok r) : Kept kj ko False b r.2 := by
  unfold Body.opsInertiaInverseAba at h
  obtain ⟨k, -, h⟩ := Out.bind_ok h
  split at h
  · cases h; exact .refl _
  · cases h
    refine (touchTw_kept.trans touchTp_kept).trans (Kept.of (b := b.touchTw.touchTp) ?_)
    constructor <;> intro h <;> simp_all

theorem opsInertiaAba_kept {l : ℤ} {x : Vec3} {e : ℝ} {r : Matrix (Fin 6) (Fin 6) ℝ × Body}
    (h : b.opsInertiaAba E l x e = .ok r) : Kept kj ko False b r.2 := by
  unfold Body.opsInertiaAba at h
  obtain ⟨k, -, h⟩ := Out.bind_ok h
  split at h
  · cases h; exact .refl _
  · obtain ⟨s, hs, h⟩ := Out.bind_ok h
    cases h
    refine (opsInertiaInverseAba_kept hs).trans (Kept.of (b := s.2) ?_)
    constructor <;> intro h <;> simp_all

theorem opsCoriolisAba_kept {l : ℤ} {x : Vec3} {e : ℝ} {r : (Fin 6 → ℝ) × Body}
    (h : b.opsCoriolisAba E l x e = .ok r) : Kept kj ko False b r.2 := by
  unfold Body.opsCoriolisAba at h
  obtain ⟨k, -, h⟩ := Out.bind_ok h
  obtain ⟨s, hs, h⟩ := Out.bind_ok h
  cases h
  refine ((touchTw_kept.trans touchTp_kept).trans (Kept.of (b := b.touchTw.touchTp) ?_)).trans
    (opsInertiaAba_kept hs)
  constructor <;> intro h <;> simp_all

theorem opsGravityAba_kept {l : ℤ} {x : Vec3} {f : FExt} {e : ℝ} {r : (Fin 6 → ℝ) × Body}
    (h : b.opsGravityAba E l x f e = .ok r) : Kept kj ko False b r.2 := by
  unfold Body.opsGravityAba at h
  obtain ⟨k, -, h⟩ := Out.bind_ok h
  obtain ⟨s, hs, h⟩ := Out.bind_ok h
  cases h
  refine ((touchTw_kept.trans touchTp_kept).trans (Kept.of (b := b.touchTw.touchTp) ?_)).trans
    (opsInertiaAba_kept hs)
  constructor <;> intro h <;> simp_all

end SpatialDyn
