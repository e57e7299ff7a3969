import Verif.Lemmas.ThreadsShare
import Verif.Lemmas.Reach

/-! Making sharable queries once fills everything they read. -/

namespace SpatialDyn
namespace Body

/-- The operational-space flags are set in order. -/
structure Ord (b : Body) : Prop where
  lam : b.c.ops.lambdaDone = true → b.c.ops.lambdaInvDone = true
  jbar : b.c.ops.jbarDone = true → b.c.ops.lambdaInvDone = true

/-- Whatever was filled stays filled. -/
structure Lasts (i : ℤ) (x : Vec3) (J : DMat) (e : ℝ) (b d : Body) : Prop where
  shape : d.shape = b.shape
  tp : b.c.tpDone = true → d.c.tpDone = true
  tw : b.c.twDone = true → d.c.twDone = true
  cc : b.c.ccDone = true → d.c.ccDone = true
  grav : b.c.gravDone = true → d.c.gravDone = true
  crba : b.c.crbaDone = true → d.c.crbaDone = true
  inv : b.c.invDone = true → d.c.invDone = true
  abaInv : b.c.abaInvDone = true → d.c.abaInvDone = true
  ang : b.Warm (.angularJacobian i) → d.Warm (.angularJacobian i)
  jac : b.Warm (.jacobian i x) → d.Warm (.jacobian i x)
  oi : b.Warm (.opsInertiaInverse J) → d.Warm (.opsInertiaInverse J)
  ol : b.Ord → b.Warm (.opsInertia J e) → d.Warm (.opsInertia J e)
  oj : b.Ord → b.Warm (.opsJbar J e) → d.Warm (.opsJbar J e)
  ord : b.Ord → d.Ord

variable {i : ℤ} {x : Vec3} {J : DMat} {e : ℝ} {b d : Body}

theorem index_shape (h : d.shape = b.shape) (i : ℤ) : d.index i = b.index i := by
  have : d.dof = b.dof := congrArg (fun t : Shape => t.rbs.length) h
  unfold index resolve
  rw [this]

theorem Lasts.refl (i : ℤ) (x : Vec3) (J : DMat) (e : ℝ) (b : Body) : Lasts i x J e b b :=
  ⟨rfl, id, id, id, id, id, id, id, id, id, id, fun _ => id, fun _ => id, id⟩

theorem Lasts.trans {b' : Body} (h : Lasts i x J e b d) (h' : Lasts i x J e d b') :
    Lasts i x J e b b' :=
  ⟨h'.shape.trans h.shape, h'.tp ∘ h.tp, h'.tw ∘ h.tw, h'.cc ∘ h.cc, h'.grav ∘ h.grav,
    h'.crba ∘ h.crba, h'.inv ∘ h.inv, h'.abaInv ∘ h.abaInv, h'.ang ∘ h.ang, h'.jac ∘ h.jac,
    h'.oi ∘ h.oi, fun o => h'.ol (h.ord o) ∘ h.ol o, fun o => h'.oj (h.ord o) ∘ h.oj o,
    h'.ord ∘ h.ord⟩

/-- Writes that touch neither the Jacobian nor the operational space. -/
theorem keeps_of (hs : d.shape = b.shape) (h1 : b.c.tpDone = true → d.c.tpDone = true)
    (h2 : b.c.twDone = true → d.c.twDone = true) (h3 : b.c.ccDone = true → d.c.ccDone = true)
    (h4 : b.c.gravDone = true → d.c.gravDone = true)
    (h5 : b.c.crbaDone = true → d.c.crbaDone = true) (h6 : b.c.invDone = true → d.c.invDone = true)
    (h7 : b.c.abaInvDone = true → d.c.abaInvDone = true) (j1 : d.c.jacDone = b.c.jacDone)
    (j2 : d.c.jacLink = b.c.jacLink) (j3 : d.c.jacOffset = b.c.jacOffset)
    (ho : d.c.ops = b.c.ops) : Lasts i x J e b d := by
  have hi := index_shape hs i
  have hsm : d.opsSame J = b.opsSame J := by unfold opsSame; rw [ho]
  refine ⟨hs, h1, h2, h3, h4, h5, h6, h7, ?_, ?_, ?_, fun _ => ?_, fun _ => ?_, fun h => ?_⟩
  · simp only [Warm, hi, j1, j2]; exact id
  · simp only [Warm, hi, j1, j2, j3]; exact id
  · simp only [Warm, ho, hsm]; exact id
  · simp only [Warm, ho, hsm]; exact id
  · simp only [Warm, ho, hsm]; exact id
  · exact ⟨by rw [ho]; exact h.lam, by rw [ho]; exact h.jbar⟩

theorem keeps_touchTp (b : Body) : Lasts i x J e b b.touchTp :=
  keeps_of rfl (fun _ => rfl) id id id id id id rfl rfl rfl rfl

theorem touchTw_done (b : Body) : b.touchTw.c.twDone = true := by
  unfold touchTw
  split
  · assumption
  · rfl

theorem keeps_touchTw (b : Body) : Lasts i x J e b b.touchTw := by
  unfold touchTw
  split
  · exact .refl ..
  · exact keeps_of rfl (fun _ => rfl) (fun _ => rfl) id id id id id rfl rfl rfl rfl

theorem keeps_touch (b : Body) (tp tw : Bool) : Lasts i x J e b (b.touch tp tw) := by
  unfold touch
  cases tp <;> cases tw
  · exact .refl ..
  · exact keeps_touchTw b
  · exact keeps_touchTp b
  · exact (keeps_touchTw b).trans (keeps_touchTp _)

theorem keeps_cc (b : Body) :
    Lasts i x J e b b.centrifugalCoriolis.2 ∧ b.centrifugalCoriolis.2.c.ccDone = true := by
  unfold centrifugalCoriolis
  split
  · exact ⟨.refl .., by assumption⟩
  · exact ⟨(keeps_touch b b.hasChild false).trans
      (keeps_of rfl id id (fun _ => rfl) id id id id rfl rfl rfl rfl), rfl⟩

theorem keeps_gravity (b : Body) : Lasts i x J e b b.gravity.2 ∧ b.gravity.2.c.gravDone = true := by
  unfold gravity
  split
  · exact ⟨.refl .., by assumption⟩
  · exact ⟨(keeps_touch b b.hasChild (decide (0 < b.dof))).trans
      (keeps_of rfl id id id (fun _ => rfl) id id id rfl rfl rfl rfl), rfl⟩

theorem keeps_inertia (b : Body) : Lasts i x J e b b.inertia.2 ∧ b.inertia.2.c.crbaDone = true := by
  unfold inertia
  split
  · exact ⟨.refl .., by assumption⟩
  · exact ⟨(keeps_touch b b.hasChild false).trans
      (keeps_of rfl id id id id (fun _ => rfl) id id rfl rfl rfl rfl), rfl⟩

theorem keeps_inertiaInverse (b : Body) :
    Lasts i x J e b b.inertiaInverse.2 ∧ b.inertiaInverse.2.c.invDone = true := by
  unfold inertiaInverse
  split
  · exact ⟨.refl .., by assumption⟩
  · exact ⟨(keeps_inertia b).1.trans
      (keeps_of rfl id id id id id (fun _ => rfl) id rfl rfl rfl rfl), rfl⟩

theorem keeps_inertiaInverseAba (b : Body) :
    Lasts i x J e b b.inertiaInverseAba.2 ∧ b.inertiaInverseAba.2.c.abaInvDone = true := by
  unfold inertiaInverseAba
  split
  · exact ⟨.refl .., by assumption⟩
  · exact ⟨(keeps_touch b b.hasChild false).trans
      (keeps_of rfl id id id id id id (fun _ => rfl) rfl rfl rfl rfl), rfl⟩

theorem keeps_jacobian {k : ℕ} (hk : b.index i = .ok k) {y : Vec3} (hy : y = x ∨ y = b.c.jacOffset) :
    Lasts i x J e b ((BProg.jacobian k y).run memory b).2 ∧
    ((BProg.jacobian k y).run memory b).2.c.jacDone = true ∧
    ((BProg.jacobian k y).run memory b).2.c.jacLink = k ∧
    ((BProg.jacobian k y).run memory b).2.c.jacOffset = y := by
  rw [BProg.run_jacobian]
  split
  · next h => exact ⟨.refl .., h⟩
  · next h =>
    refine ⟨?_, rfl, rfl, rfl⟩
    have hs : b.touchTw.shape = b.shape := BProg.shape_touchTw b
    have k1 : Lasts i x J e b b.touchTw := keeps_touchTw b
    have o : b.touchTw.c.ops = b.c.ops := by unfold touchTw; split <;> rfl
    refine ⟨hs, k1.tp, k1.tw, k1.cc, k1.grav, k1.crba, k1.inv, k1.abaInv, fun _ => ?_, fun hj => ?_,
      k1.oi, k1.ol, k1.oj, fun o => ⟨(k1.ord o).lam, (k1.ord o).jbar⟩⟩
    · exact ⟨k, (index_shape hs i).trans hk, rfl, rfl⟩
    · obtain ⟨k', hk', a, b', c⟩ := hj
      have : k' = k := Out.ok.inj (hk'.symm.trans hk)
      subst this
      rcases hy with rfl | rfl
      · exact ⟨k', (index_shape hs i).trans hk, rfl, rfl, rfl⟩
      · exact absurd ⟨a, b', rfl⟩ h

theorem opsSame_self (h : b.c.ops.J = J) : b.opsSame J = .ok true := by
  simp [opsSame, h, DMat.Eqv]

variable (E : Ext)

theorem keeps_opsInvCompute (hn : ¬(b.c.ops.lambdaInvDone = true ∧ b.opsSame J = .ok true))
    {r : DMat × Body} (h : b.opsInvCompute E J = .ok r) :
    Lasts i x J e b r.2 ∧ r.2.Warm (.opsInertiaInverse J) := by
  unfold opsInvCompute at h
  split at h
  · cases h
  · have hr := (Out.ok.inj h).symm
    subst hr
    have k1 : Lasts i x J e b b.inertiaInverse.2 := (keeps_inertiaInverse b).1
    have w : ∀ c : OpsCache, c.J = J → ∀ d : Body, d.c.ops = c → d.opsSame J = .ok true := by
      intro c hc d hd
      exact opsSame_self (by rw [hd, hc])
    refine ⟨⟨k1.shape, k1.tp, k1.tw, k1.cc, k1.grav, k1.crba, k1.inv, k1.abaInv, k1.ang, k1.jac,
      fun hw => absurd hw hn, fun o hw => absurd ⟨o.lam hw.1, hw.2.1⟩ hn,
      fun o hw => absurd ⟨o.jbar hw.1, hw.2.1⟩ hn, fun _ => ⟨fun _ => rfl, fun _ => rfl⟩⟩, rfl, ?_⟩
    exact opsSame_self rfl

theorem keeps_opsInertiaInverse {r : DMat × Body} (h : b.opsInertiaInverse E J = .ok r) :
    Lasts i x J e b r.2 ∧ r.2.Warm (.opsInertiaInverse J) := by
  unfold opsInertiaInverse at h
  cases hd : b.c.ops.lambdaInvDone with
  | false =>
    simp only [hd, Bool.not_false, if_true] at h
    exact keeps_opsInvCompute E (by simp [hd]) h
  | true =>
    simp only [hd, Bool.not_true, Bool.false_eq_true, if_false] at h
    cases hs : b.opsSame J with
    | throws => rw [hs] at h; cases h
    | ub => rw [hs] at h; cases h
    | ok y =>
      rw [hs] at h
      cases y with
      | true =>
        have hr := (Out.ok.inj h).symm
        subst hr
        exact ⟨.refl .., hd, hs⟩
      | false => exact keeps_opsInvCompute E (by simp [hs]) h

theorem keeps_opsLambdaCompute {r : DMat × Body} (h : b.opsLambdaCompute E J e = .ok r) :
    Lasts i x J e b r.2 ∧ r.2.Warm (.opsInertia J e) := by
  unfold opsLambdaCompute at h
  cases hi : b.opsInertiaInverse E J with
  | throws => rw [hi] at h; cases h
  | ub => rw [hi] at h; cases h
  | ok s =>
    rw [hi] at h
    have hr := (Out.ok.inj h).symm
    subst hr
    obtain ⟨k1, w1, w2⟩ := keeps_opsInertiaInverse (i := i) (x := x) (e := e) E hi
    exact ⟨k1.trans ⟨rfl, id, id, id, id, id, id, id, id, id, id, fun _ _ => ⟨rfl, w2, rfl⟩,
      fun _ hw => ⟨hw.1, hw.2.1, rfl⟩, fun o => ⟨fun _ => w1, o.jbar⟩⟩, rfl, w2, rfl⟩

theorem keeps_opsInertia {r : DMat × Body} (h : b.opsInertia E J e = .ok r) :
    Lasts i x J e b r.2 ∧ r.2.Warm (.opsInertia J e) := by
  unfold opsInertia at h
  cases hd : b.c.ops.lambdaDone with
  | false =>
    simp only [hd, Bool.not_false, if_true] at h
    exact keeps_opsLambdaCompute E h
  | true =>
    simp only [hd, Bool.not_true, Bool.false_eq_true, if_false] at h
    cases hs : b.opsSame J with
    | throws => rw [hs] at h; cases h
    | ub => rw [hs] at h; cases h
    | ok y =>
      rw [hs] at h
      replace h : (if y = true ∧ b.c.ops.eps = e then _ else _) = _ := h
      split at h
      · next hy =>
        have hr := (Out.ok.inj h).symm
        subst hr
        exact ⟨.refl .., hd, by rw [hs, hy.1], hy.2⟩
      · exact keeps_opsLambdaCompute E h

theorem keeps_opsJbarCompute (o : b.Ord) {r : DMat × Body} (h : b.opsJbarCompute E J e = .ok r) :
    Lasts i x J e b r.2 ∧ r.2.Warm (.opsJbar J e) := by
  unfold opsJbarCompute at h
  cases hi : b.opsInertia E J e with
  | throws => rw [hi] at h; cases h
  | ub => rw [hi] at h; cases h
  | ok s =>
    rw [hi] at h
    have hr := (Out.ok.inj h).symm
    subst hr
    obtain ⟨k1, w1, w2, w3⟩ := keeps_opsInertia (i := i) (x := x) E hi
    have o1 := k1.ord o
    exact ⟨k1.trans ⟨rfl, id, id, id, id, id, id, id, id, id, id, fun _ hw => hw,
      fun _ hw => ⟨rfl, w2, w3⟩, fun o => ⟨o.lam, fun _ => o.lam w1⟩⟩, rfl, w2, w3⟩

theorem keeps_opsJbar (o : b.Ord) {r : DMat × Body} (h : b.opsJbar E J e = .ok r) :
    Lasts i x J e b r.2 ∧ r.2.Warm (.opsJbar J e) := by
  unfold opsJbar at h
  cases hd : b.c.ops.jbarDone with
  | false =>
    simp only [hd, Bool.not_false, if_true] at h
    exact keeps_opsJbarCompute E o h
  | true =>
    simp only [hd, Bool.not_true, Bool.false_eq_true, if_false] at h
    cases hs : b.opsSame J with
    | throws => rw [hs] at h; cases h
    | ub => rw [hs] at h; cases h
    | ok y =>
      rw [hs] at h
      replace h : (if y = true ∧ b.c.ops.eps = e then _ else _) = _ := h
      split at h
      · next hy =>
        have hr := (Out.ok.inj h).symm
        subst hr
        exact ⟨.refl .., hd, by rw [hs, hy.1], hy.2⟩
      · exact keeps_opsJbarCompute E o h

theorem index_throws (b : Body) (l : ℤ) : b.index l ≠ .throws := by
  unfold index
  simp only
  split <;> exact fun h => by cases h

/-- A sharable query fills what it reads and spoils nothing. -/
theorem warm_query (o : b.Ord) {y : Query} (hy : y.Sharable i x J e) : y.run E b = .ub ∨
    ∃ a d, y.run E b = .ok (a, d) ∧ d.Warm y ∧ Lasts i x J e b d := by
  have link : ∀ {l : ℤ} {f : ℕ → Out (Ans × Body)} {r : Out (Ans × Body)} {P : Body → Prop},
      r = (b.index l).bind f → (∀ k, b.index l = .ok k → ∃ a d, f k = .ok (a, d) ∧ P d) →
      r = .ub ∨ ∃ a d, r = .ok (a, d) ∧ P d := by
    intro l f r P hr h2
    subst hr
    cases hl : b.index l with
    | ok k => exact Or.inr (h2 k hl)
    | ub => exact Or.inl rfl
    | throws => exact absurd hl (index_throws b l)
  have tw : ∀ {l : ℤ} {f : ℕ → Out (Ans × Body)} {r : Out (Ans × Body)} {g : ℕ → Ans},
      r = (b.index l).bind f → (∀ k, f k = .ok (g k, b.touchTw)) →
      r = .ub ∨ ∃ a d, r = .ok (a, d) ∧ d.c.twDone = true ∧ Lasts i x J e b d :=
    fun hr h2 => link hr fun k _ => ⟨_, _, h2 k, touchTw_done b, keeps_touchTw b⟩
  have tp : ∀ {l : ℤ} {f : ℕ → Out (Ans × Body)} {r : Out (Ans × Body)} {g : ℕ → Ans},
      r = (b.index l).bind f → (∀ k, f k = .ok (g k, b.touchTp)) →
      r = .ub ∨ ∃ a d, r = .ok (a, d) ∧ d.c.tpDone = true ∧ Lasts i x J e b d :=
    fun hr h2 => link hr fun k _ => ⟨_, _, h2 k, rfl, keeps_touchTp b⟩
  have plain : ∀ {γ : Type} (r : Out γ) (f : γ → Ans), r ≠ .throws →
      (r.map fun z => (f z, b)) = .ub ∨
      ∃ a d, (r.map fun z => (f z, b)) = .ok (a, d) ∧ True ∧ Lasts i x J e b d := by
    intro γ r f hr
    cases r with
    | ok z => exact Or.inr ⟨_, _, rfl, trivial, .refl ..⟩
    | ub => exact Or.inl rfl
    | throws => exact absurd rfl hr
  have ops : ∀ {γ : Type} {r : Out (γ × Body)} (f : γ × Body → Ans) {P : Body → Prop},
      r ≠ .throws → (∀ z, r = .ok z → Lasts i x J e b z.2 ∧ P z.2) →
      (r.map fun z => (f z, z.2)) = .ub ∨
      ∃ a d, (r.map fun z => (f z, z.2)) = .ok (a, d) ∧ P d ∧ Lasts i x J e b d := by
    intro γ r f P h1 h2
    cases r with
    | ok z => exact Or.inr ⟨_, _, rfl, (h2 z rfl).2, (h2 z rfl).1⟩
    | ub => exact Or.inl rfl
    | throws => exact absurd rfl h1
  have ix : ∀ {γ : Type} (l : ℤ) (f : ℕ → Out γ), (∀ k, f k ≠ .throws) →
      (b.index l).bind f ≠ .throws := fun l f h => BProg.bind_throws (index_throws b l) h
  have jac : ∀ {γ : Type} (l : ℤ) (z : Vec3) (f : (ℕ → Motion) × Body → Ans), l = i →
      (z = x ∨ z = b.c.jacOffset) → ∀ {P : Body → Prop}, (∀ k d, b.index l = .ok k →
        d.shape = b.shape → d.c.jacDone = true ∧ d.c.jacLink = k ∧ d.c.jacOffset = z → P d) →
      ((b.jacobian l z).map fun r => (f r, r.2)) = .ub ∨
      ∃ a d, ((b.jacobian l z).map fun r => (f r, r.2)) = .ok (a, d) ∧ P d ∧ Lasts i x J e b d := by
    intro γ l z f hl hz P hP
    rw [BProg.jacobian_eq, BProg.map_bind]
    refine link rfl fun k hk => ?_
    obtain ⟨k1, w⟩ := keeps_jacobian (J := J) (e := e) (hl ▸ hk) hz
    exact ⟨_, _, rfl, hP k _ hk k1.shape w, k1⟩
  cases y with
  | rigidBody l => exact plain (b.rigidBody l) Ans.rb (ix _ _ fun _ h => by cases h)
  | q l => exact plain (b.qAt l) Ans.real (ix _ _ fun _ h => by cases h)
  | dq l => exact plain (b.dqAt l) Ans.real (ix _ _ fun _ h => by cases h)
  | ancestors l => exact plain (b.ancestors l) Ans.ids (ix _ _ fun _ h => by cases h)
  | subtree l => exact plain (b.subtree l) Ans.ids (ix _ _ fun _ h => by cases h)
  | positionQ u l z =>
    refine plain (b.positionQ u l z) Ans.vec3 (BProg.bind_throws ?_ fun _ h => by cases h)
    unfold climbStart
    split
    · exact fun h => by cases h
    · exact ix _ _ fun _ h => by cases h
  | orientationQ u l =>
    refine plain (b.orientationQ u l) Ans.mat3 (BProg.bind_throws ?_ fun _ h => by cases h)
    unfold climbStart
    split
    · exact fun h => by cases h
    · exact ix _ _ fun _ h => by cases h
  | jacobianQ u l z =>
    refine plain (b.jacobianQ u l z) (fun J => Ans.cols (take b.dof J)) (ix _ _ fun k => ?_)
    simp only
    split <;> exact fun h => by cases h
  | friction t c z => exact Or.inr ⟨_, _, rfl, trivial, .refl ..⟩
  | tToParent l => exact tp (BProg.map_bind ..) fun _ => rfl
  | tFromParent l =>
    refine tp (l := l) (f := fun k => .ok (.iso (b.viewTp k).inv, b.touchTp)) ?_ fun _ => rfl
    show ((b.tFromParent l).map _) = _
    unfold tFromParent tToParent
    rw [BProg.bind_bind, BProg.map_bind]; rfl
  | tToWorld l => exact tw (BProg.map_bind ..) fun _ => rfl
  | tFromWorld l =>
    refine tw (l := l) (f := fun k => .ok (.iso (b.viewTw k).inv, b.touchTw)) ?_ fun _ => rfl
    show ((b.tFromWorld l).map _) = _
    unfold tFromWorld tToWorld
    rw [BProg.bind_bind, BProg.map_bind]; rfl
  | position l z => exact tw (BProg.map_bind ..) fun _ => rfl
  | orientation l => exact tw (BProg.map_bind ..) fun _ => rfl
  | cartesianPose l z => exact tw (BProg.map_bind ..) fun _ => rfl
  | jacobian l z =>
    exact jac (γ := Unit) l z (fun r => .cols (take b.dof r.1)) hy.1 (Or.inl hy.2)
      fun k d hk hs h => ⟨k, (index_shape hs l).trans hk, h⟩
  | linearJacobian l z =>
    have := jac (γ := Unit) l z (fun r => .cols3 (take b.dof fun j => (r.1 j).lin)) hy.1 (Or.inl hy.2)
      (P := fun d => d.Warm (.linearJacobian l z))
      fun k d hk hs h => ⟨k, (index_shape hs l).trans hk, h⟩
    have e2 : Query.run E b (.linearJacobian l z) =
        (b.jacobian l z).map fun r => (.cols3 (take b.dof fun j => (r.1 j).lin), r.2) := by
      show (b.linearJacobian l z).map _ = _
      unfold linearJacobian
      rw [BProg.map_bind]
      cases b.jacobian l z <;> rfl
    rw [e2]; exact this
  | angularJacobian l =>
    have := jac (γ := Unit) l b.c.jacOffset (fun r => .cols3 (take b.dof fun j => (r.1 j).ang)) hy
      (Or.inr rfl) (P := fun d => d.Warm (.angularJacobian l))
      fun k d hk hs h => ⟨k, (index_shape hs l).trans hk, h.1, h.2.1⟩
    have e2 : Query.run E b (.angularJacobian l) = (b.jacobian l b.c.jacOffset).map fun r =>
        (.cols3 (take b.dof fun j => (r.1 j).ang), r.2) := by
      show (b.angularJacobian l).map _ = _
      unfold angularJacobian
      rw [BProg.map_bind]
      cases b.jacobian l b.c.jacOffset <;> rfl
    rw [e2]; exact this
  | hessian l z =>
    obtain ⟨hl, hz⟩ := hy
    refine link (l := l) (f := fun k =>
      let r := (BProg.jacobian k z).run memory b
      .ok (.hess (take2 b.dof b.dof (r.2.hessLoop r.2.viewTw r.1 (r.2.anc.getD k []) fun _ _ => 0)),
        r.2.touchTw)) ?_ fun k hk => ?_
    · show (b.hessian l z).map _ = _
      unfold hessian
      rw [BProg.map_bind]
      cases hi : b.index l with
      | throws => rfl
      | ub => rfl
      | ok k =>
        show ((b.jacobian k z).bind _).map _ = _
        rw [BProg.jacobian_eq, BProg.index_ofIndex hi]
        rfl
    · obtain ⟨k1, w1, w2, w3⟩ := keeps_jacobian (J := J) (e := e) (hl ▸ hk) (Or.inl hz)
      have k2 := keeps_touchTw (i := i) (x := x) (J := J) (e := e) ((BProg.jacobian k z).run memory b).2
      have kk := k1.trans k2
      refine ⟨_, _, rfl, ⟨?_, touchTw_done _⟩, kk⟩
      have wj := k2.jac ⟨k, (index_shape k1.shape i).trans (hl ▸ hk), w1, w2, w3.trans hz⟩
      subst hl hz
      exact wj
  | centrifugalCoriolis => exact Or.inr ⟨_, _, rfl, (keeps_cc (i := i) (x := x) (J := J) (e := e) b).2,
      (keeps_cc b).1⟩
  | gravity => exact Or.inr ⟨_, _, rfl, (keeps_gravity (i := i) (x := x) (J := J) (e := e) b).2,
      (keeps_gravity b).1⟩
  | inertia => exact Or.inr ⟨_, _, rfl, (keeps_inertia (i := i) (x := x) (J := J) (e := e) b).2,
      (keeps_inertia b).1⟩
  | compositeInertia l =>
    exact link (BProg.map_bind ..) fun k _ => ⟨_, _, rfl, (keeps_inertia (i := i) (x := x) (J := J) (e := e) b).2,
      (keeps_inertia b).1⟩
  | inertiaInverse =>
    exact Or.inr ⟨_, _, rfl, (keeps_inertiaInverse (i := i) (x := x) (J := J) (e := e) b).2,
      (keeps_inertiaInverse b).1⟩
  | inertiaInverseAba =>
    exact Or.inr ⟨_, _, rfl, (keeps_inertiaInverseAba (i := i) (x := x) (J := J) (e := e) b).2,
      (keeps_inertiaInverseAba b).1⟩
  | opsInertiaInverse K =>
    replace hy : K = J := hy
    subst hy
    exact ops (P := fun d => d.Warm (.opsInertiaInverse K)) (fun z => .dmat z.1.trunc)
      (BProg.opsInertiaInverse_throws E K b) fun z hz =>
      keeps_opsInertiaInverse E hz
  | opsInertia K z =>
    obtain ⟨rfl, rfl⟩ := hy
    exact ops (P := fun d => d.Warm (.opsInertia K z)) (fun z => .dmat z.1.trunc)
      (BProg.opsInertia_throws E K z b) fun w hw =>
      keeps_opsInertia E hw
  | opsIsSingular K z =>
    obtain ⟨rfl, rfl⟩ := hy
    refine ops (r := b.opsIsSingular E K z) (fun w => .bool w.1)
      (BProg.bind_throws (BProg.opsInertia_throws E K z b) fun _ h => by cases h) fun w hw => ?_
    unfold opsIsSingular at hw
    cases hi : b.opsInertia E K z with
    | throws => rw [hi] at hw; cases hw
    | ub => rw [hi] at hw; cases hw
    | ok r =>
      rw [hi] at hw
      have hr := (Out.ok.inj hw).symm
      subst hr
      exact keeps_opsInertia E hi
  | opsJbar K z =>
    obtain ⟨rfl, rfl⟩ := hy
    exact ops (P := fun d => d.Warm (.opsJbar K z)) (fun w => .dmat w.1.trunc)
      (BProg.opsJbar_throws E K z b) fun w hw =>
      keeps_opsJbar E o hw
  | opsGravity K z =>
    obtain ⟨rfl, rfl⟩ := hy
    refine ops (r := b.opsGravity E K z) (fun w => .vec (take K.rows w.1))
      (BProg.bind_throws (BProg.opsJbar_throws E K z b) fun _ h => by cases h) fun w hw => ?_
    unfold opsGravity at hw
    cases hi : b.opsJbar E K z with
    | throws => rw [hi] at hw; cases hw
    | ub => rw [hi] at hw; cases hw
    | ok r =>
      rw [hi] at hw
      have hr := (Out.ok.inj hw).symm
      subst hr
      obtain ⟨k1, w1⟩ := keeps_opsJbar (i := i) (x := x) E o hi
      obtain ⟨k2, w2⟩ := keeps_gravity (i := i) (x := x) (J := K) (e := z) r.2
      exact ⟨k1.trans k2, k2.oj (k1.ord o) w1, w2⟩
  | _ => exact hy.elim

theorem Lasts.warm {y : Query} (hy : y.Sharable i x J e) (o : b.Ord) (h : Lasts i x J e b d)
    (hw : b.Warm y) : d.Warm y := by
  cases y with
  | tToParent | tFromParent => exact h.tp hw
  | tToWorld | tFromWorld | position | orientation | cartesianPose => exact h.tw hw
  | jacobian l z => obtain ⟨rfl, rfl⟩ := hy; exact h.jac hw
  | linearJacobian l z => obtain ⟨rfl, rfl⟩ := hy; exact h.jac hw
  | angularJacobian l => replace hy : l = i := hy; subst hy; exact h.ang hw
  | hessian l z => obtain ⟨rfl, rfl⟩ := hy; exact ⟨h.jac hw.1, h.tw hw.2⟩
  | centrifugalCoriolis => exact h.cc hw
  | gravity => exact h.grav hw
  | inertia | compositeInertia => exact h.crba hw
  | inertiaInverse => exact h.inv hw
  | inertiaInverseAba => exact h.abaInv hw
  | opsInertiaInverse K => replace hy : K = J := hy; subst hy; exact h.oi hw
  | opsInertia K z => obtain ⟨rfl, rfl⟩ := hy; exact h.ol o hw
  | opsIsSingular K z => obtain ⟨rfl, rfl⟩ := hy; exact h.ol o hw
  | opsJbar K z => obtain ⟨rfl, rfl⟩ := hy; exact h.oj o hw
  | opsGravity K z => obtain ⟨rfl, rfl⟩ := hy; exact ⟨h.oj o hw.1, h.grav hw.2⟩
  | rigidBody | q | dq | ancestors | subtree | positionQ | orientationQ | jacobianQ | friction =>
    trivial
  | _ => exact hw.elim

/-- After sharable queries have been made, all of them find what they read. -/
theorem warm_all {ws : List Query} (o : b.Ord) (h : ∀ w ∈ ws, w.Sharable i x J e)
    (he : execAll E b (ws.map Op.query) = some d) :
    (∀ y ∈ ws, d.Warm y) ∧ Lasts i x J e b d := by
  induction ws generalizing b with
  | nil => cases he; exact ⟨fun y hy => absurd hy (by simp), .refl ..⟩
  | cons w ws ih =>
    have hw := h w (List.mem_cons_self ..)
    have he' : ((Op.query w).exec E b).bind (fun b' => execAll E b' (ws.map Op.query)) = some d := he
    rcases warm_query E o hw with hu | ⟨a, d', hr, hwm, hk⟩
    · have : (Op.query w).exec E b = none := by
        unfold Op.exec Op.step; simp only [hu]; rfl
      rw [this] at he'; cases he'
    · have : (Op.query w).exec E b = some d' := by
        unfold Op.exec Op.step; simp only [hr]; rfl
      rw [this] at he'
      obtain ⟨i1, i2⟩ := ih (hk.ord o) (fun v hv => h v (List.mem_cons_of_mem _ hv)) he'
      refine ⟨fun y hy => ?_, hk.trans i2⟩
      rcases List.mem_cons.1 hy with rfl | hy
      · exact i2.warm hw (hk.ord o) hwm
      · exact i1 y hy

variable {E}

theorem Ready.warm {y : Query} (h : b.Ready E y) : b.Warm y := by
  rcases h with h | ⟨b₀, d, ws, i, x, J, e, hr, hs, he, hy⟩
  · cases y <;> first | trivial | exact h.elim
  · exact (warm_all E ⟨fun h => (hr.inv.coh.opsLam h).1, fun h => (hr.inv.coh.opsJbar h).1⟩ hs he).1
      y hy

end Body
end SpatialDyn
