import Verif.Props.Kinematics

/-!
# C22 – C24, C27, C28: inverse dynamics and its parts

`Massive` (`Verif.Spec.Mechanics`) says that inertias are symmetric, masses are not negative and no
sum of inertias is massless.
-/

namespace SpatialDyn
open Body Finset

variable {E : Ext} {b : Body} {d : Bool}

/-! ## C22 -/

/-- C22, principle of virtual work: for virtual joint rates `u`, the power of the torques of
`InverseDynamics` (no friction) is the power, summed over the links, of the rate of change of
momentum minus the external force.  `x`, `v`, `a` are the virtual velocity, the velocity and the
acceleration of every link. -/
theorem C22_virtual_work (h : Reach E b d) (hm : b.Massive) (ddq : ℕ → ℝ) (fext : FExt)
    (o : IDOpts) (hf : o.friction = false) (u : ℕ → ℝ) {x v a : ℕ → Motion} {T : ℕ → Iso}
    (hx : ∀ k < b.dof, b.LinkVel u k (x k)) (hv : ∀ k < b.dof, b.LinkVel b.vel k (v k))
    (ha : ∀ k < b.dof, b.LinkAcc o.cc (if o.gravity then ⟨-b.g, 0⟩ else 0) ddq k (a k))
    (hT : ∀ k < b.dof, (b.tToWorld k).map Prod.fst = .ok (T k)) :
    ∑ i ∈ range b.dof, u i * (b.inverseDynamics ddq fext o).1 i =
      ∑ k ∈ range b.dof, ((x k).dot (b.linkMomentum k (a k) +
        (if o.cc then (v k).crossF (b.linkMomentum k (v k)) else 0)) -
        ((T k).actM (x k)).dot ((fext k).getD 0)) := by
  have hw := h.inv.wf
  have hτ : ∀ i ∈ range b.dof, u i * (b.inverseDynamics ddq fext o).1 i =
      u i * b.fresh.genForce (fun k => (b.fresh.Iw k (b.fresh.V ddq k) +
        (if o.cc then b.fresh.Iw k (b.fresh.bias k) +
          (b.fresh.V b.vel k).crossF (b.fresh.Iw k (b.fresh.V b.vel k)) else 0) +
        (if o.gravity then b.fresh.Iw k (-b.fresh.g) else 0)) - (fext k).getD 0) i := by
    intro i hi
    congr 1
    rw [inverseDynamics_val h.inv hm.symI (hm.posMass h.inv.tree) ddq fext o i (mem_range.1 hi)]
    unfold Sys.addFriction
    rw [hf, if_neg Bool.false_ne_true]
    rw [Sys.genForce_sub, Sys.genForce_add, Sys.genForce_add]
    unfold Sys.idSpec Sys.extSpec
    rw [Sys.genForce_Iw_V]
    rw [sub_eq_add_neg]
    congr 2
    · congr 1
      cases o.cc
      · simp [Sys.genForce]
      · rfl
    · cases o.gravity
      · simp [Sys.genForce]
      · rfl
  rw [sum_congr rfl hτ]
  refine (Sys.genForce_power (σ := b.fresh) u _).trans ?_
  refine sum_congr rfl fun k hk => ?_
  have hk := mem_range.1 hk
  have hTv : (b.freshTw k).Valid := by
    have := hw.Tw_valid k hk; rwa [fresh_Tw hk] at this
  have hTk : T k = b.freshTw k := by
    have := hT k hk
    unfold Body.tToWorld at this
    rw [index_ofNat hk] at this
    have := Out.ok.inj this
    rw [← this, h.inv.viewTw k hk]
  have hxw := (hx k hk).world h.inv hk
  have hvw := (hv k hk).world h.inv hk
  have haw := (ha k hk).world h.inv hk
  rw [hTk, hxw, Motion.dot_sub]
  congr 1
  have e1 : b.fresh.Iw k (b.fresh.V ddq k) +
        (if o.cc then b.fresh.Iw k (b.fresh.bias k) +
          (b.fresh.V b.vel k).crossF (b.fresh.Iw k (b.fresh.V b.vel k)) else 0) +
        (if o.gravity then b.fresh.Iw k (-b.fresh.g) else 0) =
      b.fresh.Iw k ((b.freshTw k).actM (a k)) + (if o.cc then
        (b.fresh.V b.vel k).crossF (b.fresh.Iw k (b.fresh.V b.vel k)) else 0) := by
    rw [haw, Sys.Iw_add, Sys.Iw_add]
    have eg : (⟨-b.g, 0⟩ : Motion) = -b.fresh.g := by
      show _ = -(⟨b.g, 0⟩ : Motion)
      ext <;> simp
    rw [eg]
    cases o.cc <;> cases o.gravity <;> simp <;> abel
  rw [e1, ← hvw, ← hxw, hm.Iw_eq hk, hm.Iw_eq hk, hTv.inv_actM, hTv.inv_actM, ← hTv.actF_crossF,
    ← Iso.actF_zero (b.freshTw k)]
  have e2 : (if o.cc = true then (b.freshTw k).actF ((v k).crossF (b.linkMomentum k (v k)))
      else (b.freshTw k).actF 0) = (b.freshTw k).actF (if o.cc = true then
        (v k).crossF (b.linkMomentum k (v k)) else 0) := by split <;> rfl
  rw [e2, ← Iso.actF_add, hTv.dot_act]
  simp only [Iso.actF_zero]

/-! ## C23 -/

/-- C23: `InverseDynamics` is the sum of what the other functions return, term by term according to
the options, and then `Friction` of that sum. -/
theorem C23_decomposition (h : Reach E b d) (hm : b.Massive) (ddq : ℕ → ℝ) (fext : FExt)
    (o : IDOpts) {t : ℕ → ℝ}
    (ht : ∀ i < b.dof, t i = (∑ j ∈ range b.dof, b.inertia.1 i j * ddq j) +
      (if o.cc then b.centrifugalCoriolis.1 i else 0) + (if o.gravity then b.gravity.1 i else 0) +
      (b.externalTorques fext).1 i) (i : ℕ) (hi : i < b.dof) :
    (b.inverseDynamics ddq fext o).1 i =
      t i + (if o.friction then b.friction t true o.eps i else 0) := by
  have hs := hm.symI
  have hp := hm.posMass h.inv.tree
  rw [inverseDynamics_val h.inv hs hp ddq fext o i hi]
  have key : t i = b.fresh.idSpec ddq fext o.cc o.gravity i := by
    rw [ht i hi]
    unfold Sys.idSpec
    rw [(centrifugalCoriolis_run h.inv).2 i hi, (gravity_run h.inv).2 i hi,
      (externalTorques_run h.inv fext).2 i hi]
    congr 3
    exact sum_congr rfl fun j hj => by
      rw [(inertia_run h.inv).2.1.mass h.inv.wf hs hp i j hi (mem_range.1 hj)]
  unfold Sys.addFriction Body.friction
  rw [h.inv.view]
  cases o.friction
  · simp only [if_neg Bool.false_ne_true, add_zero]; rw [key]
  · simp only [if_true]
    unfold Sys.friction
    rw [key]

/-- C23: the recursive path and the path through cached matrices agree: computing any of the
matrices first does not change the result of `InverseDynamics`. -/
theorem C23_paths_agree (h : Reach E b d) (hm : b.Massive) (ddq : ℕ → ℝ) (fext : FExt)
    (o : IDOpts) (i : ℕ) (hi : i < b.dof) :
    (b.inertia.2.inverseDynamics ddq fext o).1 i = (b.inverseDynamics ddq fext o).1 i ∧
    (b.centrifugalCoriolis.2.inverseDynamics ddq fext o).1 i =
      (b.inverseDynamics ddq fext o).1 i ∧
    (b.inertia.2.centrifugalCoriolis.2.gravity.2.inverseDynamics ddq fext o).1 i =
      (b.inverseDynamics ddq fext o).1 i := by
  have hs := hm.symI
  have hp := hm.posMass h.inv.tree
  have key : ∀ b', Step E b b' → (b'.inverseDynamics ddq fext o).1 i =
      (b.inverseDynamics ddq fext o).1 i := by
    intro b' hb'
    rw [inverseDynamics_val h.inv hs hp ddq fext o i hi,
      inverseDynamics_val (h.inv.step hb') (by rw [hb'.fresh_eq]; exact hs)
        (by rw [hb'.fresh_eq]; exact hp) ddq fext o i (by rw [hb'.dof_eq]; exact hi), hb'.fresh_eq]
  have h1 := (inertia_run h.inv).1
  have h2 := (centrifugalCoriolis_run (h.inv.step h1)).1
  have h3 := (gravity_run ((h.inv.step h1).step h2)).1
  exact ⟨key _ h1, key _ (centrifugalCoriolis_run h.inv).1, key _ ((h1.trans h2).trans h3)⟩

/-! ## C24 -/

/-- C24: `Inertia` is symmetric. -/
theorem C24_symmetric (h : Reach E b d) (hm : b.Massive) (i j : ℕ) (hi : i < b.dof)
    (hj : j < b.dof) : b.inertia.1 i j = b.inertia.1 j i := by
  have hs := hm.symI
  have hp := hm.posMass h.inv.tree
  rw [(inertia_run h.inv).2.1.mass h.inv.wf hs hp i j hi hj,
    (inertia_run h.inv).2.1.mass h.inv.wf hs hp j i hj hi]
  unfold Sys.massSpec
  exact sum_congr rfl fun k hk => h.inv.wf.Iw_symm hs (mem_range.1 hk) _ _

/-- C24: the quadratic form of `Inertia` is twice the kinetic energy of the links and loads: of the
centres of mass (moving as their Jacobians say) and of the rotation. -/
theorem C24_kinetic_energy (h : Reach E b d) (hm : b.Massive) (w : ℕ → ℝ)
    {J : ℕ → Vec3 → ℕ → Motion} {R : ℕ → Mat3}
    (hJ : ∀ k < b.dof, ∀ x, (b.jacobian k x).map Prod.fst = .ok (J k x))
    (hR : ∀ k < b.dof, (b.orientation k).map Prod.fst = .ok (R k)) :
    ∑ i ∈ range b.dof, ∑ j ∈ range b.dof, w i * b.inertia.1 i j * w j =
      ∑ k ∈ range b.dof, ((b.parts k).map fun I => twiceKinetic I (R k)
        (∑ j ∈ range b.dof, w j • J k I.com j).lin
        (∑ j ∈ range b.dof, w j • J k I.com j).ang).sum := by
  have hs := hm.symI
  have hp := hm.posMass h.inv.tree
  have e1 : ∑ i ∈ range b.dof, ∑ j ∈ range b.dof, w i * b.inertia.1 i j * w j =
      b.fresh.energy2 w := by
    rw [Sys.energy2_eq]
    refine sum_congr rfl fun i hi => ?_
    rw [mul_sum]
    refine sum_congr rfl fun j hj => ?_
    rw [(inertia_run h.inv).2.1.mass h.inv.wf hs hp i j (mem_range.1 hi) (mem_range.1 hj)]
    ring
  rw [e1]
  unfold Sys.energy2
  refine sum_congr rfl fun k hk => ?_
  have hk := mem_range.1 hk
  have hidx : b.LinkIdx (k : ℤ) k := ⟨hk, Or.inl rfl⟩
  have hRk : R k = (b.freshTw k).R := by
    have := hR k hk
    unfold Body.orientation at this
    rw [index_ofNat hk] at this
    have := Out.ok.inj this
    rw [← this, h.inv.viewTw k hk]
  rw [hm.energy h.inv hk, hRk]
  congr 1
  refine List.map_congr_left fun I _ => ?_
  have hJk : ∑ j ∈ range b.dof, w j • J k I.com j =
      (b.fresh.V w k).atPoint ((b.freshTw k).app I.com) := by
    obtain ⟨r, hr⟩ := jacobian_total b hidx I.com
    have h1 := hJ k hk I.com
    rw [hr] at h1
    have h2 : J k I.com = r.1 := (Out.ok.inj h1).symm
    rw [h2]
    have e1 : ∀ j, r.1 j = (b.fresh.Jw k j).atPoint ((b.freshTw k).app I.com) := fun j =>
      jacobian_val h.inv hidx hr j
    simp only [e1]
    exact (Motion.atPoint_sum _ _ _ _).symm
  rw [hJk]
  rfl

/-- C24: for physical inertias the quadratic form of `Inertia` is nonnegative. -/
theorem C24_positive (h : Reach E b d) (hm : b.Massive) (w : ℕ → ℝ)
    (hpsd : ∀ k < b.dof, ∀ I ∈ b.parts k, I.Icom.PSD) :
    0 ≤ ∑ i ∈ range b.dof, ∑ j ∈ range b.dof, w i * b.inertia.1 i j * w j := by
  have hidx : ∀ k < b.dof, b.LinkIdx (k : ℤ) k := fun k hk => ⟨hk, Or.inl rfl⟩
  have : Nonempty ((ℕ → Motion) × Body) := ⟨fun _ => 0, b⟩
  choose! r hr using fun k (hk : k < b.dof) (x : Vec3) => jacobian_total b (hidx k hk) x
  have hJ : ∀ k < b.dof, ∀ x, (b.jacobian k x).map Prod.fst = .ok (r k x).1 := by
    intro k hk x; rw [hr k hk x]; rfl
  have hR : ∀ k < b.dof, (b.orientation k).map Prod.fst = .ok (b.viewTw k).R := by
    intro k hk
    unfold Body.orientation
    rw [index_ofNat hk]; rfl
  rw [C24_kinetic_energy h hm w hJ hR]
  refine sum_nonneg fun k hk => List.sum_nonneg fun y hy => ?_
  obtain ⟨I, hI, rfl⟩ := List.mem_map.1 hy
  have hk := mem_range.1 hk
  unfold twiceKinetic
  refine add_nonneg (mul_nonneg (hm.nonneg k hk I hI) ?_) (hpsd k hk I hI _)
  unfold Vec3.dot
  nlinarith [mul_self_nonneg (∑ j ∈ range b.dof, w j • (r k I.com).1 j).lin.x,
    mul_self_nonneg (∑ j ∈ range b.dof, w j • (r k I.com).1 j).lin.y,
    mul_self_nonneg (∑ j ∈ range b.dof, w j • (r k I.com).1 j).lin.z]

theorem Inertia.add_pd {a c : Inertia} (ha : 0 < a.mass)
    (hpd : ∀ v : Vec3, v ≠ 0 → 0 < v.dot (a.Icom.mulVec v))
    (hc : c.Phys) (v : Vec3) (hv : v ≠ 0) : 0 < v.dot ((a.add c).Icom.mulVec v) := by
  have hdef : a.AddDefined c := (add_pos_of_pos_of_nonneg ha hc.1).ne'
  have key := Inertia.add_app a c hdef ⟨-(v.cross (a.add c).com), v⟩
  have e1 := (a.add c).dot_app_self ⟨-(v.cross (a.add c).com), v⟩
  have ea := a.dot_app_self ⟨-(v.cross (a.add c).com), v⟩
  have ec := (C03_inertia_energy c ⟨-(v.cross (a.add c).com), v⟩).2 hc
  rw [key, Motion.dot_add] at e1
  have z : (-(v.cross (a.add c).com) + v.cross (a.add c).com) = 0 := by ext <;> simp
  simp only [z] at e1
  have z2 : (0 : Vec3).dot 0 = 0 := by simp [Vec3.dot]
  rw [z2, mul_zero, zero_add] at e1
  rw [← e1]
  have hsq : ∀ w : Vec3, 0 ≤ w.dot w := fun w => by
    unfold Vec3.dot; nlinarith [mul_self_nonneg w.x, mul_self_nonneg w.y, mul_self_nonneg w.z]
  refine add_pos_of_pos_of_nonneg ?_ ec
  rw [ea]
  exact add_pos_of_nonneg_of_pos (mul_nonneg ha.le (hsq _)) (hpd v hv)

/-- Every link has mass and a positive definite rotational inertia, loads are physical, and every
joint moves. -/
structure Body.Definite (b : Body) : Prop where
  mass : ∀ k < b.dof, 0 < (b.rb k).inertia.mass
  symm : ∀ k < b.dof, (b.rb k).inertia.Icom.IsSymm
  pd : ∀ k < b.dof, ∀ v : Vec3, v ≠ 0 → 0 < v.dot ((b.rb k).inertia.Icom.mulVec v)
  load : ∀ k < b.dof, ∀ L, b.load k = some L → L.Phys
  axes : ∀ k < b.dof, (b.rb k).joint.subspace ≠ 0

theorem Body.Definite.massive (hd : b.Definite) (ht : b.Tree) : b.Massive := by
  have hparts : ∀ k < b.dof, ∀ I ∈ b.parts k, I = (b.rb k).inertia ∨ I.Phys := by
    intro k hk I hI
    rcases List.mem_cons.1 hI with h | h
    · exact .inl h
    · exact .inr (hd.load k hk I (Option.mem_toList.1 h))
  have hnn : ∀ k < b.dof, ∀ I ∈ b.parts k, 0 ≤ I.mass := by
    intro k hk I hI
    rcases hparts k hk I hI with rfl | h
    · exact (hd.mass k hk).le
    · exact h.1
  have hpos : ∀ k < b.dof, 0 < b.linkMass k := by
    intro k hk
    unfold linkMass
    rw [show b.parts k = (b.rb k).inertia :: (b.load k).toList from rfl, List.map_cons,
      List.sum_cons]
    refine add_pos_of_pos_of_nonneg (hd.mass k hk) (List.sum_nonneg fun x hx => ?_)
    obtain ⟨I, hI, rfl⟩ := List.mem_map.1 hx
    exact hnn k hk I (List.mem_cons_of_mem _ hI)
  refine ⟨fun k hk I hI => ?_, hnn, fun k hk _ => hpos k hk, fun k hk _ => ?_⟩
  · rcases hparts k hk I hI with rfl | h
    · exact hd.symm k hk
    · exact h.2.1
  · classical
    rw [ht.sum_sub hk]
    refine sum_pos' (fun l hl => ?_) ⟨k, mem_range.2 hk, ?_⟩
    · split
      · exact (hpos l (mem_range.1 hl)).le
      · exact le_rfl
    · rw [if_pos .refl]; exact hpos k hk

theorem Body.Definite.physPD (hd : b.Definite) : b.fresh.PhysPD := by
  intro k hk
  have e : b.fresh.Itot k = match b.load k with
    | none => (b.rb k).inertia
    | some L => (b.rb k).inertia.add L := rfl
  rw [e]
  cases hl : b.load k with
  | none => exact ⟨hd.mass k hk, hd.symm k hk, hd.pd k hk⟩
  | some L =>
    have hL := hd.load k hk L hl
    exact ⟨add_pos_of_pos_of_nonneg (hd.mass k hk) hL.1, Inertia.add_symm _ _ (hd.symm k hk) hL.2.1,
      Inertia.add_pd (hd.mass k hk) (hd.pd k hk) hL⟩

theorem Body.Definite.massPD (hd : b.Definite) (h : Inv E b) : b.fresh.MassPD :=
  h.wf.massPD hd.physPD hd.axes

/-- C24: with massive links of positive definite inertia and moving joints, `Inertia` is positive
definite. -/
theorem C24_positive_definite (h : Reach E b d) (hd : b.Definite) (w : ℕ → ℝ)
    (hw : ∃ i < b.dof, w i ≠ 0) :
    0 < ∑ i ∈ range b.dof, ∑ j ∈ range b.dof, w i * b.inertia.1 i j * w j := by
  have hm := hd.massive h.inv.tree
  have e1 : ∑ i ∈ range b.dof, ∑ j ∈ range b.dof, w i * b.inertia.1 i j * w j =
      b.fresh.energy2 w := by
    rw [Sys.energy2_eq]
    refine sum_congr rfl fun i hi => ?_
    rw [mul_sum]
    refine sum_congr rfl fun j hj => ?_
    rw [(inertia_run h.inv).2.1.mass h.inv.wf hm.symI (hm.posMass h.inv.tree) i j (mem_range.1 hi)
      (mem_range.1 hj)]
    ring
  rw [e1]
  exact hd.massPD h.inv w hw

/-- C24: joints on different branches (neither on the root path of the other) do not couple. -/
theorem C24_branches (h : Reach E b d) (hm : b.Massive) {i j : ℕ} (hi : i < b.dof) (hj : j < b.dof)
    {li lj : List ℕ} (hli : RootPath (fun k => (b.rb k).idParent) i li)
    (hlj : RootPath (fun k => (b.rb k).idParent) j lj) (h1 : i ∉ lj) (h2 : j ∉ li) :
    b.inertia.1 i j = 0 := by
  classical
  have hs := hm.symI
  have hp := hm.posMass h.inv.tree
  rw [(inertia_run h.inv).2.1.mass h.inv.wf hs hp i j hi hj]
  unfold Sys.massSpec
  refine sum_eq_zero fun k _ => ?_
  unfold Sys.Jw
  by_cases hik : Anc b.fresh.par i k
  · by_cases hjk : Anc b.fresh.par j k
    · rcases hik.total hjk with hc | hc
      · exact absurd ((hlj.mem i).2 hc) h1
      · exact absurd ((hli.mem j).2 hc) h2
    · rw [if_neg hjk]; simp
  · rw [if_neg hik]; simp

/-! ## C27 -/

/-- C27: the external torques are minus the sum of the transposed Jacobians applied to the forces,
the Jacobian of each link being taken at the point of the link that is at the world origin. -/
theorem C27_jacobian_transpose (h : Reach E b d) (fext : FExt) {x : ℕ → Vec3}
    {J : ℕ → ℕ → Motion} (hx : ∀ k < b.dof, (b.position k (x k)).map Prod.fst = .ok 0)
    (hJ : ∀ k < b.dof, (b.jacobian k (x k)).map Prod.fst = .ok (J k)) (i : ℕ) (hi : i < b.dof) :
    (b.externalTorques fext).1 i =
      -∑ k ∈ range b.dof, match fext k with | none => 0 | some f => (J k i).dot f := by
  rw [(externalTorques_run h.inv fext).2 i hi]
  unfold Sys.extSpec Sys.genForce
  congr 1
  refine sum_congr rfl fun k hk => ?_
  have hk := mem_range.1 hk
  have hidx : b.LinkIdx (k : ℤ) k := ⟨hk, Or.inl rfl⟩
  have hx0 : (b.freshTw k).app (x k) = 0 := by
    have := hx k hk
    unfold Body.position at this
    rw [index_ofNat hk] at this
    have := Out.ok.inj this
    rw [← this, h.inv.viewTw k hk]
  have hJk : J k i = b.fresh.Jw k i := by
    obtain ⟨r, hr⟩ := jacobian_total b hidx (x k)
    have h1 := hJ k hk
    rw [hr] at h1
    have h2 : J k = r.1 := (Out.ok.inj h1).symm
    rw [h2, jacobian_val h.inv hidx hr i, hx0]
    unfold Motion.atPoint
    ext <;> simp
  rw [hJk]
  beta_reduce
  cases fext k <;> simp

/-- C27: external torques are linear in the forces (a missing entry is a zero force). -/
theorem C27_linear (h : Reach E b d) (f f1 f2 : FExt) (c : ℝ)
    (hf : ∀ k < b.dof, (f k).getD 0 = c • (f1 k).getD 0 + (f2 k).getD 0) (i : ℕ) (hi : i < b.dof) :
    (b.externalTorques f).1 i = c * (b.externalTorques f1).1 i + (b.externalTorques f2).1 i := by
  rw [(externalTorques_run h.inv f).2 i hi, (externalTorques_run h.inv f1).2 i hi,
    (externalTorques_run h.inv f2).2 i hi]
  unfold Sys.extSpec Sys.genForce
  rw [mul_neg, mul_sum, ← neg_add, ← sum_add_distrib]
  congr 1
  refine sum_congr rfl fun k hk => ?_
  beta_reduce
  rw [hf k (mem_range.1 hk)]
  simp [Motion.dot_add, Motion.dot_smul]

/-- C27: entries whose key is not the index of a link have no effect. -/
theorem C27_other_keys (h : Reach E b d) (f f' : FExt) (hf : ∀ k < b.dof, f k = f' k) (i : ℕ)
    (hi : i < b.dof) : (b.externalTorques f).1 i = (b.externalTorques f').1 i := by
  rw [(externalTorques_run h.inv f).2 i hi, (externalTorques_run h.inv f').2 i hi]
  unfold Sys.extSpec Sys.genForce
  congr 1
  exact sum_congr rfl fun k hk => by
    beta_reduce; rw [hf k (mem_range.1 hk)]

/-! ## C28 -/

/-- C28: `CompositeInertia(link)` acts as the sum, over the links of the subtree and their loads, of
their inertias carried into the frame of the link (`T k` is the pose of link `k` in that frame). -/
theorem C28_composite (h : Reach E b d) (hm : b.Massive) {i : ℤ} {k : ℕ} (hk : b.LinkIdx i k)
    {I : Inertia} {b1 : Body} (hI : b.compositeInertia i = .ok (I, b1)) {sub : List ℕ}
    (hs : b.subtree i = .ok sub) {X : ℕ → Iso} (hX : ∀ l < b.dof, b.LinkPose b.pos l (X l))
    (m : Motion) :
    I.app m = (sub.map fun l => ((X k).inv * X l).actF
      (b.linkMomentum l (((X k).inv * X l).inv.actM m))).sum := by
  classical
  have hw := h.inv.wf
  have hsub : sub = b.sub.getD k [] := by
    unfold Body.subtree at hs
    rw [hk.index] at hs
    exact (Out.ok.inj hs).symm
  obtain ⟨-, -, Ic0, hIc⟩ := inertia_run h.inv
  have hIk : I = (b.fresh.crba Ic0).1 k := by
    unfold Body.compositeInertia at hI
    rw [hk.index] at hI
    have := (Prod.mk.inj (Out.ok.inj hI)).1
    rw [← this, hIc]
  have hTv : ∀ l < b.dof, (b.freshTw l).Valid := fun l hl => by
    have := hw.Tw_valid l hl; rwa [fresh_Tw hl] at this
  have hTk := hTv k hk.1
  have h1 := hw.crba_composite (hm.posMass h.inv.tree) Ic0 k hk.1 ((b.freshTw k).actM m)
  rw [fresh_Tw hk.1, hTk.inv_actM, ← hIk] at h1
  have h2 := congrArg (b.freshTw k).inv.actF h1
  rw [hTk.inv_actF] at h2
  rw [h2, hsub, h.inv.tree.sum_sub hk.1, Iso.actF_sum]
  refine sum_congr rfl fun l hl => ?_
  have hl : l < b.dof := mem_range.1 hl
  change _ = if Anc b.fresh.par k l then _ else _
  by_cases ha : Anc b.fresh.par k l
  · rw [if_pos ha, if_pos ha, hm.Iw_eq hl]
    have hvk : (X k).Valid := by
      have := hTk
      rw [(hX k hk.1).freshTw h.inv.tree hk.1] at this
      have h3 := h.inv.rigid.base.inv.mul this
      rwa [← mul_assoc, h.inv.rigid.base.inv_mul, one_mul] at h3
    have e : (X k).inv * X l = (b.freshTw k).inv * b.freshTw l := by
      rw [(hX k hk.1).freshTw h.inv.tree hk.1, (hX l hl).freshTw h.inv.tree hl,
        Iso.inv_mul_rev h.inv.rigid.base hvk, mul_assoc, ← mul_assoc b.T0.inv,
        h.inv.rigid.base.inv_mul, one_mul]
    rw [e, Iso.actF_mul _ _ hTk.inv, Iso.inv_mul_rev hTk.inv (hTv l hl), hTk.inv_inv,
      Iso.actM_mul _ _ (hTv l hl).inv]
  · rw [if_neg ha, if_neg ha]; simp

/-! ## Witnesses -/

theorem demo_definite : demo.Definite := by
  have hI : ∀ k < demo.dof, (demo.rb k).inertia = unitInertia := by
    intro k hk
    rcases demo_lt hk with rfl | rfl | rfl <;> rfl
  refine ⟨fun k hk => ?_, fun k hk => ?_, fun k hk v hv => ?_, fun k hk L hL => ?_, demo_axes⟩
  · rw [hI k hk]; norm_num [unitInertia]
  · rw [hI k hk]; exact unitInertia_phys.2.1
  · rw [hI k hk]; exact unitInertia_pd v hv
  · cases hL

/-- The same body carrying a load on its last link. -/
noncomputable def demoLoaded : Body := demo.addLoad unitInertia 2

theorem demoLoaded_reach (E : Ext) : ∃ d, Reach E demoLoaded d := by
  obtain ⟨d, h⟩ := demo_reach E
  exact ⟨_, h.step (.addLoad unitInertia 2) trivial rfl⟩

theorem demoLoaded_definite : demoLoaded.Definite := by
  refine ⟨demo_definite.mass, demo_definite.symm, demo_definite.pd, fun k hk L hL => ?_,
    demo_definite.axes⟩
  have e : demoLoaded.load = Function.update demo.load 2 (some unitInertia) := rfl
  rw [e] at hL
  by_cases h2 : (k : ℤ) = 2
  · rw [h2, Function.update_self] at hL
    cases hL
    exact unitInertia_phys
  · rw [Function.update_of_ne h2] at hL
    cases hL

/-- The hypotheses of C22 – C28 hold for a moving branched body with a load. -/
example (E : Ext) : ∃ d, Reach E demoLoaded d ∧ demoLoaded.Massive ∧ demoLoaded.Definite ∧
    (demoLoaded.load 2).isSome := by
  obtain ⟨d, h⟩ := demoLoaded_reach E
  exact ⟨d, h, demoLoaded_definite.massive h.inv.tree, demoLoaded_definite, rfl⟩

end SpatialDyn
