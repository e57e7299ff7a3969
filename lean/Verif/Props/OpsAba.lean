import Verif.Lemmas.OpsPass
import Verif.Props.OpsCache

/-!
# Articulated-body versions of the operational-space functions

C38 (inertia), C39 (gravity), C53 (centrifugal and Coriolis).
-/

namespace SpatialDyn
open Finset Body Matrix

variable {E : Ext} {b b' : Body} {d : Bool} {T : Set ℝ}

/-! ## C38 -/

theorem opsAbaInv_val (h : Reach E b d) (hm : b.Massive)
    (hn : DefiniteForm b.dof b.inertia.1)
    (hload : ∀ k, b.load k = none) (hs : Step E b b') (hd : b'.c.opsAba.lambdaInvDone = true) {l : ℤ}
    (hl : b.index l = .ok b'.c.opsAba.idx) {J : (ℕ → Motion) × Body} (hJ : b.jacobian l 0 = .ok J) :
    b'.c.opsAba.LambdaInv = b.taskInv (jacM b.dof J.1) := by
  obtain ⟨c', rfl, hc'⟩ := hs
  obtain ⟨-, hk, done, k, hok, e⟩ := hc'.opsAbaInv hd
  exact e.trans (lambdaInvAba_eq h hm hn hload done k hok hk (index_linkIdx hl) hJ)

/-- C38: without loads, `opspace::InertiaInverseAba` is `J A⁻¹ Jᵀ` for the Jacobian at the origin of
the link, whatever was computed before.  Missing: loads (`C38_loads_violated`) and points other than
the origin of the link (`C38_offset_violated`). -/
theorem C38_inertia_inverse_partial (h : Reach E b d) (hm : b.Massive)
    (hn : DefiniteForm b.dof b.inertia.1)
    (hload : ∀ k, b.load k = none) {l : ℤ} {x : Vec3} {J : (ℕ → Motion) × Body}
    (hJ : b.jacobian l 0 = .ok J) {r : Matrix (Fin 6) (Fin 6) ℝ × Body}
    (hr : b.opsInertiaInverseAba l x = .ok r) :
    r.1 = jacM b.dof J.1 * (toMat b.dof b.inertia.1)⁻¹ * (jacM b.dof J.1)ᵀ := by
  obtain ⟨hs, hd, hi, e⟩ := opsInertiaInverseAba_run h.inv hload hr
  rw [e]
  exact opsAbaInv_val h hm hn hload hs hd hi hJ

/-- C38: it agrees with `opspace::InertiaInverse` called with that Jacobian. -/
theorem C38_agrees_partial (h : Reach E b d) (hm : b.Massive)
    (hn : DefiniteForm b.dof b.inertia.1)
    (hload : ∀ k, b.load k = none) {l : ℤ} {x : Vec3} {J : (ℕ → Motion) × Body}
    (hJ : b.jacobian l 0 = .ok J) {r : Matrix (Fin 6) (Fin 6) ℝ × Body}
    (hr : b.opsInertiaInverseAba l x = .ok r) {K : DMat} (hK : K.Is (jacM b.dof J.1))
    {s : DMat × Body} (hs : b.opsInertiaInverse E K = .ok s) : s.1.Is r.1 := by
  rw [C38_inertia_inverse_partial h hm hn hload hJ hr]
  exact C35_inertia_inverse h hn hK hs

/-- Value of `opspace::InertiaAba` in a body with the same state. -/
theorem opsInertiaAba_val (h : Reach E b d) (hm : b.Massive)
    (hn : DefiniteForm b.dof b.inertia.1)
    (hload : ∀ k, b.load k = none) (hs : Step E b b') {l : ℤ} {x : Vec3} {eps : ℝ}
    {J : (ℕ → Motion) × Body} (hJ : b.jacobian l 0 = .ok J)
    {r : Matrix (Fin 6) (Fin 6) ℝ × Body} (hr : b'.opsInertiaAba E l x eps = .ok r) :
    r.1 = E.pinv6 (b.taskInv (jacM b.dof J.1)) eps := by
  have hload' : ∀ k, b'.load k = none := by
    obtain ⟨c', rfl, -⟩ := hs
    exact hload
  have hidx : ∀ i, b'.index i = b.index i := by
    obtain ⟨c', rfl, -⟩ := hs
    exact fun _ => rfl
  obtain ⟨h1, h2, h3, h4, h5⟩ := opsInertiaAba_run (h.inv.step hs) hload' hr
  have h6 := hs.trans h1
  obtain ⟨h7, h8⟩ := ((h.inv.step hs).step h1).coh.opsAbaLam h2
  rw [h5, h8, h4, opsAbaInv_val h hm hn hload h6 h7 ((hidx l).symm.trans h3) hJ]

/-- C38: `opspace::InertiaAba` is the inverse of `J A⁻¹ Jᵀ`, where `PseudoInverse` inverts it. -/
theorem C38_inertia_partial (h : Reach E b d) (hm : b.Massive)
    (hn : DefiniteForm b.dof b.inertia.1)
    (hload : ∀ k, b.load k = none) {l : ℤ} {x : Vec3} {eps : ℝ} {J : (ℕ → Motion) × Body}
    (hJ : b.jacobian l 0 = .ok J) (hX : (b.taskInv (jacM b.dof J.1)).det ≠ 0)
    (hE : E.pinv6 (b.taskInv (jacM b.dof J.1)) eps = (b.taskInv (jacM b.dof J.1))⁻¹)
    {r : Matrix (Fin 6) (Fin 6) ℝ × Body} (hr : b.opsInertiaAba E l x eps = .ok r) :
    r.1 * (jacM b.dof J.1 * (toMat b.dof b.inertia.1)⁻¹ * (jacM b.dof J.1)ᵀ) = 1 := by
  rw [opsInertiaAba_val h hm hn hload (Step.refl h.inv) hJ hr, hE]
  exact Matrix.nonsing_inv_mul _ (Ne.isUnit hX)

/-- The calls of C38 are defined for every link. -/
theorem C38_defined (b : Body) {l : ℤ} {k : ℕ} (hl : b.LinkIdx l k) (x : Vec3) (eps : ℝ) :
    (∃ J, b.jacobian l 0 = .ok J) ∧ (∃ r, b.opsInertiaInverseAba l x = .ok r) ∧
      ∃ r, b.opsInertiaAba E l x eps = .ok r := by
  have hinv : ∀ j : ℤ, b.LinkIdx j k → ∃ r, b.opsInertiaInverseAba j x = .ok r := by
    intro j hj
    unfold opsInertiaInverseAba
    rw [hj.index]
    simp only [Out.bind]
    split <;> exact ⟨_, rfl⟩
  refine ⟨jacobian_total b hl 0, hinv l hl, ?_⟩
  unfold opsInertiaAba
  rw [hl.index]
  obtain ⟨r, hr⟩ := hinv k ⟨hl.1, .inl rfl⟩
  simp only [Out.bind, hr]
  split <;> exact ⟨_, rfl⟩

/-! ## C39 -/

/-- The inertias `GravityAba` multiplies gravity with. -/
noncomputable def gravIa (b : Body) (k : ℕ) : Mat6 :=
  if b.c.abaDone then b.fresh.artRed k (b.fresh.artI k) else (b.fresh.Itot k).matrix

/-- What `GravityAba` answers, whether or not articulated inertias are cached. -/
theorem opsGravityAba_any (h : Reach E b d) (hs0 : Step E b b') (hm : b.Massive)
    (hn : DefiniteForm b.dof b.inertia.1)
    (hload : ∀ k, b.load k = none) {l : ℤ} {x : Vec3} {fext : FExt}
    {eps : ℝ} {J : (ℕ → Motion) × Body} (hJ : b.jacobian l 0 = .ok J)
    {r : (Fin 6 → ℝ) × Body} (hr : b'.opsGravityAba E l x fext eps = .ok r) :
    r.1 = E.pinv6 (b.taskInv (jacM b.dof J.1)) eps *ᵥ (jacM b.dof J.1 *ᵥ (b.massM⁻¹ *ᵥ
      (-vec b.dof (b.fresh.genForce fun k => (b.freshTw k).actF (b.fresh.subExt fext k
        ((gravIa b' k).app ((b.fresh.Tw k).inv.actM b.fresh.g))))))) := by
  have hi' := h.inv.step hs0
  have hload' : ∀ k, b'.load k = none := by
    obtain ⟨c', rfl, -⟩ := hs0
    exact hload
  have hidx : ∀ i, b'.index i = b.index i := by
    obtain ⟨c', rfl, -⟩ := hs0
    exact fun _ => rfl
  have hdof : b'.dof = b.dof := hs0.dof_eq
  have hfresh : b'.fresh = b.fresh := hs0.fresh_eq
  have hftw : b'.freshTw = b.freshTw := by
    obtain ⟨c', rfl, -⟩ := hs0
    rfl
  have hanc : b'.anc = b.anc := by
    obtain ⟨c', rfl, -⟩ := hs0
    rfl
  obtain ⟨k, hk, hr⟩ := Out.bind_ok hr
  rw [hidx] at hk
  have hkd := index_lt hk
  obtain ⟨s, hs, hr⟩ := Out.bind_ok hr
  cases hr
  simp only [hi'.view, fresh_unload hload, hi'.viewTw k (hdof ▸ hkd), hfresh, hftw, hanc] at hs ⊢
  obtain ⟨c', e, hc'⟩ := (touchTw_step hi').trans (touchTp_step (hi'.step (touchTw_step hi')))
  rw [e] at hs
  have hok : b'.c.abaDone = true → b.fresh.AbaOK b'.c.aba := by
    intro hd
    have := hi'.coh.aba hd
    rwa [hfresh] at this
  set f := fwdLoop b.fresh.n (fun _ i _ => b.fresh.subExt fext i
    ((b.fresh.abaInit b'.c.abaDone b'.c.aba i).app ((b.fresh.Tw i).inv.actM b.fresh.g))) b'.c.f
    with hf
  set R := b.fresh.opsBackward b'.c.abaDone b'.c.aba (fun _ => 0) f with hR
  have hst : Step E b' { b' with c := { c' with
      f := fun i => (R.1 i).2, aba := abaCacheOf R, abaDone := true } } := by
    refine ⟨_, rfl, { hc' with aba := fun _ => ?_ }⟩
    show b'.fresh.AbaOK _
    rw [hfresh]
    exact Sys.abaBackward_ok (σ := b.fresh) h.inv.tree.parLt (fun _ => 0)
      ⟨false, false, false, 0⟩ b'.c.abaDone b'.c.aba hok (fun _ => 0)
      f (fun i => ⟨b'.c.aba.h i, b'.c.aba.d i, 0⟩)
  have hJk : b.jacobian (k : ℤ) 0 = .ok J := by
    unfold Body.jacobian at hJ ⊢
    rw [index_ofNat hkd, ← hk]
    exact hJ
  rw [show s.1 = _ from opsInertiaAba_val h hm hn hload (hs0.trans hst) hJk hs]
  obtain ⟨u, h1, h2⟩ := ops_link h hm hn b'.c.abaDone b'.c.aba hok
    (fun _ => 0) f hkd (index_linkIdx hk) hJ
  rw [opsBias_zero, show (0 : Motion).atPoint (b.freshTw k).t = 0 by
    ext <;> simp [Motion.atPoint, Vec3.cross], Motion.six_zero, add_zero] at h1
  show E.pinv6 _ eps *ᵥ Motion.six _ = _
  rw [h1]
  congr 2
  have hdet : IsUnit b.massM.det := Ne.isUnit hn.det_ne
  have h4 : u = b.massM⁻¹ *ᵥ (b.massM *ᵥ u) := by
    rw [Matrix.mulVec_mulVec, Matrix.nonsing_inv_mul _ hdet, Matrix.one_mulVec]
  rw [h4, h2]
  congr 1
  funext i
  show -b.fresh.genForce _ i = -b.fresh.genForce _ i
  congr 1
  refine Sys.genForce_congr (fun j hj => ?_) i
  rw [opsBias_zero, Sys.Iw_zero, zero_add, hf, Sys.fwdLoop_spec' (fun _ _ _ _ _ _ => rfl) _ j hj]
  congr 3
  unfold gravIa
  rw [hfresh]
  cases hd : b'.c.abaDone with
  | false => simpa using Sys.abaInit_false _ _ hj
  | true =>
    simp only [if_true]
    rw [Sys.abaInit_true _ _ hj]
    exact (hok hd j hj).1

/-- `GravityAba` of a body whose articulated inertias are not cached: gravity minus the external
forces. -/
theorem opsGravityAba_val (h : Reach E b d) (hm : b.Massive)
    (hn : DefiniteForm b.dof b.inertia.1)
    (hload : ∀ k, b.load k = none) (hnew : b.c.abaDone = false) {l : ℤ} {x : Vec3} {fext : FExt}
    {eps : ℝ} {J : (ℕ → Motion) × Body} (hJ : b.jacobian l 0 = .ok J)
    {r : (Fin 6 → ℝ) × Body} (hr : b.opsGravityAba E l x fext eps = .ok r) :
    r.1 = E.pinv6 (b.taskInv (jacM b.dof J.1)) eps *ᵥ (jacM b.dof J.1 *ᵥ (b.massM⁻¹ *ᵥ
      (vec b.dof b.fresh.gravitySpec - vec b.dof (b.fresh.extSpec fext)))) := by
  rw [opsGravityAba_any h (Step.refl h.inv) hm hn hload hJ hr]
  congr 3
  funext i
  show -b.fresh.genForce _ i = b.fresh.gravitySpec i - b.fresh.extSpec fext i
  unfold Sys.gravitySpec Sys.extSpec
  rw [sub_neg_eq_add, ← Sys.genForce_add, ← Sys.genForce_neg]
  refine Sys.genForce_congr (fun j hj => ?_) i
  unfold gravIa
  rw [hnew, if_neg Bool.false_ne_true, Inertia.matrix_app _ (hm.symI j hj), ← fresh_Tw hj]
  have hI : (b.fresh.Tw j).actF ((b.fresh.Itot j).app ((b.fresh.Tw j).inv.actM b.fresh.g)) =
    b.fresh.Iw j b.fresh.g := rfl
  unfold Sys.subExt
  cases fext j with
  | none =>
    simp only [Option.getD_none, add_zero]
    rw [hI, Sys.Iw_neg]
  | some F =>
    simp only [Option.getD_some]
    rw [Iso.actF_sub, hI, Iso.Valid.actF_inv (h.inv.wf.Tw_valid j hj), Sys.Iw_neg]
    abel

/-- The transposed dynamically consistent inverse. -/
theorem dynInv_tr {m n : ℕ} {B : Matrix (Fin n) (Fin n) ℝ} {K : Matrix (Fin m) (Fin n) ℝ}
    (hB : Bᵀ = B) : (dynInv B K)ᵀ = (projInv B K)⁻¹ * K * B := by
  unfold dynInv
  rw [Matrix.transpose_mul, Matrix.transpose_nonsing_inv, projInv_symm hB, Matrix.transpose_mul,
    Matrix.transpose_transpose, hB, Matrix.mul_assoc]

/-- C39 for a body on which no articulated-body function has run since its configuration was last set
(`set_q` is the last call that changed it): `GravityAba` is `opspace::Gravity` with the Jacobian at
the origin of the link, *minus* `opspace::ExternalForces`.  Missing: bodies on which an
articulated-body function has run (`C39_violated`), loads (`C38_loads_violated`). -/
theorem C39_first_call_partial (h : Careful E T b d) {q : List ℝ} {b0 : Body}
    (hq : b0.setQ q = .ok b) (hne : b0.q ≠ q) (hm : b.Massive)
    (hn : DefiniteForm b.dof b.inertia.1)
    (hload : ∀ k, b.load k = none) {l : ℤ} {x : Vec3} {fext : FExt} {eps eps' : ℝ}
    {J : (ℕ → Motion) × Body} (hJ : b.jacobian l 0 = .ok J) {K : DMat}
    (hK : K.Is (jacM b.dof J.1))
    (hE : ∀ e ∈ T, Exact E (b.taskInv (jacM b.dof J.1)) e) (he : eps ∈ T)
    (hE' : E.pinv6 (b.taskInv (jacM b.dof J.1)) eps' = (b.taskInv (jacM b.dof J.1))⁻¹)
    {r : (Fin 6 → ℝ) × Body} (hr : b.opsGravityAba E l x fext eps' = .ok r)
    {s t : (ℕ → ℝ) × Body} (hs : b.opsGravity E K eps = .ok s)
    (ht : b.opsExternal E K fext eps = .ok t) (i : Fin 6) : r.1 i = s.1 i - t.1 i := by
  have hnew : b.c.abaDone = false := by
    unfold setQ at hq
    split at hq
    · cases hq
    · cases hq; rfl
  have hd : PosMat b.massM := hn.mat
  have hB := massM_inv_symm h.reach hm
  rw [opsGravityAba_val h.reach hm hn hload hnew hJ hr, hE']
  obtain ⟨s1, hs1, hs⟩ := Out.bind_ok hs
  cases hs
  obtain ⟨t1, ht1, ht⟩ := Out.bind_ok ht
  cases ht
  have k1 := opsJbar_is h.inv h.tol hd hK he hE hs1
  have k2 := opsJbar_is h.inv h.tol hd hK he hE ht1
  have st1 := (opsJbar_run h.inv hs1).1
  have st2 := (opsJbar_run h.inv ht1).1
  have e1 := congrFun (vec_mulVec_tr k1 s1.2.gravity.1) i
  have e2 := congrFun (vec_mulVec_tr k2 (t1.2.externalTorques fext).1) i
  have g1 : vec b.dof s1.2.gravity.1 = vec b.dof b.fresh.gravitySpec := by
    funext j
    have := (gravity_run (h.inv.step st1)).2 j (by rw [st1.dof_eq]; exact j.2)
    rw [st1.fresh_eq] at this
    exact this
  have g2 : vec b.dof (t1.2.externalTorques fext).1 = vec b.dof (b.fresh.extSpec fext) := by
    funext j
    have := (externalTorques_run (h.inv.step st2) fext).2 j (by rw [st2.dof_eq]; exact j.2)
    rw [st2.fresh_eq] at this
    exact this
  change _ = vec 6 (s1.1.tr.mulVec s1.2.gravity.1) i - vec 6 (t1.1.tr.mulVec
    (t1.2.externalTorques fext).1) i
  rw [e1, e2, g1, g2, ← Pi.sub_apply, ← Matrix.mulVec_sub,
    show b.massM⁻¹ * (jacM b.dof J.1)ᵀ * (b.taskInv (jacM b.dof J.1))⁻¹ =
      dynInv b.massM⁻¹ (jacM b.dof J.1) from rfl, dynInv_tr hB, Matrix.mulVec_mulVec,
    Matrix.mulVec_mulVec]
  rfl

/-- `opspace::Inertia` leaves the joint-space velocity products alone. -/
theorem opsInertia_cc {K : DMat} {eps : ℝ} {r : DMat × Body} (hr : b.opsInertia E K eps = .ok r) :
    r.2.c.cC = b.c.cC ∧ r.2.c.ccDone = b.c.ccDone := by
  have h1 : b.inertia.2.c.cC = b.c.cC ∧ b.inertia.2.c.ccDone = b.c.ccDone := by
    unfold Body.inertia
    split
    · exact ⟨rfl, rfl⟩
    · show (b.touch b.hasChild false).c.cC = _ ∧ (b.touch b.hasChild false).c.ccDone = _
      unfold touch touchTw touchTp
      constructor <;> (repeat' split) <;> rfl
  have h2 : b.inertiaInverse.2.c.cC = b.c.cC ∧ b.inertiaInverse.2.c.ccDone = b.c.ccDone := by
    unfold Body.inertiaInverse
    split
    · exact ⟨rfl, rfl⟩
    · exact h1
  have h3 : ∀ {s : DMat × Body}, b.opsInvCompute E K = .ok s →
      s.2.c.cC = b.c.cC ∧ s.2.c.ccDone = b.c.ccDone := by
    intro s hs
    unfold opsInvCompute at hs
    split at hs
    · cases hs
    · cases hs; exact h2
  have h4 : ∀ {s : DMat × Body}, b.opsInertiaInverse E K = .ok s →
      s.2.c.cC = b.c.cC ∧ s.2.c.ccDone = b.c.ccDone := by
    intro s hs
    unfold opsInertiaInverse at hs
    split at hs
    · exact h3 hs
    · obtain ⟨t, -, hs⟩ := Out.bind_ok hs
      split at hs
      · cases hs; exact ⟨rfl, rfl⟩
      · exact h3 hs
  have h5 : ∀ {s : DMat × Body}, b.opsLambdaCompute E K eps = .ok s →
      s.2.c.cC = b.c.cC ∧ s.2.c.ccDone = b.c.ccDone := by
    intro s hs
    obtain ⟨t, ht, hs⟩ := Out.bind_ok hs
    cases hs
    exact h4 (s := t) ht
  unfold opsInertia at hr
  split at hr
  · exact h5 hr
  · obtain ⟨t, -, hr⟩ := Out.bind_ok hr
    split at hr
    · cases hr; exact ⟨rfl, rfl⟩
    · exact h5 hr

/-- First pass of `CentrifugalCoriolisAba`: velocity-product forces and accelerations. -/
theorem opsCc_val {σ : Sys} (hw : σ.WF) (vd : Bool) (arr0 : ℕ → VAF)
    (h0 : vd = true → σ.VelOK fun i => (arr0 i).v) :
    (∀ k < σ.n, σ.opsBias (fun i => (fwdLoop σ.n (σ.opsCcStep vd) arr0 i).a) k = σ.bias k) ∧
      ∀ k < σ.n, (σ.Tw k).actF (fwdLoop σ.n (σ.opsCcStep vd) arr0 k).f =
        (σ.V σ.dq k).crossF (σ.Iw k (σ.V σ.dq k)) := by
  classical
  have hv := opsCc_vel hw vd arr0 h0
  set arr := fwdLoop σ.n (σ.opsCcStep vd) arr0 with harr
  have hspec : ∀ i < σ.n, arr i = σ.opsCcStep vd arr i (arr0 i) :=
    Sys.fwdLoop_spec' (opsCcStep_causal hw.par_lt vd) arr0
  have hf : ∀ i < σ.n, (arr i).f = (arr i).v.crossF ((σ.Itot i).app (arr i).v) := by
    intro i hi
    have := hspec i hi
    rw [this]
    rfl
  have ha : ∀ i < σ.n, ∀ p, σ.par i = some p → (arr i).a = (arr i).v.crossM (σ.dq i • σ.S i) := by
    intro i hi p hp
    have := hspec i hi
    rw [this]
    simp only [Sys.opsCcStep, hp]
  constructor
  · intro k hk
    rw [← Sys.sum_if_bias]
    unfold Sys.opsBias
    refine sum_congr rfl fun j hj => ?_
    have hj := mem_range.1 hj
    split
    · cases hp : σ.par j with
      | none => simp only [Option.isNone_none, if_true]; rw [Iso.actM_zero, hw.bias_root hj hp]
      | some p =>
        simp only [Option.isNone_some, Bool.false_eq_true, if_false]
        rw [ha j hj p hp, hw.bias_term hv hj]
    · rfl
  · intro k hk
    rw [hf k hk, (hw.Tw_valid k hk).actF_crossF, ← hw.Iw_actM hk, hv k hk]

/-- C53: without loads, `CentrifugalCoriolisAba` is `opspace::CentrifugalCoriolis` called with the
Jacobian at the origin of the link, whatever was computed before.  Missing: loads and offsets. -/
theorem C53_coriolis_partial (h : Careful E T b d) (hm : b.Massive)
    (hn : DefiniteForm b.dof b.inertia.1)
    (hload : ∀ k, b.load k = none) {l : ℤ} {x : Vec3} {eps eps' : ℝ}
    {J : (ℕ → Motion) × Body} (hJ : b.jacobian l 0 = .ok J) {K : DMat}
    (hK : K.Is (jacM b.dof J.1))
    (hE : ∀ e ∈ T, Exact E (b.taskInv (jacM b.dof J.1)) e) (he : eps ∈ T) (h0 : (0 : ℝ) ∈ T)
    (hE' : E.pinv6 (b.taskInv (jacM b.dof J.1)) eps' = (b.taskInv (jacM b.dof J.1))⁻¹)
    {r : (Fin 6 → ℝ) × Body} (hr : b.opsCoriolisAba E l x eps' = .ok r)
    {s : (ℕ → ℝ) × Body} (hs : b.opsCoriolis E K l eps = .ok s) (i : Fin 6) : r.1 i = s.1 i := by
  obtain ⟨k, hk, hr⟩ := Out.bind_ok hr
  have hkd := index_lt hk
  obtain ⟨t, ht, hr⟩ := Out.bind_ok hr
  cases hr
  have hrd := h.reach
  simp only [hrd.inv.view, fresh_unload hload, hrd.inv.viewTw k hkd] at ht ⊢
  obtain ⟨c', e, hc'⟩ := (touchTw_step hrd.inv).trans
    (touchTp_step (hrd.inv.step (touchTw_step hrd.inv)))
  rw [e] at ht
  have hvel : b.c.velDone = true → b.fresh.VelOK fun i => (b.vaf i).v := hrd.inv.coh.vel
  obtain ⟨hbias, hforce⟩ := opsCc_val hrd.inv.wf b.c.velDone b.vaf hvel
  have hvv := opsCc_vel hrd.inv.wf b.c.velDone b.vaf hvel
  set arr := fwdLoop b.fresh.n (b.fresh.opsCcStep b.c.velDone) b.vaf with harr
  set R := b.fresh.opsBackward b.c.abaDone b.c.aba (fun i => (arr i).a) (fun i => (arr i).f) with hR
  have hst : Step E b { b with c := { c' with
      v := fun i => (arr i).v, velDone := true, a := fun i => (arr i).a
      f := fun i => (R.1 i).2, aba := abaCacheOf R, abaDone := true } } := by
    refine ⟨_, rfl, { hc' with vel := fun _ => hvv, aba := fun _ => ?_ }⟩
    exact Sys.abaBackward_ok (σ := b.fresh) hrd.inv.tree.parLt (fun _ => 0)
      ⟨false, false, false, 0⟩ b.c.abaDone b.c.aba hrd.inv.coh.aba (fun i => (arr i).a)
      (fun i => (arr i).f) (fun i => ⟨b.c.aba.h i, b.c.aba.d i, 0⟩)
  have hJk : b.jacobian (k : ℤ) 0 = .ok J := by
    unfold Body.jacobian at hJ ⊢
    rw [index_ofNat hkd, ← hk]
    exact hJ
  rw [show t.1 = _ from opsInertiaAba_val hrd hm hn hload hst hJk ht, hE']
  obtain ⟨u, h1, h2⟩ := ops_link hrd hm hn b.c.abaDone b.c.aba hrd.inv.coh.aba
    (fun i => (arr i).a) (fun i => (arr i).f) hkd (index_linkIdx hk) hJ
  have hdet : IsUnit b.massM.det := Ne.isUnit hn.det_ne
  have hB := massM_inv_symm hrd hm
  have h3 : vec b.dof (b.fresh.genForce fun k => b.fresh.Iw k (b.fresh.opsBias
      (fun i => (arr i).a) k) + (b.freshTw k).actF (arr k).f) = vec b.dof b.fresh.coriolisSpec := by
    funext j
    refine Sys.genForce_congr (fun m hm' => ?_) _
    rw [hbias m hm', ← fresh_Tw hm', hforce m hm']
  have h4 : u = -(b.massM⁻¹ *ᵥ vec b.dof b.fresh.coriolisSpec) := by
    rw [← Matrix.mulVec_neg, ← h3, ← h2, Matrix.mulVec_mulVec, Matrix.nonsing_inv_mul _ hdet,
      Matrix.one_mulVec]
  have h5 : mulVec6 (b.taskInv (jacM b.dof J.1))⁻¹ (-(⟨(b.freshTw k).R, 0⟩ : Iso).actM
      (b.fresh.opsForward R.2 (fun i => (arr i).a) (b.anc.getD k []))) =
      (dynInv b.massM⁻¹ (jacM b.dof J.1))ᵀ *ᵥ vec b.dof b.fresh.coriolisSpec -
        (b.taskInv (jacM b.dof J.1))⁻¹ *ᵥ ((b.fresh.bias k).atPoint (b.freshTw k).t).six := by
    show _ *ᵥ Motion.six _ = _
    rw [Motion.six_neg, h1, hbias k hkd, h4, dynInv_tr hB]
    simp only [Matrix.mulVec_neg, Matrix.mulVec_add, neg_add, neg_neg, Matrix.mulVec_mulVec]
    rw [← Matrix.mul_assoc, sub_eq_add_neg]
    rfl
  rw [h5]
  -- the dense function
  unfold opsCoriolis at hs
  split at hs
  · cases hs
  obtain ⟨s1, hs1, hs⟩ := Out.bind_ok hs
  have st1 := (opsJbar_run hrd.inv hs1).1
  have k1 := opsJbar_is hrd.inv h.tol hn.mat hK he hE hs1
  have i1 := hrd.inv.step st1
  obtain ⟨st2, hcc⟩ := centrifugalCoriolis_run i1
  have i2 := i1.step st2
  obtain ⟨s3, hs3, hs⟩ := Out.bind_ok hs
  have k3 := opsInertia_is_step hrd.inv (st1.trans st2) hn.mat hK (hE 0 h0) hs3
  have st3 := (opsInertia_run i2 hs3).1
  have i3 := i2.step st3
  have st := (st1.trans st2).trans st3
  obtain ⟨k', hk', hs⟩ := Out.bind_ok hs
  have hidx : s3.2.index l = b.index l := by
    obtain ⟨c'', e', -⟩ := st
    rw [e']; rfl
  rw [hidx, hk] at hk'
  cases hk'
  cases hs
  have g1 : vec b.dof s1.2.centrifugalCoriolis.1 = vec b.dof b.fresh.coriolisSpec := by
    funext j
    have := hcc j (by rw [st1.dof_eq]; exact j.2)
    rw [st1.fresh_eq] at this
    exact this
  have e1 := congrFun (vec_mulVec_tr k1 s1.2.centrifugalCoriolis.1) i
  have hdone : s1.2.centrifugalCoriolis.2.c.ccDone = true := by
    unfold centrifugalCoriolis
    split
    · assumption
    · rfl
  have hC : (b.freshTw k).actM (s3.2.c.cC k) = b.fresh.bias k := by
    have hdof : s3.2.dof = b.dof := st.dof_eq
    have := i3.coh.cC (((opsInertia_cc hs3).2).trans hdone) k (by rw [hdof]; exact hkd)
    rw [st.fresh_eq] at this
    have e2 : s3.2.freshTw k = b.freshTw k := by
      obtain ⟨c'', e', -⟩ := st
      rw [e']; rfl
    rwa [e2] at this
  have hTw : s3.2.viewTw k = b.freshTw k := by
    have hdof : s3.2.dof = b.dof := st.dof_eq
    rw [i3.viewTw k (by rw [hdof]; exact hkd)]
    obtain ⟨c'', e', -⟩ := st
    rw [e']; rfl
  have e3 := k3.mulVec ((⟨(s3.2.viewTw k).R, 0⟩ : Iso).actM (s3.2.c.cC k)).entry i
  show _ = vec 6 (s1.1.tr.mulVec s1.2.centrifugalCoriolis.1) i - s3.1.mulVec _ i
  rw [e1, g1, e3, Pi.sub_apply, hTw, Iso.rot_actM, hC]
  rfl

end SpatialDyn
