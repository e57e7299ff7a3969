import Verif.Props.OpsAbaFlyer

/-!
# C68: velocity products in operational space, and options that reach the wrong parameter

`opspace::InverseDynamics` hands `svd_epsilon` to the parameter `idx_link` of
`opspace::CentrifugalCoriolis` and `stiction_epsilon` to the parameter `compensate` of `Friction`.
-/

namespace SpatialDyn
open Finset Body Matrix

variable {E : Ext} {b b' : Body} {d : Bool} {T : Set ℝ}

/-- The value of `opspace::CentrifugalCoriolis`. -/
theorem opsCoriolis_is (h : Inv E b) (hst : Step E b b') (ht : TolC E T b'.c.ops)
    (hd : PosMat b.massM) {K : DMat} {KM : Matrix (Fin 6) (Fin b.dof) ℝ} (hK : K.Is KM)
    (hE : ∀ e ∈ T, Exact E (b.taskInv KM) e) (h0 : (0 : ℝ) ∈ T) {eps : ℝ} (he : eps ∈ T) {l : ℤ}
    {s : (ℕ → ℝ) × Body} (hs : b'.opsCoriolis E K l eps = .ok s) : ∃ k, b.index l = .ok k ∧
    vec 6 s.1 = (dynInv b.massM⁻¹ KM)ᵀ *ᵥ vec b.dof b.fresh.coriolisSpec -
      (b.taskInv KM)⁻¹ *ᵥ ((b.fresh.bias k).atPoint (b.freshTw k).t).six := by
  have i0 := h.step hst
  unfold opsCoriolis at hs
  split at hs
  · cases hs
  obtain ⟨s1, hs1, hs⟩ := Out.bind_ok hs
  have st1 := hst.trans (opsJbar_run i0 hs1).1
  have k1 := opsJbar_is_step h hst ht hd hK he hE hs1
  have i1 := h.step st1
  obtain ⟨st2, hcc⟩ := centrifugalCoriolis_run i1
  have i2 := i1.step st2
  obtain ⟨s3, hs3, hs⟩ := Out.bind_ok hs
  have k3 := opsInertia_is_step h (st1.trans st2) hd hK (hE 0 h0) hs3
  have st3 := (opsInertia_run i2 hs3).1
  have i3 := i2.step st3
  have st := (st1.trans st2).trans st3
  obtain ⟨k, hk, hs⟩ := Out.bind_ok hs
  have hidx : s3.2.index l = b.index l := by
    obtain ⟨c'', e', -⟩ := st
    rw [e']; rfl
  rw [hidx] at hk
  have hkd := index_lt hk
  refine ⟨k, hk, ?_⟩
  cases hs
  have g1 : vec b.dof s1.2.centrifugalCoriolis.1 = vec b.dof b.fresh.coriolisSpec := by
    funext j
    have := hcc j (by rw [st1.dof_eq]; exact j.2)
    rw [st1.fresh_eq] at this
    exact this
  funext i
  have e1 := congrFun (vec_mulVec_tr k1 s1.2.centrifugalCoriolis.1) i
  have hdone : s1.2.centrifugalCoriolis.2.c.ccDone = true := by
    unfold centrifugalCoriolis
    split
    · assumption
    · rfl
  have hC : (b.freshTw k).actM (s3.2.c.cC k) = b.fresh.bias k := by
    have hdof : s3.2.dof = b.dof := st.dof_eq
    have := i3.coh.cC (((opsInertia_cc hs3).2).trans hdone) k (by rw [hdof]; exact hkd)
    rw [st.fresh_eq] at this
    have e2 : s3.2.freshTw k = b.freshTw k := by
      obtain ⟨c'', e', -⟩ := st
      rw [e']; rfl
    rwa [e2] at this
  have hTw : s3.2.viewTw k = b.freshTw k := by
    have hdof : s3.2.dof = b.dof := st.dof_eq
    rw [i3.viewTw k (by rw [hdof]; exact hkd)]
    obtain ⟨c'', e', -⟩ := st
    rw [e']; rfl
  have e3 := k3.mulVec ((⟨(s3.2.viewTw k).R, 0⟩ : Iso).actM (s3.2.c.cC k)).entry i
  show vec 6 (s1.1.tr.mulVec s1.2.centrifugalCoriolis.1) i - s3.1.mulVec _ i = _
  rw [e1, g1, e3, Pi.sub_apply, hTw, Iso.rot_actM, hC]
  rfl

/-- Velocity of a point along a trajectory, and its rate of change: the acceleration caused by the
joint accelerations, the velocity products, and the turning of the velocity of the point with its
link. -/
theorem jacobianQ_accel (ht : b.Tree) (hr : b.Rigid) (ha : b.AxesOK) {l : ℤ} {k : ℕ}
    (hk : b.LinkIdx l k) {x : Vec3} {u w : ℝ → ℕ → ℝ} {a : ℕ → ℝ} {s : ℝ}
    (hu : ∀ i < b.dof, HasDerivAt (fun s => u s i) (w s i) s)
    (hw : ∀ i < b.dof, HasDerivAt (fun s => w s i) (a i) s) {Jq : ℝ → ℕ → Motion}
    (hJq : ∀ s, b.jacobianQ (u s) l x = .ok (Jq s)) :
    HasDerivMotion (fun s => ∑ j ∈ range b.dof, w s j • Jq s j)
      (∑ j ∈ range b.dof, a j • Jq s j +
        ((b.sysAt (u s) (w s)).bias k).atPoint ((b.twAt (u s) k).app x) +
        ⟨(∑ j ∈ range b.dof, w s j • Jq s j).ang.cross (∑ j ∈ range b.dof, w s j • Jq s j).lin, 0⟩)
      s := by
  classical
  have hcol : ∀ s (c : ℕ → ℝ), ∑ j ∈ range b.dof, c j • Jq s j =
      ((b.sysAt (u s) (w s)).V c k).atPoint ((b.twAt (u s) k).app x) := by
    intro s c
    have h1 := hJq s
    rw [jacobianQ_val ht hk] at h1
    have h1 := Out.ok.inj h1
    unfold Sys.V
    rw [← h1]
    refine Eq.trans ?_ (Motion.atPoint_sum _ _ _ _).symm
    refine Finset.sum_congr rfl fun j hj => ?_
    have hj := Finset.mem_range.1 hj
    congr 1
    rw [jacLoop_apply]
    unfold Sys.Jw
    have hm : j ∈ b.anc.getD k [] ↔ Anc (b.sysAt (u s) (w s)).par j k := ht.anc_mem k hk.1 j
    split
    · next hm' =>
      rw [if_pos (hm.1 hm')]
      unfold Sys.axis
      rw [sysAt_Tw hj]; rfl
    · next hm' =>
      rw [if_neg (fun hc => hm' (hm.2 hc))]
      ext <;> simp [Motion.atPoint, Vec3.cross]
  have hV := V_deriv ht hr ha hu hw k
  have hp := (twAt_twist ht hr ha hu (w s) k hk.1).app x
  simp only [hcol]
  constructor
  · refine (hV.lin.add (hV.ang.cross hp)).congr_deriv ?_
    generalize (b.sysAt (u s) (w s)).V (w s) k = v1
    generalize (b.sysAt (u s) (w s)).V a k = v2
    generalize (b.sysAt (u s) (w s)).bias k = v3
    generalize (b.twAt (u s) k).app x = p
    ext <;> simp [Motion.atPoint, Vec3.cross] <;> ring
  · refine hV.ang.congr_deriv ?_
    simp [Motion.atPoint]

/-- C68, the acceleration that `opspace::InverseDynamics` really causes when asked to compensate the
velocity products of a point of link `l`: for every tolerance below one, the velocity products of the
task itself remain.  Holds as documented only where they vanish. -/
theorem C68_acceleration_partial (h : Careful E T b d) (hm : b.Massive) (ha : b.AxesOK)
    (hn : DefiniteForm b.dof b.inertia.1) {l : ℤ} {k : ℕ} (hk : b.LinkIdx l k) {x : Vec3}
    {J : ℕ → Motion} {b1 : Body} (hJ : b.jacobian l x = .ok (J, b1)) {K : DMat}
    (hK : K.Is (jacM b.dof J)) (hX : (b.taskInv (jacM b.dof J)).det ≠ 0)
    (hE : ∀ e ∈ T, Exact E (b.taskInv (jacM b.dof J)) e) {A : Motion} {N : Option DMat}
    (hN : ∀ M, N = some M → M.size = 0) {o : OpsOpts} (he : o.svdEps ∈ T) (h0 : (0 : ℝ) ∈ T)
    (hs : |o.svdEps| < 1) (hcc : o.cc = true) (hfr : o.friction = false) (hcl : o.fAccMax ≤ 0)
    {r : (ℕ → ℝ) × Option DMat × Body}
    (hr : b.opsInverseDynamics E K A.entry N (fun _ => none) false o = .ok r) {eps : ℝ}
    {u w : ℝ → ℕ → ℝ} {s : ℝ} (hu0 : u s = b.pos) (hw0 : w s = b.vel)
    (hu : ∀ i < b.dof, HasDerivAt (fun s => u s i) (w s i) s)
    (hw : ∀ i < b.dof, HasDerivAt (fun s => w s i)
      ((b.fd E r.1 (fun _ => none) ⟨o.gravity, true, false, eps⟩).1 i) s)
    {Jq : ℝ → ℕ → Motion} (hJq : ∀ s, b.jacobianQ (u s) l x = .ok (Jq s)) :
    let V := ∑ j ∈ range b.dof, b.vel j • J j
    HasDerivMotion (fun s => ∑ j ∈ range b.dof, w s j • Jq s j)
      (A + (b.fresh.bias k).atPoint ((b.freshTw k).app x) + ⟨V.ang.cross V.lin, 0⟩) s := by
  intro V
  have hi := h.inv
  have hd : 0 < b.dof := lt_of_le_of_lt (Nat.zero_le _) hk.1
  have htr : truncInt o.svdEps = 0 := by
    have := abs_lt.1 hs
    unfold truncInt
    split
    · next h1 => exact Int.floor_eq_zero_iff.2 ⟨h1, this.2⟩
    · next h1 =>
      rw [Int.ceil_eq_iff]
      push Not at h1
      constructor
      · push_cast; linarith [this.1]
      · push_cast; linarith
  have hb0 : b.fresh.bias 0 = 0 := by
    have hp0 : b.fresh.par 0 = none := by
      cases hp : b.fresh.par 0 with
      | none => rfl
      | some p => exact absurd (hi.tree.parLt 0 hd p hp) (Nat.not_lt_zero _)
    refine Finset.sum_eq_zero fun j hj => ?_
    unfold Sys.Jw
    split
    · next hA =>
      have hj0 : j = 0 := by
        cases hA with
        | refl => rfl
        | step h1 _ => rw [hp0] at h1; cases h1
      subst hj0
      exact hi.wf.bias_root hd hp0
    · ext <;> simp [Motion.crossM]
  have key := realises_aux h hm hn hK hX hE hN (fun _ _ _ => rfl) he hfr (z := 0) (y := A.six)
    (fun _ => rfl) (fun _ s y hst ht hy => by
      obtain ⟨k', hk', e⟩ := opsCoriolis_is hi hst ht hn.mat hK hE h0 h0 hy
      rw [htr, show (0 : ℤ) = ((0 : ℕ) : ℤ) from rfl, index_ofNat hd] at hk'
      cases hk'
      rw [e, hb0]
      congr 2
      funext i
      fin_cases i <;> simp [Motion.six, Motion.entry, Motion.atPoint])
    (fun q hL => by
      funext i
      show clipForce _ _ _ i = _
      unfold clipForce
      rw [if_neg (fun hc => absurd hc.1 (not_lt.2 hcl))]
      exact hL.mulVec A.entry i) hr ⟨o.gravity, true, false, eps⟩ rfl rfl
    (fun e => absurd hcc.symm e)
  rw [sub_zero] at key
  have hJs : Jq s = J := by
    have h1 := hJq s
    rw [jacobianQ_val hi.tree hk, hu0] at h1
    have h1 := Out.ok.inj h1
    funext j
    rw [show J j = _ from jacobian_val hi hk hJ j, ← h1, jacLoop_apply]
    unfold Sys.Jw
    have hm : j ∈ b.anc.getD k [] ↔ Anc b.fresh.par j k := hi.tree.anc_mem k hk.1 j
    split
    · next hm' =>
      have hjd : j < b.dof := lt_of_le_of_lt (Anc.le hi.tree.parLt (hm.1 hm') hk.1) hk.1
      rw [if_pos (hm.1 hm')]
      unfold Sys.axis
      rw [fresh_Tw hjd]; rfl
    · next hm' =>
      rw [if_neg (fun hc => hm' (hm.2 hc))]
      ext <;> simp [Motion.atPoint, Vec3.cross]
  have acc := jacobianQ_accel hi.tree hi.rigid ha hk hu hw hJq
  refine acc.congr_deriv ?_
  rw [hJs, hu0, hw0, ← fresh_eq_sysAt]
  have e1 : ∑ j ∈ range b.dof, (b.fd E r.1 (fun _ => none) ⟨o.gravity, true, false, eps⟩).1 j • J j
      = A := by
    have := (Motion.six_sum b.dof (b.fd E r.1 (fun _ => none) ⟨o.gravity, true, false, eps⟩).1 J).trans
      key
    have g := fun i => congrFun this i
    ext
    · exact g 0
    · exact g 1
    · exact g 2
    · exact g 3
    · exact g 4
    · exact g 5
  rw [e1]
  rfl

/-- C68 at rest: there the requested acceleration is the true one. -/
theorem C68_rest (h : Careful E T b d) (hm : b.Massive) (ha : b.AxesOK)
    (hn : DefiniteForm b.dof b.inertia.1) {l : ℤ} {k : ℕ} (hk : b.LinkIdx l k) {x : Vec3}
    {J : ℕ → Motion} {b1 : Body} (hJ : b.jacobian l x = .ok (J, b1)) {K : DMat}
    (hK : K.Is (jacM b.dof J)) (hX : (b.taskInv (jacM b.dof J)).det ≠ 0)
    (hE : ∀ e ∈ T, Exact E (b.taskInv (jacM b.dof J)) e) {A : Motion} {N : Option DMat}
    (hN : ∀ M, N = some M → M.size = 0) {o : OpsOpts} (he : o.svdEps ∈ T) (h0 : (0 : ℝ) ∈ T)
    (hs : |o.svdEps| < 1) (hcc : o.cc = true) (hfr : o.friction = false) (hcl : o.fAccMax ≤ 0)
    {r : (ℕ → ℝ) × Option DMat × Body}
    (hr : b.opsInverseDynamics E K A.entry N (fun _ => none) false o = .ok r) {eps : ℝ}
    {u w : ℝ → ℕ → ℝ} {s : ℝ} (hu0 : u s = b.pos) (hw0 : w s = b.vel) (hrest : ∀ i, b.vel i = 0)
    (hu : ∀ i < b.dof, HasDerivAt (fun s => u s i) (w s i) s)
    (hw : ∀ i < b.dof, HasDerivAt (fun s => w s i)
      ((b.fd E r.1 (fun _ => none) ⟨o.gravity, true, false, eps⟩).1 i) s)
    {Jq : ℝ → ℕ → Motion} (hJq : ∀ s, b.jacobianQ (u s) l x = .ok (Jq s)) :
    HasDerivMotion (fun s => ∑ j ∈ range b.dof, w s j • Jq s j) A s := by
  refine (C68_acceleration_partial h hm ha hn hk hJ hK hX hE hN he h0 hs hcc hfr hcl hr hu0 hw0 hu hw
    hJq).congr_deriv ?_
  have e1 : ∑ j ∈ range b.dof, b.vel j • J j = 0 :=
    Finset.sum_eq_zero fun j _ => by rw [hrest, zero_smul]
  have e2 : b.fresh.bias k = 0 := Finset.sum_eq_zero fun j _ => by
    rw [show b.fresh.dq j = 0 from hrest j, zero_smul]
  rw [e1, e2]
  ext <;> simp [Motion.atPoint, Vec3.cross]

/-- C68: whatever non-zero value `stiction_epsilon` has, the torques are the same: the option that is
documented to set the velocity below which stiction acts has no effect. -/
theorem C68_violated_stiction (b : Body) (K : DMat) (ddx : ℕ → ℝ) (N : Option DMat) (fext : FExt)
    (se : Bool) (o : OpsOpts) (hs : o.stictionEps ≠ 0) {e : ℝ} (he : e ≠ 0) :
    b.opsInverseDynamics E K ddx N fext se { o with stictionEps := e } =
      b.opsInverseDynamics E K ddx N fext se o := by
  unfold opsInverseDynamics opsFriction
  dsimp only
  rw [decide_eq_true hs, decide_eq_true he]

/-- Link 0 of the free-flying body has no velocity products, link 5 has. -/
theorem flyer_bias : (flyer0.fresh.bias 5).ang = ⟨30, -24, 20⟩ := by
  have hJ : ∀ k < 6, ∀ j < 6, flyer0.fresh.Jw k j = if j ≤ k then (flyerType j).subspace else 0 := by
    intro k hk j hj
    unfold Sys.Jw
    by_cases hjk : j ≤ k
    · rw [if_pos (flyer_anc k hk j hjk), if_pos hjk]
      unfold Sys.axis
      rw [fresh_Tw hj, flyer_tw j hj, Iso.one_actM,
        show flyer0.fresh.S j = (flyer0.rb j).joint.subspace from rfl, flyer_joint j hj]
      rfl
    · obtain ⟨d, h⟩ := flyer_reach ext0
      change Reach ext0 flyer0 d at h
      rw [if_neg (fun hc : Anc flyer0.fresh.par j k => hjk (Anc.le h.inv.tree.parLt hc hk)),
        if_neg hjk]
  have hdq : ∀ j < 6, flyer0.fresh.dq j = (j : ℝ) + 1 := by
    intro j hj
    interval_cases j <;> simp [flyer0, flyer, Body.fresh, Body.sysWith] <;> norm_num
  have hV : ∀ k < 6, flyer0.fresh.V flyer0.fresh.dq k =
      ∑ i ∈ range 6, ((i : ℝ) + 1) • (if i ≤ k then (flyerType i).subspace else 0) := by
    intro k hk
    refine Finset.sum_congr rfl fun i hi => ?_
    rw [hdq i (Finset.mem_range.1 hi), hJ k hk i (Finset.mem_range.1 hi)]
  have hb : flyer0.fresh.bias 5 = ∑ j ∈ range 6, ((j : ℝ) + 1) •
      (∑ i ∈ range 6, ((i : ℝ) + 1) • (if i ≤ j then (flyerType i).subspace else 0)).crossM
        (flyerType j).subspace := by
    refine Finset.sum_congr rfl fun j hj => ?_
    have hj := Finset.mem_range.1 hj
    rw [hdq j hj, hV j hj, hJ 5 (by omega) j hj, if_pos (by omega)]
  rw [hb]
  ext <;> simp [Finset.sum_range_succ, flyerType, JType.subspace, Motion.crossM] <;> norm_num

/-- A velocity compensation that is asked for six rows can be computed. -/
theorem opsCoriolis_total (h : Inv E b) {K : DMat} (hr : K.rows = 6) (hc : K.cols = b.dof) {l : ℤ}
    {k : ℕ} (hk : b.LinkIdx l k) (eps : ℝ) : ∃ r, b.opsCoriolis E K l eps = .ok r := by
  have hd : 0 < b.dof := lt_of_le_of_lt (Nat.zero_le _) hk.1
  obtain ⟨s1, e1⟩ := opsJbar_total (e := eps) h hc hd
  have st1 := (opsJbar_run h e1).1
  have st2 := st1.trans (centrifugalCoriolis_run (h.step st1)).1
  obtain ⟨s3, e3⟩ := opsInertia_total (e := 0) (h.step st2) (J := K) (by rw [st2.dof_eq]; exact hc)
    (by rw [st2.dof_eq]; exact hd)
  have st3 := st2.trans (opsInertia_run (h.step st2) e3).1
  have hidx : s3.2.index l = .ok k := by
    obtain ⟨c'', e', -⟩ := st3
    rw [e']
    exact hk.index
  unfold opsCoriolis
  rw [if_neg (by rw [hr]; simp), e1]
  simp only [Out.bind, e3, hidx]
  exact ⟨_, rfl⟩

/-- C68 does not hold as documented: a free-flying body is asked to hold its last link unaccelerated,
with the velocity products compensated, and the link's angular velocity changes. -/
theorem C68_violated : ∃ (d : Bool) (J : (ℕ → Motion) × Body) (K : DMat)
    (r : (ℕ → ℝ) × Option DMat × Body) (u w : ℝ → ℕ → ℝ) (Jq : ℝ → ℕ → Motion) (B : Motion),
    let o : OpsOpts := ⟨false, true, false, 0, 0.01, 0⟩
    Careful ext0 Set.univ flyer0 d ∧ flyer0.jacobian 5 0 = .ok J ∧ K.Is (jacM flyer0.dof J.1) ∧
    flyer0.opsInverseDynamics ext0 K (Motion.entry 0) none (fun _ => none) false o = .ok r ∧
    u 0 = flyer0.pos ∧ w 0 = flyer0.vel ∧
    (∀ i < flyer0.dof, ∀ s, HasDerivAt (fun s => u s i) (w s i) s) ∧
    (∀ i < flyer0.dof, ∀ s, HasDerivAt (fun s => w s i)
      ((flyer0.fd ext0 r.1 (fun _ => none) ⟨false, true, false, 0.01⟩).1 i) s) ∧
    (∀ s, flyer0.jacobianQ (u s) 5 0 = .ok (Jq s)) ∧
    HasDerivMotion (fun s => ∑ j ∈ range flyer0.dof, w s j • Jq s j) B 0 ∧ B.ang = ⟨30, -24, 20⟩ := by
  obtain ⟨d, J, K, -, -, hc, hm, hn, -, hJ, hK, hX, hE, -⟩ := flyer_meets
  have hi := hc.inv
  have hl : flyer0.LinkIdx 5 5 := ⟨by show 5 < 6; omega, .inl rfl⟩
  have hd : 0 < flyer0.dof := by show 0 < 6; omega
  have ha : flyer0.AxesOK := by
    intro i hi
    rw [flyer_joint i hi]; rfl
  have hcols : K.cols = flyer0.dof := hK.cols
  have hrows : K.rows = 6 := hK.rows
  have htr : truncInt (0 : ℝ) = 0 := by simp [truncInt]
  have hr : ∃ r, flyer0.opsInverseDynamics ext0 K (Motion.entry 0) none (fun _ => none) false
      ⟨false, true, false, 0, 0.01, 0⟩ = .ok r := by
    obtain ⟨l, hl1⟩ := opsInertia_total (e := 0) hi hcols hd
    have st := (opsInertia_run hi hl1).1
    have hl0 : l.2.LinkIdx 0 0 := ⟨by rw [st.dof_eq]; exact hd, .inl rfl⟩
    obtain ⟨r, hr⟩ := opsCoriolis_total (hi.step st) hrows (by rw [st.dof_eq]; exact hcols) hl0 0
    unfold opsInverseDynamics
    simp only [opsJx, opsFits, hl1, opsAdd, Out.bind, htr, hr, opsNull, Out.map, Bool.false_eq_true,
      if_false, if_true]
    exact ⟨_, rfl⟩
  obtain ⟨r, hr⟩ := hr
  set a := (flyer0.fd ext0 r.1 (fun _ => none) ⟨false, true, false, 0.01⟩).1 with hadef
  set u : ℝ → ℕ → ℝ := fun s i => flyer0.pos i + s * flyer0.vel i + s * s / 2 * a i with hudef
  set w : ℝ → ℕ → ℝ := fun s i => flyer0.vel i + s * a i with hwdef
  have hu0 : u 0 = flyer0.pos := by funext i; simp [hudef]
  have hw0 : w 0 = flyer0.vel := by funext i; simp [hwdef]
  have hu : ∀ i s, HasDerivAt (fun s => u s i) (w s i) s := by
    intro i s
    have h1 := ((hasDerivAt_id s).mul_const (flyer0.vel i)).const_add (flyer0.pos i)
    have h2 := (((hasDerivAt_id s).mul (hasDerivAt_id s)).div_const 2).mul_const (a i)
    refine (h1.add h2).congr_deriv ?_
    simp only [hwdef, id]
    ring
  have hw : ∀ i s, HasDerivAt (fun s => w s i) (a i) s := by
    intro i s
    refine (((hasDerivAt_id s).mul_const (a i)).const_add (flyer0.vel i)).congr_deriv ?_
    ring
  have hJq : ∀ s, flyer0.jacobianQ (u s) 5 0 = .ok _ := fun s => jacobianQ_val hi.tree hl (u s) 0
  refine ⟨d, J, K, r, u, w, _, _, hc, hJ, hK, hr, hu0, hw0, fun i _ => hu i, fun i _ => hw i, hJq,
    C68_acceleration_partial (A := 0) (eps := 0.01) hc hm ha hn hl (x := 0) (J := J.1)
      (b1 := J.2) hJ hK hX
      (fun e _ => hE e) (N := none) (by intro M e; cases e) (o := ⟨false, true, false, 0, 0.01, 0⟩)
      trivial trivial (by norm_num) rfl rfl (le_refl _) hr hu0 hw0 (fun i _ => hu i 0)
      (fun i _ => hw i 0) hJq, ?_⟩
  rw [show ∀ X Y Z : Motion, (X + Y + Z).ang = X.ang + Y.ang + Z.ang from fun _ _ _ => rfl,
    show ∀ (m : Motion) p, (m.atPoint p).ang = m.ang from fun _ _ => rfl, flyer_bias]
  ext <;> simp

end SpatialDyn
