import Verif.Lemmas.Hess
import Verif.Lemmas.Mechanics
import Verif.Props.Cache

/-!
# C17 – C21: forward kinematics, Jacobians and the Hessian

`LinkPose b u k X` says that at joint positions `u` link `k` has pose `X` in the base frame,
`LinkIdx b i k` that the index `i` names link `k`; both are in `Verif.Spec.Pose`.
-/

namespace SpatialDyn
open Body Finset

variable {E : Ext} {b : Body} {d : Bool}

/-! ## C17 -/

/-- C17: `T_to_world(i)` is the base pose times the product of the link poses. -/
theorem C17_T_to_world (h : Reach E b d) {i : ℤ} {k : ℕ} (hk : b.LinkIdx i k) {X : Iso}
    (hX : b.LinkPose b.pos k X) : (b.tToWorld i).map Prod.fst = .ok (b.T0 * X) := by
  unfold Body.tToWorld
  rw [hk.index]
  show Out.ok _ = _
  rw [h.inv.viewTw k hk.1, hX.freshTw h.inv.tree hk.1]

/-- C17: `Position(link, offset)`. -/
theorem C17_position (h : Reach E b d) {i : ℤ} {k : ℕ} (hk : b.LinkIdx i k) {X : Iso}
    (hX : b.LinkPose b.pos k X) (x : Vec3) :
    (b.position i x).map Prod.fst = .ok ((b.T0 * X).app x) := by
  unfold Body.position
  rw [hk.index]
  show Out.ok _ = _
  rw [h.inv.viewTw k hk.1, hX.freshTw h.inv.tree hk.1]

/-- C17: `Orientation(link)`. -/
theorem C17_orientation (h : Reach E b d) {i : ℤ} {k : ℕ} (hk : b.LinkIdx i k) {X : Iso}
    (hX : b.LinkPose b.pos k X) : (b.orientation i).map Prod.fst = .ok (b.T0 * X).R := by
  unfold Body.orientation
  rw [hk.index]
  show Out.ok _ = _
  rw [h.inv.viewTw k hk.1, hX.freshTw h.inv.tree hk.1]

/-- C17: `CartesianPose(link, offset)` has the orientation of the link and the position of the
point. -/
theorem C17_cartesian_pose (h : Reach E b d) {i : ℤ} {k : ℕ} (hk : b.LinkIdx i k) {X : Iso}
    (hX : b.LinkPose b.pos k X) (x : Vec3) :
    (b.cartesianPose i x).map Prod.fst = .ok ⟨(b.T0 * X).R, (b.T0 * X).app x⟩ := by
  unfold Body.cartesianPose
  rw [hk.index]
  show Out.ok _ = _
  rw [h.inv.viewTw k hk.1, hX.freshTw h.inv.tree hk.1]
  congr 1
  ext1
  · exact Mat3.mul_one' _
  · rfl

theorem Body.climbStart_ok {b : Body} {i : ℤ} {k : ℕ} (h : b.index i = .ok k) :
    b.climbStart i = .ok (some k) := by
  unfold Body.climbStart
  rw [if_neg, h]
  · rfl
  · intro hr
    unfold Body.index at h
    simp only [hr] at h
    rw [if_neg (by omega)] at h
    cases h

/-- C17: `Position(q, link, offset)`. -/
theorem C17_position_q (h : Reach E b d) {i : ℤ} {k : ℕ} (hk : b.LinkIdx i k) {u : ℕ → ℝ} {X : Iso}
    (hX : b.LinkPose u k X) (x : Vec3) : b.positionQ u i x = .ok ((b.T0 * X).app x) := by
  unfold Body.positionQ
  rw [Body.climbStart_ok hk.index]
  show Out.ok _ = _
  rw [hX.climb h.inv.tree (fun T p => T.app p) (fun A B x => (Iso.mul_app A B x).symm) hk.1 _ hk.1,
    Iso.mul_app]

/-- C17: `Orientation(q, link)`. -/
theorem C17_orientation_q (h : Reach E b d) {i : ℤ} {k : ℕ} (hk : b.LinkIdx i k) {u : ℕ → ℝ}
    {X : Iso} (hX : b.LinkPose u k X) : b.orientationQ u i = .ok (b.T0 * X).R := by
  unfold Body.orientationQ
  rw [Body.climbStart_ok hk.index]
  show Out.ok _ = _
  rw [hX.climb h.inv.tree (fun T R => T.R * R) (fun A B x => (Mat3.mul_assoc' _ _ _).symm) hk.1 _
    hk.1, Mat3.mul_one']
  rfl

theorem Body.LinkPose.congr {b b' : Body} (e : b'.rbs = b.rbs) {u v : ℕ → ℝ} (huv : u = v) {k : ℕ}
    {X : Iso} (h : b.LinkPose u k X) : b'.LinkPose v k X := by
  subst huv
  have hr : ∀ i, b'.rb i = b.rb i := fun i => by unfold Body.rb; rw [e]
  induction h with
  | root hp => rw [← hr]; exact .root (by rw [hr]; exact hp)
  | link hp _ ih => rw [← hr]; exact .link (by rw [hr]; exact hp) ih

/-- C17 (all variants except `T_to_world(i, q)` and `CartesianPose(q, …)`, see `C17_violated`): the
functions that take `q` return, on a body in any state, what the stateful ones return after
`set_q(q)`. -/
theorem C17_variants_agree_partial (h : Reach E b d) {q : List ℝ} {b' : Body}
    (hq : b.setQ q = .ok b') {i : ℤ} {k : ℕ} (hk : b.LinkIdx i k) (x : Vec3) :
    b.positionQ (fun j => q.getD j 0) i x = (b'.position i x).map Prod.fst ∧
    b.orientationQ (fun j => q.getD j 0) i = (b'.orientation i).map Prod.fst ∧
    b.jacobianQ (fun j => q.getD j 0) i x = (b'.jacobian i x).map Prod.fst := by
  have h' : Reach E b' _ := h.step (b' := b') (.setQ q) trivial (by simp [Op.exec, Op.step, hq])
  have hs := setQ_stateOnly h.inv.tree.lq hq
  have hpos : b'.pos = fun j => q.getD j 0 := by
    have : b'.q = q := by
      unfold Body.setQ at hq
      split at hq
      · cases hq
      · split at hq
        · next e => cases hq; exact e
        · cases hq; rfl
    unfold Body.pos; rw [this]
  have hd : b'.dof = b.dof := by unfold Body.dof; rw [hs.rbs]
  have hk' : b'.LinkIdx i k := by unfold Body.LinkIdx; rw [hd]; exact hk
  obtain ⟨X, hX⟩ := linkPose_exists h.inv.tree (fun j => q.getD j 0) k hk.1
  have hX' : b'.LinkPose b'.pos k X := hX.congr hs.rbs hpos.symm
  refine ⟨?_, ?_, ?_⟩
  · rw [C17_position_q h hk hX, C17_position h' hk' hX', hs.T0]
  · rw [C17_orientation_q h hk hX, C17_orientation h' hk' hX', hs.T0]
  · obtain ⟨r, hr⟩ := jacobian_total b' hk' x
    obtain ⟨-, k', hi', hJ⟩ := jacobian_run h'.inv hr
    rw [hk'.index] at hi'
    cases hi'
    rw [jacobianQ_val h.inv.tree hk, hr]
    show _ = Out.ok r.1
    have e1 : b'.freshTw = b.twAt (fun j => q.getD j 0) := by
      show worldLoop b'.dof b'.par b'.T0 (fun j => b'.TpAt j (b'.pos j)) _ = _
      unfold Body.twAt Body.par Body.TpAt Body.rb
      rw [hd, hs.rbs, hs.T0, hpos]
    have e2 : ∀ Tw l p, b'.jacLoop Tw l p = b.jacLoop Tw l p := by
      intro Tw l p; unfold jacLoop Body.rb; rw [hs.rbs]
    rw [hJ, e1, e2, hs.anc]

/-- Negation of C17 for `T_to_world(i, q)` (and `CartesianPose(q, …)`, which returns it times the
offset): the result is the right pose times whatever the uninitialised local transform held, so it
is right for no content but the identity. -/
theorem C17_violated (h : Reach E b d) {i : ℤ} {k : ℕ} (hk : b.LinkIdx i k) {u : ℕ → ℝ} {X : Iso}
    (hX : b.LinkPose u k X) (junk : Iso) :
    b.tToWorldQ junk u i = .ok (b.T0 * X * junk) ∧
    (b.tToWorldQ junk u i = .ok (b.T0 * X) ↔ junk = 1) := by
  have e : b.tToWorldQ junk u i = .ok (b.T0 * X * junk) := by
    unfold Body.tToWorldQ
    rw [hk.index]
    show Out.ok _ = _
    rw [hX.climb h.inv.tree (fun T Y => T * Y) (fun A B x => (mul_assoc A B x).symm) hk.1 _ hk.1,
      mul_assoc]
  refine ⟨e, ?_⟩
  rw [e]
  constructor
  · intro h1
    have h2 := Out.ok.inj h1
    have hv : (b.T0 * X).Valid := by
      rw [← hX.twAt h.inv.tree hk.1]
      exact twAt_valid h.inv.tree h.inv.rigid u k hk.1
    have h3 := congrArg (fun Y => (b.T0 * X).inv * Y) h2
    change (b.T0 * X).inv * (b.T0 * X * junk) = (b.T0 * X).inv * (b.T0 * X) at h3
    rw [← mul_assoc, hv.inv_mul, one_mul] at h3
    exact h3
  · rintro rfl; rw [mul_one]

/-! ## C18, C20 -/

/-- C18 along arbitrary motions: if the joints move through the current configuration with rates
`w`, the point moves with velocity `Σ wⱼ Jⱼ` (linear rows) and the link turns with angular velocity
`Σ wⱼ Jⱼ` (angular rows). -/
theorem C18_velocity (h : Reach E b d) (ha : b.AxesOK) {i : ℤ} {k : ℕ} (hk : b.LinkIdx i k)
    {x : Vec3} {J : ℕ → Motion} {b1 : Body} (hJ : b.jacobian i x = .ok (J, b1))
    {u : ℝ → ℕ → ℝ} {w : ℕ → ℝ} {s : ℝ} (hu0 : u s = b.pos)
    (hu : ∀ j < b.dof, HasDerivAt (fun s => u s j) (w j) s)
    {P : ℝ → Vec3} (hP : ∀ s, b.positionQ (u s) i x = .ok (P s))
    {R : ℝ → Mat3} (hR : ∀ s, b.orientationQ (u s) i = .ok (R s)) :
    HasDerivVec P (∑ j ∈ range b.dof, w j • J j).lin s ∧
    HasDerivMat R (skew (∑ j ∈ range b.dof, w j • J j).ang * R s) s := by
  have ht := h.inv.tree
  have hPs : P = fun s => (b.twAt (u s) k).app x := by
    funext s
    obtain ⟨X, hX⟩ := linkPose_exists ht (u s) k hk.1
    have := C17_position_q h hk hX x
    rw [hP s] at this
    rw [hX.twAt ht hk.1]
    exact Out.ok.inj this
  have hRs : R = fun s => (b.twAt (u s) k).R := by
    funext s
    obtain ⟨X, hX⟩ := linkPose_exists ht (u s) k hk.1
    have := C17_orientation_q h hk hX
    rw [hR s] at this
    rw [hX.twAt ht hk.1]
    exact Out.ok.inj this
  have htw := twAt_twist ht h.inv.rigid ha hu b.vel k hk.1
  have hV : ∑ j ∈ range b.dof, w j • J j =
      ((b.sysAt (u s) b.vel).V w k).atPoint ((b.twAt (u s) k).app x) := by
    have e1 : ∀ j, J j = (b.fresh.Jw k j).atPoint ((b.freshTw k).app x) := fun j =>
      jacobian_val h.inv hk hJ j
    have e2 : b.twAt (u s) k = b.freshTw k := by rw [hu0]; rfl
    have e3 : b.sysAt (u s) b.vel = b.fresh := by rw [hu0]; rfl
    rw [e2, e3]
    simp only [e1]
    exact (Motion.atPoint_sum _ _ _ _).symm
  rw [hV, hPs, hRs]
  exact ⟨htw.app x, htw.rot⟩

/-- C18: column `j` of the Jacobian is the partial derivative of `Position` with respect to `q_j`
and the angular velocity of the link frame per unit rate of joint `j`. -/
theorem C18_columns (h : Reach E b d) (ha : b.AxesOK) {i : ℤ} {k : ℕ} (hk : b.LinkIdx i k)
    {x : Vec3} {J : ℕ → Motion} {b1 : Body} (hJ : b.jacobian i x = .ok (J, b1)) {j : ℕ}
    (hj : j < b.dof)
    {P : ℝ → Vec3} (hP : ∀ s, b.positionQ (Function.update b.pos j s) i x = .ok (P s))
    {R : ℝ → Mat3} (hR : ∀ s, b.orientationQ (Function.update b.pos j s) i = .ok (R s)) :
    HasDerivVec P (J j).lin (b.pos j) ∧
    HasDerivMat R (skew (J j).ang * R (b.pos j)) (b.pos j) := by
  have := C18_velocity h ha hk hJ (u := fun s => Function.update b.pos j s)
    (w := fun i => if i = j then 1 else 0) (s := b.pos j) (Function.update_eq_self j b.pos)
    (fun i _ => by
      by_cases hij : i = j
      · subst hij
        simpa using hasDerivAt_id' (b.pos i)
      · simpa [Function.update_of_ne hij, hij] using hasDerivAt_const (b.pos j) (b.pos i)) hP hR
  have e : ∑ i ∈ range b.dof, (if i = j then (1 : ℝ) else 0) • J i = J j := by
    rw [Finset.sum_eq_single j]
    · rw [if_pos rfl]; ext <;> simp
    · intro i _ hij; rw [if_neg hij]; ext <;> simp
    · intro hn; exact absurd (mem_range.2 hj) hn
  rw [e] at this
  exact this

/-- C20: the Jacobian times `dq` is the propagated velocity of the link, in world axes and at the
point. -/
theorem C20_jacobian_velocity (h : Reach E b d) {i : ℤ} {k : ℕ} (hk : b.LinkIdx i k) {x : Vec3}
    {J : ℕ → Motion} {b1 : Body} (hJ : b.jacobian i x = .ok (J, b1)) {v : Motion}
    (hv : b.LinkVel b.vel k v) {T : Iso} (hT : (b.tToWorld i).map Prod.fst = .ok T) :
    ∑ j ∈ range b.dof, b.vel j • J j = (T.actM v).atPoint (T.app x) := by
  have hTw : T = b.freshTw k := by
    unfold Body.tToWorld at hT
    rw [hk.index] at hT
    have := Out.ok.inj hT
    rw [← this, ← h.inv.viewTw k hk.1]
  rw [hTw, hv.world h.inv hk.1]
  have e1 : ∀ j, J j = (b.fresh.Jw k j).atPoint ((b.freshTw k).app x) := fun j =>
    jacobian_val h.inv hk hJ j
  simp only [e1]
  exact (Motion.atPoint_sum _ _ _ _).symm

/-! ## C19 -/

/-- C19: a joint that is not on the path from the base to the link has a zero column. -/
theorem C19_support (h : Reach E b d) {i : ℤ} {k : ℕ} (hk : b.LinkIdx i k) {x : Vec3}
    {J : ℕ → Motion} {b1 : Body} (hJ : b.jacobian i x = .ok (J, b1)) {j : ℕ}
    {l : List ℕ} (hl : RootPath (fun k => (b.rb k).idParent) k l) (hj : j ∉ l) : J j = 0 := by
  have e1 := jacobian_val h.inv hk hJ j
  simp only at e1
  rw [e1]
  unfold Sys.Jw
  rw [if_neg (show ¬ Anc b.fresh.par j k from fun hn => hj ((hl.mem j).2 hn))]
  ext <;> simp [Motion.atPoint, Vec3.cross]

/-- C19: between two points of one link the angular rows agree and the linear rows differ by the
rigid shift. -/
theorem C19_offset (h : Reach E b d) {i : ℤ} {k : ℕ} (hk : b.LinkIdx i k) {x y : Vec3}
    {J K : ℕ → Motion} {b1 b2 b3 b4 : Body} (hJ : b.jacobian i x = .ok (J, b1))
    (hK : b.jacobian i y = .ok (K, b2)) {p q : Vec3} (hp : b.position i x = .ok (p, b3))
    (hq : b.position i y = .ok (q, b4)) (j : ℕ) :
    (K j).ang = (J j).ang ∧ (K j).lin = (J j).lin + (J j).ang.cross (q - p) := by
  have hv : ∀ x : Vec3, ∀ {p b3}, b.position i x = .ok (p, b3) → p = (b.freshTw k).app x := by
    intro x p b3 hp
    unfold Body.position at hp
    rw [hk.index] at hp
    have := (Prod.mk.inj (Out.ok.inj hp)).1
    rw [← this, h.inv.viewTw k hk.1]
  rw [hv x hp, hv y hq]
  have e1 := jacobian_val h.inv hk hJ j
  have e2 := jacobian_val h.inv hk hK j
  simp only at e1 e2
  rw [e1, e2]
  refine ⟨rfl, ?_⟩
  unfold Motion.atPoint
  simp only [Vec3.cross_sub]
  abel

/-! ## C21 -/

theorem hessian_val (h : Reach E b d) {i : ℤ} {k : ℕ} (hk : b.LinkIdx i k) {x : Vec3}
    {H : ℕ → ℕ → Motion} {b1 : Body} (hH : b.hessian i x = .ok (H, b1)) (j l : ℕ) :
    (j ∈ b.anc.getD k [] → l ∈ b.anc.getD k [] →
      H j l = b.hessEntry b.freshTw
        (b.jacLoop b.freshTw (b.anc.getD k []) ((b.freshTw k).app x)) (min j l) (max j l)) ∧
    (l ∉ b.anc.getD k [] ∨ j ∉ b.anc.getD k [] → H j l = 0) := by
  obtain ⟨-, k', hk', e⟩ := hessian_run h.inv hH
  rw [hk.index] at hk'
  cases hk'
  simp only at e
  rw [e]
  exact ⟨fun hj hl => hessLoop_apply _ _ _ (h.inv.tree.anc_sorted k hk.1) _ (fun _ _ => .inl rfl) j l
    hj hl, fun hn => hessLoop_other _ _ _ _ _ _ hn.symm⟩

theorem hessEntry_val (h : Reach E b d) (ha : b.AxesOK) {k : ℕ} (hk : k < b.dof) {p : Vec3}
    {j l : ℕ} (hj : j ∈ b.anc.getD k []) (hl : l ∈ b.anc.getD k []) :
    b.hessEntry b.freshTw (b.jacLoop b.freshTw (b.anc.getD k []) p) j l =
      ⟨(b.fresh.axis j).ang.cross ((b.fresh.axis l).atPoint p).lin,
        (b.fresh.axis j).ang.cross ((b.fresh.axis l).atPoint p).ang⟩ := by
  have hj' := h.inv.tree.anc_lt hk hj
  have hl' := h.inv.tree.anc_lt hk hl
  have e : ∀ m < b.dof, b.fresh.axis m = (b.freshTw m).actM (b.rb m).joint.subspace := by
    intro m hm
    unfold Sys.axis
    rw [fresh_Tw hm]; rfl
  unfold hessEntry
  rw [jacLoop_apply, if_pos hl, e j hj', e l hl']
  by_cases hp : (b.rb j).joint.type.isPrismatic = true
  · rw [if_pos hp]
    have : (b.rb j).joint.subspace.ang = 0 := by
      rw [ha j hj']
      revert hp
      cases (b.rb j).joint.type <;> simp [JType.isPrismatic, JType.subspace]
    have h0 : ((b.freshTw j).actM (b.rb j).joint.subspace).ang = 0 := by
      unfold Iso.actM
      simp only [this, Mat3.mulVec_zero]
    rw [h0]
    ext <;> simp
  · rw [if_neg hp]; rfl

/-- C21, linear rows: entry `(j, l)` of the Hessian is the derivative with respect to `q_j` of the
linear part of column `l` of the Jacobian. -/
theorem C21_linear (h : Reach E b d) (ha : b.AxesOK) {i : ℤ} {k : ℕ} (hk : b.LinkIdx i k) {x : Vec3}
    {H : ℕ → ℕ → Motion} {b1 : Body} (hH : b.hessian i x = .ok (H, b1)) {j l : ℕ} (hj : j < b.dof)
    (hl : l < b.dof) {Jq : ℝ → ℕ → Motion}
    (hJq : ∀ s, b.jacobianQ (Function.update b.pos j s) i x = .ok (Jq s)) :
    HasDerivVec (fun s => (Jq s l).lin) (H j l).lin (b.pos j) := by
  obtain ⟨h1, h2⟩ := hessian_val h hk hH j l
  obtain ⟨g1, g2⟩ := jacCol_partial h.inv.tree h.inv.rigid ha hk hj hl hJq
  by_cases hm : l ∈ b.anc.getD k [] ∧ j ∈ b.anc.getD k []
  · rw [h1 hm.2 hm.1]
    rw [hessEntry_val h ha hk.1 (by rcases min_choice j l with e | e <;> rw [e] <;> tauto)
      (by rcases max_choice j l with e | e <;> rw [e] <;> tauto)]
    exact (g1 hm.1 hm.2).1
  · have hn : l ∉ b.anc.getD k [] ∨ j ∉ b.anc.getD k [] := by tauto
    rw [h2 hn]
    exact (g2 hn).lin

/-- C21: the Hessian is symmetric in the two joints. -/
theorem C21_symmetric (h : Reach E b d) {i : ℤ} {k : ℕ} (hk : b.LinkIdx i k) {x : Vec3}
    {H : ℕ → ℕ → Motion} {b1 : Body} (hH : b.hessian i x = .ok (H, b1)) (j l : ℕ) :
    H j l = H l j := by
  obtain ⟨h1, h2⟩ := hessian_val h hk hH j l
  obtain ⟨h3, h4⟩ := hessian_val h hk hH l j
  by_cases hm : l ∈ b.anc.getD k [] ∧ j ∈ b.anc.getD k []
  · rw [h1 hm.2 hm.1, h3 hm.1 hm.2, min_comm, max_comm]
  · rw [h2 (by tauto), h4 (by tauto)]

/-- C21, angular rows, for `j ≤ l` only (see `C21_angular_violated` for the other entries): entry
`(j, l)` is the derivative with respect to `q_j` of the angular part of column `l`. -/
theorem C21_angular_partial (h : Reach E b d) (ha : b.AxesOK) {i : ℤ} {k : ℕ} (hk : b.LinkIdx i k)
    {x : Vec3} {H : ℕ → ℕ → Motion} {b1 : Body} (hH : b.hessian i x = .ok (H, b1)) {j l : ℕ}
    (hjl : j ≤ l) (hl : l < b.dof) {Jq : ℝ → ℕ → Motion}
    (hJq : ∀ s, b.jacobianQ (Function.update b.pos j s) i x = .ok (Jq s)) :
    HasDerivVec (fun s => (Jq s l).ang) (H j l).ang (b.pos j) := by
  obtain ⟨h1, h2⟩ := hessian_val h hk hH j l
  obtain ⟨g1, g2⟩ := jacCol_partial h.inv.tree h.inv.rigid ha hk (hjl.trans_lt hl) hl hJq
  by_cases hm : l ∈ b.anc.getD k [] ∧ j ∈ b.anc.getD k []
  · rw [h1 hm.2 hm.1, min_eq_left hjl, max_eq_right hjl, hessEntry_val h ha hk.1 hm.2 hm.1]
    have := (g1 hm.1 hm.2).2
    rw [if_pos hjl] at this
    exact this
  · have hn : l ∉ b.anc.getD k [] ∨ j ∉ b.anc.getD k [] := by tauto
    rw [h2 hn]
    exact (g2 hn).ang

theorem HasDerivVec.unique {f : ℝ → Vec3} {f' g' : Vec3} {s : ℝ} (h1 : HasDerivVec f f' s)
    (h2 : HasDerivVec f g' s) : f' = g' :=
  Vec3.ext (h1.x.unique h2.x) (h1.y.unique h2.y) (h1.z.unique h2.z)

/-- Negation of C21 for the angular rows below the diagonal: there the derivative is zero, while
the Hessian holds the cross product of the two joint axes; it is right only when they are
parallel. -/
theorem C21_angular_violated (h : Reach E b d) (ha : b.AxesOK) {i : ℤ} {k : ℕ}
    (hk : b.LinkIdx i k) {x : Vec3} {H : ℕ → ℕ → Motion} {b1 b2 : Body}
    (hH : b.hessian i x = .ok (H, b1)) {J : ℕ → Motion} (hJ : b.jacobian i x = .ok (J, b2)) {j l : ℕ}
    (hlj : l < j) (hj : j < b.dof) {Jq : ℝ → ℕ → Motion}
    (hJq : ∀ s, b.jacobianQ (Function.update b.pos j s) i x = .ok (Jq s)) :
    HasDerivVec (fun s => (Jq s l).ang) 0 (b.pos j) ∧ (H j l).ang = (J l).ang.cross (J j).ang ∧
    (HasDerivVec (fun s => (Jq s l).ang) (H j l).ang (b.pos j) ↔
      (J l).ang.cross (J j).ang = 0) := by
  obtain ⟨h1, h2⟩ := hessian_val h hk hH j l
  obtain ⟨g1, g2⟩ := jacCol_partial h.inv.tree h.inv.rigid ha hk hj (hlj.trans hj) hJq
  have hJv : ∀ m, J m = (b.fresh.Jw k m).atPoint ((b.freshTw k).app x) := fun m =>
    jacobian_val h.inv hk hJ m
  have hm' : ∀ a, a ∈ b.anc.getD k [] ↔ Anc b.fresh.par a k := h.inv.tree.anc_mem k hk.1
  have key : HasDerivVec (fun s => (Jq s l).ang) 0 (b.pos j) ∧
      (H j l).ang = (J l).ang.cross (J j).ang := by
    by_cases hm : l ∈ b.anc.getD k [] ∧ j ∈ b.anc.getD k []
    · have := (g1 hm.1 hm.2).2
      rw [if_neg (by omega)] at this
      refine ⟨this, ?_⟩
      rw [h1 hm.2 hm.1, min_eq_right hlj.le, max_eq_left hlj.le, hessEntry_val h ha hk.1 hm.1 hm.2,
        hJv, hJv, show b.fresh.Jw k l = b.fresh.axis l from if_pos ((hm' l).1 hm.1),
        show b.fresh.Jw k j = b.fresh.axis j from if_pos ((hm' j).1 hm.2)]
      rfl
    · have hn : l ∉ b.anc.getD k [] ∨ j ∉ b.anc.getD k [] := by tauto
      refine ⟨(g2 hn).ang, ?_⟩
      rw [h2 hn, hJv, hJv]
      rcases hn with hn | hn
      · rw [show b.fresh.Jw k l = 0 from if_neg fun hc => hn ((hm' l).2 hc)]
        ext <;> simp [Motion.atPoint]
      · rw [show b.fresh.Jw k j = 0 from if_neg fun hc => hn ((hm' j).2 hc)]
        ext <;> simp [Motion.atPoint]
  refine ⟨key.1, key.2, fun h3 => ?_, fun h3 => ?_⟩
  · rw [← key.2]; exact h3.unique key.1
  · rw [key.2, h3]; exact key.1

/-! ## Witnesses -/

theorem demo_axesOK : demo.AxesOK := by
  intro i hi
  rcases demo_lt hi with rfl | rfl | rfl <;> rfl

theorem demo_link (i : ℤ) (hi : -3 ≤ i ∧ i < 3) : ∃ k, demo.LinkIdx i k := by
  by_cases h : 0 ≤ i
  · refine ⟨i.toNat, ?_, ?_⟩
    · show _ < 3; omega
    · left; omega
  · refine ⟨(i + 3).toNat, ?_, ?_⟩
    · show _ < 3; omega
    · right; show ((i + 3).toNat : ℤ) = i + ((3 : ℕ) : ℤ) ∧ _; omega

/-- The hypotheses of C17 – C21 hold for the demo body at every link index and offset. -/
example (E : Ext) (i : ℤ) (hi : -3 ≤ i ∧ i < 3) (x : Vec3) :
    ∃ d k X v J b1 H b2, Reach E demo d ∧ demo.AxesOK ∧ demo.LinkIdx i k ∧
      demo.LinkPose demo.pos k X ∧ demo.LinkVel demo.vel k v ∧ demo.jacobian i x = .ok (J, b1) ∧
      demo.hessian i x = .ok (H, b2) := by
  obtain ⟨d, h⟩ := demo_reach E
  obtain ⟨k, hk⟩ := demo_link i hi
  obtain ⟨X, hX⟩ := linkPose_exists h.inv.tree demo.pos k hk.1
  obtain ⟨r, hr⟩ := jacobian_total demo hk x
  have hk2 : demo.LinkIdx (k : ℤ) k := ⟨hk.1, Or.inl rfl⟩
  obtain ⟨r2, hr2⟩ := jacobian_total demo hk2 x
  have hv := linkVel_exists h.inv.tree demo.vel k hk.1
  obtain ⟨v, hv⟩ := hv
  have hH : ∃ s, demo.hessian i x = .ok s := by
    unfold Body.hessian
    rw [hk.index]
    simp only [Out.bind]
    rw [hr2]
    exact ⟨_, rfl⟩
  obtain ⟨s, hs⟩ := hH
  exact ⟨d, k, X, v, r.1, r.2, s.1, s.2, h, demo_axesOK, hk, hX, hv, hr, hs⟩

/-- The Hessian of the demo body has a wrong angular entry: the axes of joints 0 and 2 are not
parallel. -/
theorem C21_violated (E : Ext) (x : Vec3) {H : ℕ → ℕ → Motion} {b1 b2 : Body} {J : ℕ → Motion}
    (hH : demo.hessian 2 x = .ok (H, b1)) (hJ : demo.jacobian 2 x = .ok (J, b2))
    {Jq : ℝ → ℕ → Motion}
    (hJq : ∀ s, demo.jacobianQ (Function.update demo.pos 2 s) 2 x = .ok (Jq s)) :
    ¬ HasDerivVec (fun s => (Jq s 0).ang) (H 2 0).ang (demo.pos 2) := by
  obtain ⟨d, h⟩ := demo_reach E
  have hk : demo.LinkIdx 2 2 := ⟨by show 2 < 3; norm_num, Or.inl rfl⟩
  rw [(C21_angular_violated h demo_axesOK hk hH hJ (j := 2) (l := 0) (by norm_num)
    (by show 2 < 3; norm_num) hJq).2.2]
  have hJv : ∀ m, J m = (demo.fresh.Jw 2 m).atPoint ((demo.freshTw 2).app x) := fun m =>
    jacobian_val h.inv hk hJ m
  have a2 : Anc demo.fresh.par 2 2 := .refl
  have a0 : Anc demo.fresh.par 0 2 := .step (show demo.fresh.par 2 = some 0 from rfl) .refl
  rw [hJv, hJv, show demo.fresh.Jw 2 2 = demo.fresh.axis 2 from if_pos a2,
    show demo.fresh.Jw 2 0 = demo.fresh.axis 0 from if_pos a0]
  have e0 : demo.freshTw 0 = quarterTurn * JType.rz.Tjoint 1 := by
    have := twAt_rec h.inv.tree demo.pos (i := 0) (by show 0 < 3; norm_num)
    rw [show demo.par 0 = none from rfl] at this
    refine this.trans ?_
    show (1 : Iso) * _ = _
    rw [one_mul]; rfl
  have e2 : demo.freshTw 2 = quarterTurn * JType.rz.Tjoint 1 * (quarterTurn * JType.rx.Tjoint 3) := by
    have := twAt_rec h.inv.tree demo.pos (i := 2) (by show 2 < 3; norm_num)
    rw [show demo.par 2 = some 0 from rfl] at this
    refine this.trans ?_
    show demo.freshTw 0 * _ = _
    rw [e0]; rfl
  have x0 : (demo.fresh.axis 0).ang = ⟨0, 0, 1⟩ := by
    unfold Sys.axis
    rw [fresh_Tw (by show 0 < 3; norm_num), e0]
    show (quarterTurn * JType.rz.Tjoint 1).R.mulVec ⟨0, 0, 1⟩ = _
    simp only [Iso.mul_R, ← Mat3.mulVec_mulVec]
    ext <;> simp [quarterTurn, JType.Tjoint, Mat3.mulVec]
  have x2 : (demo.fresh.axis 2).ang = ⟨-Real.cos 1, -Real.sin 1, 0⟩ := by
    unfold Sys.axis
    rw [fresh_Tw (by show 2 < 3; norm_num), e2]
    show (quarterTurn * JType.rz.Tjoint 1 * (quarterTurn * JType.rx.Tjoint 3)).R.mulVec ⟨1, 0, 0⟩ = _
    simp only [Iso.mul_R, ← Mat3.mulVec_mulVec]
    ext <;> simp [quarterTurn, JType.Tjoint, Mat3.mulVec]
  intro h0
  simp only [Motion.atPoint, x0, x2] at h0
  have h1 := congrArg Vec3.x h0
  have h2 := congrArg Vec3.y h0
  simp [Vec3.cross] at h1 h2
  have := Real.sin_sq_add_cos_sq 1
  rw [h1, h2] at this
  norm_num at this

end SpatialDyn
