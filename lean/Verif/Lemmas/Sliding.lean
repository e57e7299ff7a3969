import Verif.Spec.Sliding
import Verif.Lemmas.TaskCode

/-!
# Robots whose joints all slide

Nothing turns: the poses of the links differ by translations, the inertia matrix, the Jacobians and
the weight are the same in all states, and there are no velocity products.
-/

namespace SpatialDyn
open Finset Matrix

variable {E : Ext} {b : Body} {d : Bool}

theorem JType.slide {t : JType} (h : t.isPrismatic = true) (q : ℝ) :
    t.Tjoint q = ⟨1, q • t.subspace.lin⟩ ∧ t.subspace.ang = 0 := by
  cases t <;> simp [JType.isPrismatic] at h <;> exact ⟨rfl, rfl⟩

/-- Pure translation velocities. -/
theorem Iso.actM_lin (T : Iso) (v : Vec3) : T.actM ⟨v, 0⟩ = ⟨T.R.mulVec v, 0⟩ := by
  ext <;> simp [Iso.actM, Mat3.mulVec, Vec3.cross]

theorem Motion.crossM_slide {a c : Motion} (ha : a.ang = 0) (hc : c.ang = 0) : a.crossM c = 0 := by
  ext <;> simp [Motion.crossM, ha, hc]

theorem Motion.dot_crossF_lin {a c : Motion} (ha : a.ang = 0) (hc : c.ang = 0) (f : Force) :
    a.dot (c.crossF f) = 0 := by
  rw [Motion.dot_eq]
  simp [Motion.crossF, ha, hc, Vec3.dot]

/-- Momentum of a translating body along a translation. -/
theorem Inertia.slide {T : Iso} (hT : T.Valid) (I : Inertia) {a c : Motion} (ha : a.ang = 0)
    (hc : c.ang = 0) : a.dot (T.actF (I.app (T.inv.actM c))) = I.mass * a.lin.dot c.lin := by
  have e : T.inv.actM c = ⟨T.R.T.mulVec c.lin, 0⟩ := by
    rw [show c = ⟨c.lin, 0⟩ by rw [← hc]]
    exact Iso.actM_lin _ _
  have e2 : (T.actF (I.app ⟨T.R.T.mulVec c.lin, 0⟩)).lin = I.mass • c.lin := by
    show T.R.mulVec (I.mass • T.R.T.mulVec c.lin + (0 : Vec3).cross _) = _
    have : (I.mass • T.R.T.mulVec c.lin + (0 : Vec3).cross (I.mass • I.com)) =
        I.mass • T.R.T.mulVec c.lin := by
      ext <;> simp [Vec3.cross]
    rw [this, Mat3.mulVec_smul, Mat3.IsRot.mulVec_T hT]
  rw [e, Motion.dot_eq, e2, ha]
  simp [Vec3.dot]
  ring

namespace Body

theorem Sliding.S (hs : b.Sliding) (ha : b.AxesOK) {i : ℕ} (hi : i < b.dof) :
    ((b.rb i).joint.subspace).ang = 0 ∧
    ∀ x, b.TpAt i x = ⟨(b.rb i).T.R, (b.rb i).T.R.mulVec (x • (b.rb i).joint.subspace.lin) + (b.rb i).T.t⟩ := by
  have h := fun x => JType.slide (hs i hi) x
  rw [ha i hi]
  refine ⟨(h 0).2, fun x => ?_⟩
  unfold TpAt
  rw [(h x).1]
  refine congrArg (fun R => (⟨R, _⟩ : Iso)) (?_ : (b.rb i).T.R * 1 = (b.rb i).T.R)
  ext <;> simp

/-- The orientations do not depend on the positions. -/
theorem Sliding.rot (hs : b.Sliding) (ha : b.AxesOK) (ht : b.Tree) (u u' : ℕ → ℝ) :
    ∀ k < b.dof, (b.twAt u k).R = (b.twAt u' k).R := by
  intro k
  induction k using Nat.strong_induction_on with
  | _ k ih =>
    intro hk
    rw [twAt_rec ht u hk, twAt_rec ht u' hk, (hs.S ha hk).2, (hs.S ha hk).2]
    cases hp : b.par k with
    | none => rfl
    | some p =>
      have := ht.parLt k hk p hp
      show (b.twAt u p).R * _ = (b.twAt u' p).R * _
      rw [ih p this (by omega)]

/-- Axes are directions, the same at all positions. -/
theorem Sliding.axis (hs : b.Sliding) (ha : b.AxesOK) (ht : b.Tree) (u w u' w' : ℕ → ℝ) {i : ℕ}
    (hi : i < b.dof) : ((b.sysAt u w).axis i).ang = 0 ∧ (b.sysAt u w).axis i = (b.sysAt u' w').axis i := by
  have h1 : ∀ u w, (b.sysAt u w).axis i = ⟨(b.twAt u i).R.mulVec (b.rb i).joint.subspace.lin, 0⟩ := by
    intro u w
    unfold Sys.axis
    rw [sysAt_Tw hi]
    have e : (b.sysAt u w).S i = ⟨(b.rb i).joint.subspace.lin, 0⟩ := by
      rw [← (hs.S ha hi).1]; rfl
    rw [e, Iso.actM_lin]
  rw [h1, h1, hs.rot ha ht u u' i hi]
  exact ⟨rfl, rfl⟩

theorem Sliding.Jw (hs : b.Sliding) (ha : b.AxesOK) (ht : b.Tree) (u w u' w' : ℕ → ℝ) {k : ℕ}
    (hk : k < b.dof) (i : ℕ) :
    ((b.sysAt u w).Jw k i).ang = 0 ∧ (b.sysAt u w).Jw k i = (b.sysAt u' w').Jw k i := by
  classical
  unfold Sys.Jw
  by_cases h : Anc b.par i k
  · have hi : i < b.dof := lt_of_le_of_lt (h.le ht.parLt hk) hk
    rw [if_pos (show Anc (b.sysAt u w).par i k from h), if_pos (show Anc (b.sysAt u' w').par i k from h)]
    exact hs.axis ha ht u w u' w' hi
  · rw [if_neg (show ¬ Anc (b.sysAt u w).par i k from h), if_neg (show ¬ Anc (b.sysAt u' w').par i k from h)]
    exact ⟨rfl, rfl⟩

theorem Sliding.V (hs : b.Sliding) (ha : b.AxesOK) (ht : b.Tree) (u w u' w' v : ℕ → ℝ) {k : ℕ}
    (hk : k < b.dof) :
    ((b.sysAt u w).V v k).ang = 0 ∧ (b.sysAt u w).V v k = (b.sysAt u' w').V v k := by
  unfold Sys.V
  constructor
  · refine sum_induction _ (fun m : Motion => m.ang = 0) (fun a c h1 h2 => ?_) rfl fun j _ => ?_
    · rw [Motion.add_ang, h1, h2, add_zero]
    · rw [Motion.smul_ang, (hs.Jw ha ht u w u w hk j).1, smul_zero]
  · exact sum_congr rfl fun j _ => by rw [(hs.Jw ha ht u w u' w' hk j).2]

/-- The inertia matrix does not depend on the state. -/
theorem Sliding.mass (hs : b.Sliding) (ha : b.AxesOK) (ht : b.Tree) (hr : b.Rigid) (u w u' w' : ℕ → ℝ) :
    (b.sysAt u w).massSpec = (b.sysAt u' w').massSpec := by
  funext i j
  unfold Sys.massSpec
  refine sum_congr rfl fun k hk => ?_
  have hk : k < b.dof := mem_range.1 hk
  have h1 := hs.Jw ha ht u w u' w' hk
  have h2 := hs.Jw ha ht u' w' u w hk
  unfold Sys.Iw
  rw [Inertia.slide ((sysAt_wf ht hr u w).Tw_valid k hk) _ (h1 i).1 (h1 j).1,
    Inertia.slide ((sysAt_wf ht hr u' w').Tw_valid k hk) _ (h2 i).1 (h2 j).1, (h1 i).2, (h1 j).2]
  rfl

/-- There are no velocity products. -/
theorem Sliding.coriolis (hs : b.Sliding) (ha : b.AxesOK) (ht : b.Tree) (u w : ℕ → ℝ) :
    (b.sysAt u w).coriolisSpec = 0 := by
  funext i
  unfold Sys.coriolisSpec Sys.genForce
  refine sum_eq_zero fun k hk => ?_
  have hk : k < b.dof := mem_range.1 hk
  have hb : (b.sysAt u w).bias k = 0 := by
    unfold Sys.bias
    refine sum_eq_zero fun j hj => ?_
    have hj : j < b.dof := mem_range.1 hj
    rw [Motion.crossM_slide (hs.V ha ht u w u w _ hj).1 (hs.Jw ha ht u w u w hk j).1, smul_zero]
  beta_reduce
  rw [hb, Sys.Iw_zero, zero_add]
  exact Motion.dot_crossF_lin (hs.Jw ha ht u w u w hk i).1 (hs.V ha ht u w u w _ hk).1 _

/-- The torques against gravity do not depend on the state. -/
theorem Sliding.weight (hs : b.Sliding) (ha : b.AxesOK) (ht : b.Tree) (hr : b.Rigid) (u w u' w' : ℕ → ℝ) :
    (b.sysAt u w).gravitySpec = (b.sysAt u' w').gravitySpec := by
  funext i
  unfold Sys.gravitySpec Sys.genForce
  refine sum_congr rfl fun k hk => ?_
  have hk : k < b.dof := mem_range.1 hk
  have h1 := hs.Jw ha ht u w u' w' hk
  have h2 := hs.Jw ha ht u' w' u w hk
  have hg : ∀ u w, (-(b.sysAt u w).g).ang = 0 := fun u w => by
    show -(0 : Vec3) = 0
    exact neg_zero
  unfold Sys.Iw
  rw [Inertia.slide ((sysAt_wf ht hr u w).Tw_valid k hk) _ (h1 i).1 (hg u w),
    Inertia.slide ((sysAt_wf ht hr u' w').Tw_valid k hk) _ (h2 i).1 (hg u' w'), (h1 i).2]
  rfl

/-- Displacement of a link. -/
theorem Sliding.move (hs : b.Sliding) (ha : b.AxesOK) (ht : b.Tree) (hr : b.Rigid) (u u' w : ℕ → ℝ) :
    ∀ k < b.dof, (b.twAt u' k).t =
      (b.twAt u k).t + ((b.sysAt u w).V (fun j => u' j - u j) k).lin := by
  intro k
  induction k using Nat.strong_induction_on with
  | _ k ih =>
    intro hk
    have hax : ((b.sysAt u w).axis k).lin = (b.twAt u k).R.mulVec (b.rb k).joint.subspace.lin := by
      unfold Sys.axis
      rw [sysAt_Tw hk]
      have e : (b.sysAt u w).S k = ⟨(b.rb k).joint.subspace.lin, 0⟩ := by
        rw [← (hs.S ha hk).1]; rfl
      rw [e, Iso.actM_lin]
    rw [Sys.V_rec (sysAt_wf ht hr u w) _ hk, Motion.add_lin, Motion.smul_lin, hax]
    rw [twAt_rec ht u' hk, twAt_rec ht u hk, (hs.S ha hk).2, (hs.S ha hk).2]
    rw [show (b.sysAt u w).par k = b.par k from rfl]
    cases hp : b.par k with
    | none =>
      ext <;> simp [Iso.mul_t, Iso.mul_R, Mat3.mulVec] <;> ring
    | some p =>
      have := ht.parLt k hk p hp
      have e := ih p this (by omega)
      have eR := hs.rot ha ht u' u p (by omega)
      simp only [Iso.mul_t, Iso.mul_R, eR, e]
      simp only [Mat3.mulVec_add, Mat3.mulVec_smul, ← Mat3.mulVec_mulVec]
      generalize (b.twAt u p).R.mulVec ((b.rb k).T.R.mulVec (b.rb k).joint.subspace.lin) = z
      ext <;> simp <;> ring

/-- External forces given in world coordinates load the joints equally in all states. -/
theorem Sliding.ext (hs : b.Sliding) (ha : b.AxesOK) (ht : b.Tree) (fext : FExt) (u w u' w' : ℕ → ℝ) :
    (b.sysAt u w).extSpec fext = (b.sysAt u' w').extSpec fext := by
  funext i
  unfold Sys.extSpec Sys.genForce
  refine congrArg Neg.neg (sum_congr rfl fun k hk => ?_)
  rw [(hs.Jw ha ht u w u' w' (mem_range.1 hk) i).2]

/-- The accelerations are the same in all states. -/
theorem Sliding.acc (hs : b.Sliding) (ha : b.AxesOK) (ht : b.Tree) (hr : b.Rigid) (g : Vec3)
    (tau : ℕ → ℝ) (fext : FExt) (cc cc' grav : Bool) (y y' : State b.dof) :
    b.accAt g tau fext cc grav y = b.accAt g tau fext cc' grav y' := by
  have hs' : (b.setG g).Sliding := hs
  have ha' : (b.setG g).AxesOK := ha
  have ht' : (b.setG g).Tree := ⟨ht.lq, ht.ldq, ht.lanc, ht.lsub, ht.ids, ht.anc_mem,
    ht.anc_sorted, ht.sub_mem, ht.sub_sorted⟩
  have hr' : (b.setG g).Rigid := ⟨hr.base, hr.link⟩
  have key : ∀ {c : Body} (hs : c.Sliding) (ha : c.AxesOK) (ht : c.Tree) (hr : c.Rigid)
      (u w u' w' : ℕ → ℝ), (c.sysAt u w).idSpec (fun _ => 0) fext cc grav =
        (c.sysAt u' w').idSpec (fun _ => 0) fext cc' grav := by
    intro c hs ha ht hr u w u' w'
    funext i
    unfold Sys.idSpec
    rw [hs.coriolis ha ht, hs.coriolis ha ht, hs.weight ha ht hr u w u' w', hs.ext ha ht fext u w u' w']
    simp
  unfold accAt
  rw [hs.mass ha ht hr (padFin y.1) (padFin y.2) (padFin y'.1) (padFin y'.2),
    key hs' ha' ht' hr' (padFin y.1) (padFin y.2) (padFin y'.1) (padFin y'.2)]

end Body

/-- Under a constant acceleration every method is exact. -/
theorem scheme_const {n : ℕ} (m : Method) (a : Fin n → ℝ) {F : State n → State n}
    (hF : ∀ y, F y = (y.2, a)) (dt : ℝ) (y : State n) :
    Body.scheme m F id dt y = (y.1 + dt • y.2 + (dt ^ 2 / 2) • a, y.2 + dt • a) := by
  cases m with
  | euler => simp only [Body.scheme, taylor, hF, id]
  | heuns =>
    simp only [Body.scheme, heun, rkStep, rkSlopes, lin, hF, id, List.cons_append, List.nil_append]
    refine Prod.ext ?_ ?_ <;> funext i <;> simp <;> ring
  | rk4 =>
    simp only [Body.scheme, rk4, rkStep, rkSlopes, lin, hF, id, List.cons_append, List.nil_append]
    refine Prod.ext ?_ ?_ <;> funext i <;> simp <;> ring

theorem scheme_const_iter {n : ℕ} (m : Method) (a : Fin n → ℝ) {F : State n → State n}
    (hF : ∀ y, F y = (y.2, a)) (dt : ℝ) (y : State n) (k : ℕ) :
    (Body.scheme m F id dt)^[k] y =
      (y.1 + (k * dt) • y.2 + ((k * dt) ^ 2 / 2) • a, y.2 + (k * dt) • a) := by
  induction k with
  | zero => simp
  | succ k ih =>
    rw [Function.iterate_succ_apply', ih, scheme_const m a hF]
    refine Prod.ext ?_ ?_ <;> funext i <;> simp <;> ring

namespace Body

/-- What a body answers about a point, in a given state. -/
theorem AtState.readsAt {y : State b.dof} {B : Body} (hA : AtState E b y B) {l : ℤ} {k : ℕ}
    (hk : b.LinkIdx l k) {off : Vec3} {J : ℕ → Motion} {x : Vec3} {R : Mat3}
    (hR : B.Reads l off J x R) :
    J = b.jacQ k off y.1 ∧ x = b.pointQ k off y.1 ∧ R = (b.twAt (padFin y.1) (b.dof - 1)).R := by
  have hn : B.dof = b.dof := hA.dof
  have hd : 0 < b.dof := lt_of_le_of_lt (Nat.zero_le _) hk.1
  have hL : B.LinkIdx (-1) (b.dof - 1) := by
    have := lastLink (b := B) (by rw [hn]; exact hd)
    rwa [hn] at this
  have hK : B.LinkIdx l k := by unfold LinkIdx; rw [hn]; exact hk
  have htw : ∀ i, B.freshTw i = b.twAt (padFin y.1) i := by
    intro i
    have hp : B.pos = padFin y.1 := by unfold Body.pos; rw [hA.q, getD_ofFn_pad]
    show B.twAt B.pos _ = _
    rw [hp]
    unfold Body.twAt Body.par Body.TpAt
    rw [hn, hA.rb, hA.only.T0]
  obtain ⟨⟨b1, j1⟩, ⟨b2, p1⟩, ⟨b3, o1⟩⟩ := hR
  obtain ⟨b4, p2⟩ := position_of_index hA.inv hK.index off
  obtain ⟨b5, o2⟩ := orientation_of_index hA.inv hL.index
  refine ⟨funext fun j => ?_, ?_, ?_⟩
  · have := jacobian_val hA.inv hK j1 j
    rw [htw, hA.fresh_eq] at this
    exact this
  · have := p1.symm.trans p2
    cases this
    rw [htw]; rfl
  · have := o1.symm.trans o2
    cases this
    rw [htw]

/-- The Jacobians are the same in all states, without rotations. -/
theorem Sliding.jac (hs : b.Sliding) (ha : b.AxesOK) (ht : b.Tree) {k : ℕ} (hk : k < b.dof)
    (x : Vec3) (q q' : Fin b.dof → ℝ) (j : ℕ) :
    (b.jacQ k x q j).ang = 0 ∧ b.jacQ k x q j = b.jacQ k x q' j := by
  have h := hs.Jw ha ht (padFin q) (fun _ => 0) (padFin q') (fun _ => 0) hk j
  have e : ∀ (m : Motion) (p : Vec3), m.ang = 0 → m.atPoint p = m := by
    intro m p hm
    ext <;> simp [Motion.atPoint, hm, Vec3.cross]
  unfold jacQ
  rw [e _ _ h.1, e _ _ (h.2 ▸ h.1)]
  exact h

/-- Displacement of a point. -/
theorem Sliding.point (hs : b.Sliding) (ha : b.AxesOK) (ht : b.Tree) (hr : b.Rigid) {k : ℕ}
    (hk : k < b.dof) (x : Vec3) (q q' : Fin b.dof → ℝ) :
    b.pointQ k x q' = b.pointQ k x q + (jacVel b.dof (b.jacQ k x q) (padFin (q' - q))).lin := by
  have e : jacVel b.dof (b.jacQ k x q) (padFin (q' - q)) =
      (b.sysAt (padFin q) fun _ => 0).V (fun j => padFin q' j - padFin q j) k := by
    unfold jacVel Sys.V
    refine sum_congr rfl fun j hj => ?_
    have h := hs.Jw ha ht (padFin q) (fun _ => 0) (padFin q) (fun _ => 0) hk j
    have hj : j < b.dof := mem_range.1 hj
    have e1 : padFin (q' - q) j = padFin q' j - padFin q j := by
      unfold padFin
      rw [dif_pos hj, dif_pos hj, dif_pos hj]; rfl
    rw [e1]
    unfold jacQ
    congr 1
    ext <;> simp [Motion.atPoint, h.1, Vec3.cross]
  unfold pointQ Iso.app
  rw [hs.move ha ht hr (padFin q) (padFin q') (fun _ => 0) k hk, e,
    hs.rot ha ht (padFin q') (padFin q) k hk, add_assoc]

theorem jacVel_lin_comb (n : ℕ) (J : ℕ → Motion) {m : ℕ} (s t : ℝ) (v w : Fin m → ℝ) :
    jacVel n J (padFin (s • v + t • w)) = s • jacVel n J (padFin v) + t • jacVel n J (padFin w) := by
  unfold jacVel
  rw [smul_sum, smul_sum, ← sum_add_distrib]
  refine sum_congr rfl fun j _ => ?_
  rw [smul_smul, smul_smul, ← add_smul]
  congr 1
  unfold padFin
  split
  · simp
  · simp

/-- The reduced inertia of a task is the same in all states. -/
theorem Sliding.gram (hs : b.Sliding) (ha : b.AxesOK) (ht : b.Tree) (hr : b.Rigid) (m : ℕ) {k : ℕ}
    (hk : k < b.dof) (x : Vec3) (q q' : Fin b.dof → ℝ) :
    projInv (b.massQ q)⁻¹ (b.rowsQ m k x q) = projInv (b.massQ q')⁻¹ (b.rowsQ m k x q') := by
  have e1 : b.massQ q = b.massQ q' := by
    unfold massQ
    rw [hs.mass ha ht hr (padFin q) (fun _ => 0) (padFin q') (fun _ => 0)]
  have e2 : b.rowsQ m k x q = b.rowsQ m k x q' := by
    unfold rowsQ
    ext i j
    simp only [Matrix.of_apply]
    rw [(hs.jac ha ht hk x q q' j).2]
  rw [e1, e2]

/-- The pose of a link of a sliding robot is always a singular task. -/
theorem Sliding.gram_six (hs : b.Sliding) (ha : b.AxesOK) (ht : b.Tree) {k : ℕ}
    (hk : k < b.dof) (x : Vec3) (q : Fin b.dof → ℝ) :
    (projInv (b.massQ q)⁻¹ (b.rowsQ 6 k x q)).det = 0 := by
  refine Matrix.det_eq_zero_of_row_eq_zero 3 fun j => ?_
  have h : ∀ l, b.rowsQ 6 k x q 3 l = 0 := by
    intro l
    show (b.jacQ k x q l).ang.x = 0
    rw [(hs.jac ha ht hk x q q l).1]; rfl
  show (b.rowsQ 6 k x q * (b.massQ q)⁻¹ * (b.rowsQ 6 k x q)ᵀ) 3 j = 0
  rw [Matrix.mul_assoc, Matrix.mul_apply]
  refine sum_eq_zero fun l _ => ?_
  rw [h, zero_mul]

theorem AtState.taskInv_jac {y : State b.dof} {B : Body} (hA : AtState E b y B) {d' : Bool}
    (hB : Reach E B d') (hD : b.Definite) (m k : ℕ) (x : Vec3) :
    B.taskInv ((⟨m, B.dof, fun i j => (b.jacQ k x y.1 j).entry i⟩ : DMat).mat m B.dof) =
      projInv (b.massQ y.1)⁻¹ (b.rowsQ m k x y.1) := by
  have hn : B.dof = b.dof := hA.dof
  have hDB := hA.only.definite hD
  have hmB := hDB.massive hB.inv.tree
  unfold taskInv
  rw [massM_fresh hB hmB, hA.fresh_eq]
  change gramN m B.dof _ (b.jacQ k x y.1) = _
  rw [hn]
  rfl

end Body
end SpatialDyn
