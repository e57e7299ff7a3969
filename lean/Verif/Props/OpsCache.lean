import Verif.Props.Opspace
import Verif.Props.Integrate

/-!
# Caching of the operational-space functions (C37), and witnesses for C35–C37
-/

namespace SpatialDyn
open Matrix Body

variable {E : Ext} {b b' : Body} {d d' : Bool} {T : Set ℝ} {J : DMat} {m : ℕ}

theorem Body.ObsEq.dof_eq (ho : b.ObsEq b') : b'.dof = b.dof := by unfold Body.dof; rw [ho.rbs]

theorem Body.ObsEq.fresh_eq (ho : b.ObsEq b') : b'.fresh = b.fresh := by
  obtain ⟨h1, h2, h3, h4, h5, h6, h7, h8⟩ := ho
  unfold Body.fresh Body.freshTw Body.freshTp Body.sysWith Body.TpAt Body.par Body.rb Body.dof
  rw [h1, h2, h3, h4, h5, h6]

theorem mul_ajt_congr (h : Inv E b) (h' : Inv E b') (ho : b.PoseEq b') (hc : J.cols = b.dof) :
    (J.mul (b'.ajt E J)).trunc = (J.mul (b.ajt E J)).trunc :=
  ((DMat.Eqv.refl J).mul (ajt_congr h h' ho J hc) (by rw [hc]; rfl)).trunc.symm

theorem Body.PoseEq.dof_eq (ho : b.PoseEq b') : b'.dof = b.dof := by unfold Body.dof; rw [ho.rbs]

theorem opsInertiaInverse_same (h : Reach E b d) (h' : Reach E b' d') (ho : b.PoseEq b')
    (hJ : J.cols = b.dof) (hd : 0 < b.dof) :
    ∃ a, ((Query.opsInertiaInverse J).run E b).map Prod.fst = .ok a ∧
      ((Query.opsInertiaInverse J).run E b').map Prod.fst = .ok a := by
  have e := ho.dof_eq
  obtain ⟨r, hr⟩ := opsInertiaInverse_total h.inv hJ hd
  obtain ⟨r', hr'⟩ := opsInertiaInverse_total h'.inv (J := J) (by rw [e]; exact hJ) (by rw [e]; exact hd)
  refine ⟨.dmat r.1.trunc, by simp only [Query.run, hr]; rfl, ?_⟩
  simp only [Query.run, hr']
  show Out.ok (Ans.dmat r'.1.trunc) = _
  rw [(opsInertiaInverse_ans h'.inv hr').2, (opsInertiaInverse_ans h.inv hr).2,
    mul_ajt_congr h.inv h'.inv ho hJ]

theorem opsInertia_same (h : Reach E b d) (h' : Reach E b' d') (ho : b.PoseEq b')
    (hJ : J.cols = b.dof) (hd : 0 < b.dof) (eps : ℝ) :
    ∃ a, ((Query.opsInertia J eps).run E b).map Prod.fst = .ok a ∧
      ((Query.opsInertia J eps).run E b').map Prod.fst = .ok a := by
  have e := ho.dof_eq
  obtain ⟨r, hr⟩ := opsInertia_total (e := eps) h.inv hJ hd
  obtain ⟨r', hr'⟩ := opsInertia_total (e := eps) h'.inv (J := J) (by rw [e]; exact hJ)
    (by rw [e]; exact hd)
  refine ⟨.dmat r.1.trunc, by simp only [Query.run, hr]; rfl, ?_⟩
  simp only [Query.run, hr']
  show Out.ok (Ans.dmat r'.1.trunc) = _
  rw [(opsInertia_ans h'.inv hr').2.1, (opsInertia_ans h.inv hr).2.1]
  unfold Ext.pinvOf
  rw [mul_ajt_congr h.inv h'.inv ho hJ]

theorem opsIsSingular_same (h : Reach E b d) (h' : Reach E b' d') (ho : b.PoseEq b')
    (hJ : J.cols = b.dof) (hd : 0 < b.dof) (eps : ℝ) :
    ∃ a, ((Query.opsIsSingular J eps).run E b).map Prod.fst = .ok a ∧
      ((Query.opsIsSingular J eps).run E b').map Prod.fst = .ok a := by
  have e := ho.dof_eq
  obtain ⟨r, hr⟩ := opsInertia_total (e := eps) h.inv hJ hd
  obtain ⟨r', hr'⟩ := opsInertia_total (e := eps) h'.inv (J := J) (by rw [e]; exact hJ)
    (by rw [e]; exact hd)
  refine ⟨.bool r.2.c.ops.singular, by simp only [Query.run, opsIsSingular, hr]; rfl, ?_⟩
  simp only [Query.run, opsIsSingular, hr']
  show Out.ok (Ans.bool r'.2.c.ops.singular) = _
  rw [(opsInertia_ans h'.inv hr').2.2, (opsInertia_ans h.inv hr).2.2]
  unfold Ext.pinvOf
  rw [mul_ajt_congr h.inv h'.inv ho hJ]

/-- C37: whatever queries came before, with whatever Jacobians, offsets and tolerances,
`opspace::InertiaInverse` answers as on any other body with the same links, state, gravity, loads
and base pose (for instance a new one). -/
theorem C37_inertia_inverse (h : Reach E b d) (h' : Reach E b' d') (ho : b.ObsEq b')
    (hJ : J.cols = b.dof) (hd : 0 < b.dof) :
    ∃ a, ((Query.opsInertiaInverse J).run E b).map Prod.fst = .ok a ∧
      ((Query.opsInertiaInverse J).run E b').map Prod.fst = .ok a :=
  opsInertiaInverse_same h h' ho.poseEq hJ hd

/-- C37: the same for `opspace::Inertia`. -/
theorem C37_inertia (h : Reach E b d) (h' : Reach E b' d') (ho : b.ObsEq b')
    (hJ : J.cols = b.dof) (hd : 0 < b.dof) (eps : ℝ) :
    ∃ a, ((Query.opsInertia J eps).run E b).map Prod.fst = .ok a ∧
      ((Query.opsInertia J eps).run E b').map Prod.fst = .ok a :=
  opsInertia_same h h' ho.poseEq hJ hd eps

/-- C37: the same for `opspace::IsSingular`. -/
theorem C37_is_singular (h : Reach E b d) (h' : Reach E b' d') (ho : b.ObsEq b')
    (hJ : J.cols = b.dof) (hd : 0 < b.dof) (eps : ℝ) :
    ∃ a, ((Query.opsIsSingular J eps).run E b).map Prod.fst = .ok a ∧
      ((Query.opsIsSingular J eps).run E b').map Prod.fst = .ok a :=
  opsIsSingular_same h h' ho.poseEq hJ hd eps

/-- The dynamically consistent inverse when one tolerance is in use. -/
theorem jbar_same (h : Inv E b) (h' : Inv E b') {eps : ℝ} (ht : TolC E {eps} b.c.ops)
    (ht' : TolC E {eps} b'.c.ops) (ho : b.ObsEq b') (hJ : J.cols = b.dof) {r r' : DMat × Body}
    (hr : b.opsJbar E J eps = .ok r) (hr' : b'.opsJbar E J eps = .ok r') :
    r.1.rows = b.dof ∧ r'.1.rows = b.dof ∧ r.1.cols = r'.1.cols ∧
      ∀ k < b.dof, ∀ i, r.1.e k i = r'.1.e k i := by
  obtain ⟨-, e1, rfl, X, hX, e⟩ := opsJbar_ans h ht rfl hr
  obtain ⟨-, e1, rfl, X', hX', e'⟩ := opsJbar_ans h' ht' rfl hr'
  have hXX := hX.trans ((ajt_congr h h' ho.poseEq J hJ).trans hX'.symm)
  have hp : E.pinvOf (J.mul (b'.ajt E J)) e1 = E.pinvOf (J.mul (b.ajt E J)) e1 := by
    unfold Ext.pinvOf
    rw [mul_ajt_congr h h' ho.poseEq hJ]
  rw [hp] at e'
  rw [e, e']
  refine ⟨hX.1, hXX.1.symm.trans hX.1, rfl, fun k hk i => ?_⟩
  show ∑ l ∈ Finset.range X.cols, X.e k l * _ = ∑ l ∈ Finset.range X'.cols, X'.e k l * _
  rw [← hXX.2.1]
  refine Finset.sum_congr rfl fun l hl => ?_
  rw [hXX.2.2 k (by rw [hX.1]; exact hk) l (Finset.mem_range.1 hl)]

/-- The calls whose answer is built on the dynamically consistent inverse with tolerance `eps`. -/
inductive UsesJbar (J : DMat) (eps : ℝ) : Query → Prop
  | jbar : UsesJbar J eps (.opsJbar J eps)
  | gravity : UsesJbar J eps (.opsGravity J eps)
  | external (fext : FExt) : UsesJbar J eps (.opsExternal J fext eps)
  | friction (tau : ℕ → ℝ) (s : ℝ) : UsesJbar J eps (.opsFriction J tau eps s)

/-- C37: `JacobianDynamicInverse`, `opspace::Gravity`, `opspace::ExternalForces` and
`opspace::Friction` do not depend on the history if it used one tolerance only.  Missing: histories
that used several tolerances, for which the claim is false (`C37_stale_jbar`). -/
theorem C37_jbar_partial {eps : ℝ} (h : Careful E {eps} b d) (h' : Careful E {eps} b' d')
    (ho : b.ObsEq b') (hJ : J.cols = b.dof) (hd : 0 < b.dof) {x : Query} (hx : UsesJbar J eps x) :
    ∃ a, (x.run E b).map Prod.fst = .ok a ∧ (x.run E b').map Prod.fst = .ok a := by
  have e := ho.dof_eq
  obtain ⟨r, hr⟩ := opsJbar_total (e := eps) h.inv hJ hd
  obtain ⟨r', hr'⟩ := opsJbar_total (e := eps) h'.inv (J := J) (by rw [e]; exact hJ)
    (by rw [e]; exact hd)
  obtain ⟨h1, h2, h3, h4⟩ := jbar_same h.inv h'.inv h.tol h'.tol ho hJ hr hr'
  have s1 := (opsJbar_run h.inv hr).1
  have s2 := (opsJbar_run h'.inv hr').1
  have key : ∀ g g' : ℕ → ℝ, (∀ k < b.dof, g k = g' k) →
      r.1.tr.mulVec g = r'.1.tr.mulVec g' := fun g g' hg => by
    funext i
    show ∑ k ∈ Finset.range r.1.rows, r.1.e k i * g k = ∑ k ∈ Finset.range r'.1.rows, r'.1.e k i * g' k
    rw [h1, h2]
    refine Finset.sum_congr rfl fun k hk => ?_
    rw [h4 k (Finset.mem_range.1 hk), hg k (Finset.mem_range.1 hk)]
  cases hx with
  | jbar =>
    refine ⟨.dmat r.1.trunc, by simp only [Query.run, hr]; rfl, ?_⟩
    simp only [Query.run, hr']
    show Out.ok (Ans.dmat r'.1.trunc) = _
    rw [DMat.Eqv.trunc ⟨h2.trans h1.symm, h3.symm, fun k hk i _ =>
      (h4 k (by rw [← h2]; exact hk) i).symm⟩]
  | gravity =>
    refine ⟨.vec (take J.rows (r.1.tr.mulVec r.2.gravity.1)),
      by simp only [Query.run, opsGravity, hr]; rfl, ?_⟩
    simp only [Query.run, opsGravity, hr']
    show Out.ok (Ans.vec (take J.rows (r'.1.tr.mulVec r'.2.gravity.1))) = _
    rw [key _ r'.2.gravity.1 fun k hk => ?_]
    rw [(gravity_run (h.inv.step s1)).2 k (by rw [s1.dof_eq]; exact hk),
      (gravity_run (h'.inv.step s2)).2 k (by rw [s2.dof_eq, e]; exact hk), s1.fresh_eq, s2.fresh_eq,
      ho.fresh_eq]
  | external fext =>
    refine ⟨.vec (take J.rows (r.1.tr.mulVec (r.2.externalTorques fext).1)),
      by simp only [Query.run, opsExternal, hr]; rfl, ?_⟩
    simp only [Query.run, opsExternal, hr']
    show Out.ok (Ans.vec (take J.rows (r'.1.tr.mulVec (r'.2.externalTorques fext).1))) = _
    rw [key _ (r'.2.externalTorques fext).1 fun k hk => ?_]
    rw [(externalTorques_run (h.inv.step s1) fext).2 k (by rw [s1.dof_eq]; exact hk),
      (externalTorques_run (h'.inv.step s2) fext).2 k (by rw [s2.dof_eq, e]; exact hk), s1.fresh_eq,
      s2.fresh_eq, ho.fresh_eq]
  | friction tau s =>
    refine ⟨_, by simp only [Query.run, opsFriction, hr]; rfl, ?_⟩
    simp only [Query.run, opsFriction, hr']
    show Out.ok (Ans.vec (take J.rows _)) = Out.ok (Ans.vec (take J.rows _))
    have hff : ∀ bb : Body, ∀ c', (Body.friction { bb with c := c' }) = bb.friction := fun _ _ => rfl
    have hf : r.2.friction = r'.2.friction := by
      obtain ⟨c1, e1, -⟩ := id s1
      obtain ⟨c2, e2, -⟩ := id s2
      rw [e1, e2, hff, hff]
      obtain ⟨o1, o2, o3, o4, o5, o6, o7, o8⟩ := ho
      obtain ⟨⟩ := b
      obtain ⟨⟩ := b'
      dsimp only at o1 o2 o3 o4 o5 o6 o7 o8
      subst o1 o2 o3 o4 o5 o6 o7 o8
      rfl
    rw [hf, key _ _ fun k _ => rfl]

/-! ## A stale inverse -/

open Classical in
/-- External functions of the next witness: the pseudo-inverse drops singular values that do not
exceed the tolerance (written out for one-row matrices). -/
noncomputable def extThresh : Ext :=
  { ext0 with pinv := fun A eps =>
      (⟨A.cols, A.rows, fun i j => if eps < |A.e i j| then 1 / A.e i j else 0⟩, false) }

/-- The Jacobian of the witness. -/
def oneRow : DMat := ⟨1, 1, fun _ _ => 1⟩

theorem opsSame_of_eqv (h : b.c.ops.J.Eqv J) : b.opsSame J = .ok true := by
  have e : b.c.ops.J.size = J.size := by unfold DMat.size; rw [h.1, h.2.1]
  unfold opsSame
  rw [if_neg (not_not.2 e), if_neg (by rintro (x | x) <;> [exact x h.1; exact x h.2.1])]
  exact congrArg Out.ok (@decide_eq_true _ (Classical.propDecidable _) h)

/-- After `opspace::Inertia` with another tolerance `JacobianDynamicInverse` returns the matrix of
the old tolerance. -/
theorem jbar_kept (h : Inv E b) {e1 e2 : ℝ} {r1 r2 : DMat × Body}
    (h1 : b.opsJbar E J e1 = .ok r1) (h2 : r1.2.opsInertia E J e2 = .ok r2) :
    r2.2.opsJbar E J e2 = .ok (r1.1, r2.2) := by
  obtain ⟨s1, j1, j2, j3⟩ := opsJbar_run h h1
  have i1 := h.step s1
  obtain ⟨l1, -⟩ := i1.coh.opsJbar j1
  obtain ⟨s2, l2, l3, l4, -⟩ := opsInertia_run i1 h2
  have key : r2.2.c.ops.jbarDone = true ∧ r2.2.c.ops.Jbar = r1.1 := by
    have hc : ∀ {x}, r1.2.opsLambdaCompute E J e2 = .ok x →
        x.2.c.ops.jbarDone = true ∧ x.2.c.ops.Jbar = r1.1 := by
      intro x hx
      unfold opsLambdaCompute opsInertiaInverse at hx
      rw [l1, opsSame_of_eqv j2] at hx
      cases hx
      exact ⟨j1, j3.symm⟩
    unfold opsInertia at h2
    split at h2
    · exact hc h2
    · rw [opsSame_of_eqv j2] at h2
      simp only [Out.bind] at h2
      split at h2
      · cases h2; exact ⟨j1, j3.symm⟩
      · exact hc h2
  unfold opsJbar
  rw [key.1, opsSame_of_eqv l3]
  simp only [Out.bind, Bool.not_true, Bool.false_eq_true, if_false]
  rw [if_pos ⟨trivial, l4⟩, key.2]

/-- The claim C37 fails for `JacobianDynamicInverse`: after `JacobianDynamicInverse(J, 0)` and
`Inertia(J, e)` the call `JacobianDynamicInverse(J, e)` does not give the answer it gives on a body
that has not been asked before. -/
theorem C37_stale_jbar : ∃ (b b' : Body) (d d' : Bool) (e : ℝ),
    Reach extThresh b d ∧ Reach extThresh b' d' ∧ b.ObsEq b' ∧ oneRow.cols = b.dof ∧
    execAll extThresh b' [.query (.opsJbar oneRow 0), .query (.opsInertia oneRow e)] = some b ∧
    ((Query.opsJbar oneRow e).run extThresh b).map Prod.fst ≠
      ((Query.opsJbar oneRow e).run extThresh b').map Prod.fst := by
  obtain ⟨d', h'⟩ := slider_reach extThresh
  have hJ : oneRow.cols = slider.dof := rfl
  have hd : 0 < slider.dof := Nat.one_pos
  set x := (slider.ajt extThresh oneRow).e 0 0 with hx
  have hxx : x ≠ 0 := by
    intro h0
    have hA := (slider_definite.form h').mat
    have hx1 : x = ((toMat slider.dof slider.inertia.1)⁻¹ *ᵥ fun j => (1 : ℝ)) ⟨0, hd⟩ :=
      solve_is hA (fun _ => 1) ⟨0, hd⟩
    have e0 : (toMat slider.dof slider.inertia.1)⁻¹ *ᵥ (fun _ => (1 : ℝ)) = 0 := by
      funext i
      have : i = ⟨0, hd⟩ := Fin.ext (slider_lt i.2)
      rw [this, ← hx1, h0]; rfl
    have e1 := congrArg (fun v => toMat slider.dof slider.inertia.1 *ᵥ v) e0
    simp only [Matrix.mulVec_mulVec, Matrix.mul_nonsing_inv _ (Ne.isUnit hA.det_ne), Matrix.one_mulVec,
      Matrix.mulVec_zero] at e1
    have := congrFun e1 ⟨0, hd⟩
    simp at this
  have hL : (oneRow.mul (slider.ajt extThresh oneRow)).trunc.e 0 0 = x := by
    simp [DMat.trunc, DMat.mul, oneRow, hx, ajt, ainvJT]
  obtain ⟨r1, hr1⟩ := opsJbar_total (e := (0 : ℝ)) h'.inv hJ hd
  obtain ⟨s1, -⟩ := opsJbar_run h'.inv hr1
  obtain ⟨r2, hr2⟩ := opsInertia_total (e := |x|) (h'.inv.step s1) (J := oneRow)
    (by rw [s1.dof_eq]; exact hJ) (by rw [s1.dof_eq]; exact hd)
  obtain ⟨s2, -⟩ := opsInertia_run (h'.inv.step s1) hr2
  obtain ⟨r3, hr3⟩ := opsJbar_total (e := |x|) h'.inv hJ hd
  have ht : ∀ e, TolC extThresh {e} slider.c.ops := fun e hc => by cases hc
  have k1 := hr1
  obtain ⟨-, e1, rfl, X1, hX1, a1⟩ := opsJbar_ans h'.inv (ht 0) rfl hr1
  obtain ⟨-, e3, rfl, X3, hX3, a3⟩ := opsJbar_ans h'.inv (ht |x|) rfl hr3
  have hent : ∀ (X : DMat) (e : ℝ), X.Eqv (slider.ajt extThresh oneRow) →
      (X.mul (extThresh.pinvOf (oneRow.mul (slider.ajt extThresh oneRow)) e).1).trunc.e 0 0 =
        x * (if e < |x| then 1 / x else 0) := by
    intro X e hX
    have hr : X.rows = 1 := hX.1
    have hc : X.cols = 1 := hX.2.1
    have he : X.e 0 0 = x := hX.2.2 0 (by omega) 0 (by omega)
    have hp : (extThresh.pinvOf (oneRow.mul (slider.ajt extThresh oneRow)) e).1.e 0 0 =
        if e < |x| then 1 / x else 0 := by
      show (if e < |(oneRow.mul (slider.ajt extThresh oneRow)).trunc.e 0 0| then _ else _) = _
      rw [hL]
    have hpc : (extThresh.pinvOf (oneRow.mul (slider.ajt extThresh oneRow)) e).1.cols = 1 := rfl
    generalize (extThresh.pinvOf (oneRow.mul (slider.ajt extThresh oneRow)) e).1 = P at hp hpc
    unfold DMat.trunc DMat.mul
    simp only [hr, hc, hpc, Finset.range_one, Finset.sum_singleton, he, hp]
    norm_num
  refine ⟨r2.2, slider, Op.dirty r1.2 r2.2 (Op.dirty slider r1.2 d' (.query (.opsJbar oneRow 0)))
    (.query (.opsInertia oneRow |x|)), d', |x|, ?_, h', ?_, ?_, ?_, ?_⟩
  · have q1 : (Op.query (.opsJbar oneRow 0)).exec extThresh slider = some r1.2 := by
      simp only [Op.exec, Op.step, Query.run, hr1]; rfl
    have q2 : (Op.query (.opsInertia oneRow |x|)).exec extThresh r1.2 = some r2.2 := by
      simp only [Op.exec, Op.step, Query.run, hr2]; rfl
    have := Reach.step (.query (.opsInertia oneRow |x|)) 
      (Reach.step (.query (.opsJbar oneRow 0)) h' trivial q1) trivial q2
    exact this
  · obtain ⟨c, e, -⟩ := s1.trans s2
    rw [e]
    exact ⟨rfl, rfl, rfl, rfl, rfl, rfl, rfl, rfl⟩
  · rw [(s1.trans s2).dof_eq]; exact hJ
  · simp only [execAll, Op.exec, Op.step, Query.run, hr1, Out.map, Out.bind, Option.bind_some, hr2]
  · have := jbar_kept h'.inv hr1 hr2
    simp only [Query.run, this, hr3]
    show Out.ok (Ans.dmat r1.1.trunc) ≠ Out.ok (Ans.dmat r3.1.trunc)
    intro hne
    injection hne with hne
    injection hne with hne
    have := congrArg (fun A : DMat => A.e 0 0) hne
    beta_reduce at this
    rw [a1, a3, hent X1 _ hX1, hent X3 _ hX3, if_pos (abs_pos.2 hxx), if_neg (lt_irrefl _), mul_zero,
      mul_one_div_cancel hxx] at this
    exact one_ne_zero this

/-! ## Witnesses -/

theorem ext0_exact {m : ℕ} (X : Matrix (Fin m) (Fin m) ℝ) (e : ℝ) : Exact ext0 X e := by
  have hX : toMat m (DMat.ofM X).e = X := by
    ext i j
    simp [toMat, DMat.ofM]
  refine ⟨rfl, rfl, fun i j => ?_⟩
  show (if h : (i : ℕ) < m ∧ (j : ℕ) < m then (toMat m (DMat.ofM X).e)⁻¹ ⟨i, h.1⟩ ⟨j, h.2⟩ else 0) = _
  rw [dif_pos ⟨i.2, j.2⟩, hX]

/-- For massive links and moving joints a task stays regular after projection if none of its
directions is a combination of the directions of the first task. -/
theorem C36_regular {m' : ℕ} {JM : Matrix (Fin m) (Fin b.dof) ℝ}
    {KM : Matrix (Fin m') (Fin b.dof) ℝ} (h : Reach E b d) (hD : b.Definite)
    (hind : ∀ v w, KMᵀ *ᵥ v = JMᵀ *ᵥ w → v = 0) :
    (b.taskInv (KM * (1 - dynInv b.massM⁻¹ JM * JM))).det ≠ 0 := by
  refine C35_regular h hD fun v hv => hind v ((dynInv b.massM⁻¹ JM)ᵀ *ᵥ KMᵀ *ᵥ v) ?_
  rw [Matrix.transpose_mul, Matrix.transpose_sub, Matrix.transpose_one, Matrix.transpose_mul,
    ← Matrix.mulVec_mulVec, Matrix.sub_mulVec, Matrix.one_mulVec, sub_eq_zero,
    ← Matrix.mulVec_mulVec] at hv
  exact hv

theorem opsAdd_false (s : (ℕ → ℝ) × Body) (t : Body → (ℕ → ℝ) → Out ((ℕ → ℝ) × Body)) :
    opsAdd false s t = .ok s := rfl

/-- Tasks that ask for an acceleration only can always be computed. -/
theorem opsInverseDynamics_total (h : Inv E b) {N : DMat} (hJ : J.cols = b.dof)
    (hN : N.size = 0 ∨ N.rows = b.dof ∧ N.cols = b.dof) (hd : 0 < b.dof) (ddx : ℕ → ℝ) (fext : FExt)
    {o : OpsOpts} (hg : o.gravity = false) (hc : o.cc = false) (hf : o.friction = false) :
    ∃ tau N' b', b.opsInverseDynamics E J ddx (some N) fext false o = .ok (tau, some N', b') := by
  have hfit : opsFits J (some N) = .ok () := by
    unfold opsFits Out.need
    dsimp only
    rw [if_pos]
    intro hp
    rcases hN with h0 | h0
    · omega
    · rw [hJ, h0.1]
  have hJ : (opsJx J (some N)).cols = b.dof := by
    unfold opsJx
    dsimp only
    split
    · rcases hN with h0 | h0
      · omega
      · exact h0.2
    · exact hJ
  obtain ⟨l, hl⟩ := opsInertia_total (e := o.svdEps) h hJ hd
  have s := (opsInertia_run h hl).1
  obtain ⟨r, hr⟩ := opsJbar_total (e := o.svdEps) (h.step s) (J := opsJx J (some N))
    (by rw [s.dof_eq]; exact hJ) (by rw [s.dof_eq]; exact hd)
  have hneed : Out.need (N.size = 0 ∨ N.rows = l.2.dof) = .ok () := by
    unfold Out.need
    rw [if_pos]
    rw [s.dof_eq]
    exact hN.imp id And.left
  unfold opsInverseDynamics
  simp only [hfit, hl, hg, hc, hf, opsAdd_false, Out.bind, opsNull, hr, hneed]
  exact ⟨_, _, _, rfl⟩

theorem Body.Regular.of_is (h : Inv E b) (hs : Step E b b') {K : DMat}
    {KM : Matrix (Fin m) (Fin b.dof) ℝ} (hK : K.Is KM) (hX : (b.taskInv KM).det ≠ 0)
    (hE : ∀ e ∈ T, Exact E (b.taskInv KM) e) : b'.Regular E T K := by
  obtain ⟨c', rfl, hc⟩ := id hs
  obtain ⟨r, c, e⟩ := K
  obtain ⟨rfl, hc, he⟩ := hK
  have hM : DMat.mat ⟨r, c, e⟩ r b.dof = KM := by
    ext i j
    exact he i j
  have e2 := taskInv_cast h hs KM
  refine ⟨hc, ?_, fun ε hε => ?_⟩
  · show (Body.taskInv { b with c := c' } (DMat.mat ⟨r, c, e⟩ r b.dof)).det ≠ 0
    rw [hM, e2]; exact hX
  · show Exact E (Body.taskInv { b with c := c' } (DMat.mat ⟨r, c, e⟩ r b.dof)) ε
    rw [hM, e2]; exact hE ε hε

/-- The two tasks of the witness: joints 0 and 1. -/
noncomputable def demoTask (k : ℕ) (a : ℝ) : Task :=
  ⟨⟨1, 3, fun _ j => if j = k then 1 else 0⟩, fun _ => a, fun _ => none, false,
    ⟨false, false, false, 0, 0.01, 0⟩⟩

theorem demoTask_ind {k k' : ℕ} (a a' : ℝ) (hk' : k' < 3) (hne : k ≠ k') (v w : Fin 1 → ℝ)
    (h : ((demoTask k' a').J.mat 1 demo.dof)ᵀ *ᵥ v = ((demoTask k a).J.mat 1 demo.dof)ᵀ *ᵥ w) :
    v = 0 := by
  have := congrFun h ⟨k', hk'⟩
  simp [Matrix.mulVec, dotProduct, DMat.mat, demoTask, hne.symm] at this
  funext i
  rw [Subsingleton.elim i 0, this]; rfl

/-- The hypotheses of C35 and C36 hold: the branching body in motion with two prioritised tasks. -/
theorem demo_prioritised : ∃ (d : Bool) (N : DMat) (l : List (Task × (ℕ → ℝ))),
    Careful ext0 Set.univ demo d ∧ demo.Massive ∧ DefiniteForm demo.dof demo.inertia.1 ∧ N.size = 0 ∧
    l.length = 2 ∧ (∀ p ∈ l, p.1.Plain) ∧ Prioritised ext0 Set.univ demo N l ∧
    ∀ p ∈ l, ∀ i, p.1.J.e i 2 = 0 := by
  obtain ⟨d, h⟩ := demo_reach ext0
  have hm : demo.Massive := demo_definite.massive h.inv.tree
  have hn := demo_definite.form h
  have hdof : demo.dof = 3 := rfl
  have hplain : ∀ k a, (demoTask k a).Plain := fun k a => ⟨rfl, rfl, rfl, rfl, le_refl _⟩
  set N : DMat := ⟨0, 0, fun _ _ => 0⟩ with hN
  have hNis : NullIs N (1 : Matrix (Fin demo.dof) (Fin demo.dof) ℝ) := .inl ⟨rfl, rfl⟩
  have hJ : ∀ k a, (demoTask k a).J.Is ((demoTask k a).J.mat 1 demo.dof) :=
    fun k a => ⟨rfl, rfl, fun _ _ => rfl⟩
  have hX0 : (demo.taskInv ((demoTask 0 5).J.mat 1 demo.dof)).det ≠ 0 :=
    C35_regular h demo_definite fun v hv => demoTask_ind (k := 1) (k' := 0) 0 5 (by norm_num) (by norm_num) v 0
      (by rw [hv, Matrix.mulVec_zero])
  obtain ⟨t1, N1, b1, c1⟩ := opsInverseDynamics_total h.inv (J := (demoTask 0 5).J) (N := N)
    (hJ 0 5).cols (.inl rfl) (by rw [hdof]; norm_num) (demoTask 0 5).ddx
    (demoTask 0 5).fext (o := (demoTask 0 5).o) rfl rfl rfl
  obtain ⟨-, ⟨N1', e1, e2, e3⟩, st, tl⟩ := opsInverseDynamics_is (T := Set.univ) h.inv
    (Step.refl h.inv) h.careful.tol hn.mat (hJ 0 5) hNis (fun e _ => ext0_exact _ e) trivial
    (fun _ => trivial) c1
  cases e1
  rw [Matrix.mul_one, Matrix.mul_one] at e2 e3
  have hX1 : (demo.taskInv ((demoTask 1 7).J.mat 1 demo.dof *
      (1 - dynInv demo.massM⁻¹ ((demoTask 0 5).J.mat 1 demo.dof) *
        (demoTask 0 5).J.mat 1 demo.dof))).det ≠ 0 :=
    C36_regular h demo_definite fun v w => demoTask_ind 5 7 (by norm_num) (by norm_num) v w
  have hK := e3.jx (hJ 1 7)
  obtain ⟨t2, N2, b2, c2⟩ := opsInverseDynamics_total (h.inv.step st) (J := (demoTask 1 7).J)
    (N := N1) (by rw [(hJ 1 7).cols, st.dof_eq])
    (.inr ⟨by rw [e2.rows, st.dof_eq], by rw [e2.cols, st.dof_eq]⟩) (by rw [st.dof_eq, hdof]; norm_num) (demoTask 1 7).ddx
    (demoTask 1 7).fext (o := (demoTask 1 7).o) rfl rfl rfl
  refine ⟨d, N, [(demoTask 0 5, t1), (demoTask 1 7, t2)], h.careful, hm, hn, rfl, rfl, ?_,
    .cons rfl ⟨trivial, fun _ => trivial⟩ ⟨rfl, hX0, fun e _ => ext0_exact _ e⟩ c1
      (.cons (by rw [st.dof_eq]; rfl) ⟨trivial, fun _ => trivial⟩ ?_ c2 (.nil _ _)), ?_⟩
  rotate_left 2
  · intro p hp i
    simp only [List.mem_cons, List.not_mem_nil, or_false] at hp
    rcases hp with rfl | rfl <;> simp [demoTask]
  · intro p hp
    simp only [List.mem_cons, List.not_mem_nil, or_false] at hp
    rcases hp with rfl | rfl <;> exact hplain _ _
  · exact Regular.of_is h.inv st hK hX1 fun e _ => ext0_exact _ e

end SpatialDyn
