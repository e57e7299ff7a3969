import Verif.Lemmas.Vectors
import Verif.Props.Dynamics
import Verif.Props.Kinematics

/-!
C127: the size of a vector argument.  C128: the Python functions that take an optional `q`, and the
array returned by `hessian`.
-/

namespace SpatialDyn
variable {E : Ext} {b : Body} {d : Bool}

/-! ## C127: kinematics -/

theorem climbV_ok {α : Type*} (f : Iso → α → α) (q : List ℝ) (ht : b.Tree) (n : ℕ) {k : ℕ}
    (hd : k < b.dof) (hk : k < q.length) (x : α) :
    b.climbV q f n (some k) x = .ok (b.climb (fun j => q.getD j 0) f n (some k) x) := by
  induction n generalizing k x with
  | zero => rfl
  | succ n ih =>
    unfold Body.climbV Body.climb readAt
    rw [if_pos hk]
    show b.climbV q f n (b.par k) _ = _
    cases hp : b.par k with
    | none => cases n <;> rfl
    | some p =>
      have := ht.parLt k hd p hp
      exact ih (by omega) (by omega) _

theorem climbV_ub {α : Type*} (f : Iso → α → α) (q : List ℝ) {n k : ℕ} (hn : 0 < n)
    (hk : q.length ≤ k) (x : α) : b.climbV q f n (some k) x = .ub := by
  obtain ⟨n, rfl⟩ : ∃ m, n = m + 1 := ⟨n - 1, by omega⟩
  unfold Body.climbV readAt
  rw [if_neg (by omega)]
  rfl

theorem Body.Inv.anc_le (h : Body.Inv E b) {k : ℕ} (hk : k < b.dof) {j : ℕ} (hj : j ∈ b.anc.getD k []) :
    j ≤ k := ((h.tree.anc_mem k hk j).1 hj).le h.tree.parLt hk

theorem Anc.up {par : ℕ → Option ℕ} {l k p : ℕ} (h : Anc par l k) (hp : par l = some p) :
    Anc par p k := by
  induction h with
  | refl => exact .step hp .refl
  | step e _ ih => exact .step e ih

/-- C127: a vector of positions given to a kinematic function must reach as far as the link asked for
and no further.  Then the result is that of the vector. -/
theorem C127_kinematics (h : Reach E b d) {i : ℤ} {k : ℕ} (hk : b.LinkIdx i k) {q : List ℝ}
    (hq : k < q.length) (x : Vec3) (junk : Iso) :
    b.positionV q i x = b.positionQ (fun j => q.getD j 0) i x ∧
    b.orientationV q i = b.orientationQ (fun j => q.getD j 0) i ∧
    b.tToWorldV junk q i = b.tToWorldQ junk (fun j => q.getD j 0) i ∧
    b.cartesianPoseV junk q i x = b.cartesianPoseQ junk (fun j => q.getD j 0) i x ∧
    b.jacobianV q i x = b.jacobianQ (fun j => q.getD j 0) i x := by
  have hT : b.tToWorldV junk q i = b.tToWorldQ junk (fun j => q.getD j 0) i := by
    unfold Body.tToWorldV Body.tToWorldQ
    rw [hk.index]
    show (b.climbV q _ b.dof (some k) _).bind _ = _
    rw [climbV_ok _ q h.inv.tree _ hk.1 hq]
    rfl
  refine ⟨?_, ?_, hT, ?_, ?_⟩
  · unfold Body.positionV Body.positionQ
    rw [Body.climbStart_ok hk.index]
    show (b.climbV q _ b.dof (some k) _).bind _ = _
    rw [climbV_ok _ q h.inv.tree _ hk.1 hq]
    rfl
  · unfold Body.orientationV Body.orientationQ
    rw [Body.climbStart_ok hk.index]
    show (b.climbV q _ b.dof (some k) _).bind _ = _
    rw [climbV_ok _ q h.inv.tree _ hk.1 hq]
    rfl
  · unfold Body.cartesianPoseV Body.cartesianPoseQ
    rw [hT]
  · unfold Body.jacobianV
    rw [hk.index]
    show (readAll q (b.anc.getD k [])).bind _ = _
    rw [readAll_ok fun j hj => (h.inv.anc_le hk.1 hj).trans_lt hq]
    rfl

/-- C127: a vector that does not reach the link is not refused: the call has undefined behaviour. -/
theorem C127_kinematics_violated (h : Reach E b d) {i : ℤ} {k : ℕ} (hk : b.LinkIdx i k) {q : List ℝ}
    (hq : q.length ≤ k) (x : Vec3) (junk : Iso) :
    b.positionV q i x = .ub ∧ b.orientationV q i = .ub ∧ b.tToWorldV junk q i = .ub ∧
    b.cartesianPoseV junk q i x = .ub ∧ b.jacobianV q i x = .ub := by
  have hn : 0 < b.dof := by have := hk.1; omega
  have hT : b.tToWorldV junk q i = .ub := by
    unfold Body.tToWorldV
    rw [hk.index]
    show (b.climbV q _ b.dof (some k) _).bind _ = _
    rw [climbV_ub _ q hn hq]
    rfl
  refine ⟨?_, ?_, hT, ?_, ?_⟩
  · unfold Body.positionV
    rw [Body.climbStart_ok hk.index]
    show (b.climbV q _ b.dof (some k) _).bind _ = _
    rw [climbV_ub _ q hn hq]
    rfl
  · unfold Body.orientationV
    rw [Body.climbStart_ok hk.index]
    show (b.climbV q _ b.dof (some k) _).bind _ = _
    rw [climbV_ub _ q hn hq]
    rfl
  · unfold Body.cartesianPoseV
    rw [hT]
    rfl
  · unfold Body.jacobianV
    rw [hk.index]
    show (readAll q (b.anc.getD k [])).bind _ = _
    rw [readAll_ub (i := k) ((h.inv.tree.anc_mem k hk.1 k).2 .refl) hq]
    rfl

/-- C127: a vector of the right size gives what the stateful functions return after `set_q`, which
is the only function that checks it. -/
theorem C127_as_set_q (h : Reach E b d) {q : List ℝ} {b' : Body} (hq : b.setQ q = .ok b') {i : ℤ}
    {k : ℕ} (hk : b.LinkIdx i k) (x : Vec3) :
    b.positionV q i x = (b'.position i x).map Prod.fst ∧
    b.orientationV q i = (b'.orientation i).map Prod.fst ∧
    b.jacobianV q i x = (b'.jacobian i x).map Prod.fst := by
  have hl : q.length = b.dof := by
    unfold Body.setQ at hq
    split at hq
    · cases hq
    · next e => exact not_not.1 e
  obtain ⟨h1, h2, -, -, h3⟩ := C127_kinematics h hk (q := q) (by rw [hl]; exact hk.1) x 1
  rw [h1, h2, h3]
  exact C17_variants_agree_partial h hq hk x

/-- C127: `set_q` and `set_dq` accept exactly the vectors with one entry per joint; any other is
refused and leaves the body as it was. -/
theorem C127_setters (b : Body) (q : List ℝ) :
    ((∃ b', b.setQ q = .ok b') ↔ q.length = b.dof) ∧ ((∃ b', b.setDq q = .ok b') ↔ q.length = b.dof) ∧
    (q.length ≠ b.dof → (Op.setQ q).exec E b = some b ∧ (Op.setDq q).exec E b = some b) := by
  have hs : q.length ≠ b.dof → b.setQ q = .throws ∧ b.setDq q = .throws := fun e => by
    unfold Body.setQ Body.setDq; rw [if_pos e, if_pos e]; exact ⟨rfl, rfl⟩
  refine ⟨⟨fun ⟨b', hb⟩ => ?_, fun e => ?_⟩, ⟨fun ⟨b', hb⟩ => ?_, fun e => ?_⟩, fun e => ?_⟩
  · by_contra e; rw [(hs e).1] at hb; cases hb
  · unfold Body.setQ; rw [if_neg (not_not.2 e)]; split <;> exact ⟨_, rfl⟩
  · by_contra e; rw [(hs e).2] at hb; cases hb
  · unfold Body.setDq; rw [if_neg (not_not.2 e)]; split <;> exact ⟨_, rfl⟩
  · simp [Op.exec, Op.step, (hs e).1, (hs e).2]

/-- C127: only the entries of the link and its ancestors matter. -/
theorem C127_only_the_path (h : Reach E b d) {i : ℤ} {k : ℕ} (hk : b.LinkIdx i k) {q q' : List ℝ}
    (hq : k < q.length) (hq' : k < q'.length)
    (he : ∀ j, Anc b.par j k → q.getD j 0 = q'.getD j 0) (x : Vec3) (junk : Iso) :
    b.positionV q i x = b.positionV q' i x ∧ b.orientationV q i = b.orientationV q' i ∧
    b.tToWorldV junk q i = b.tToWorldV junk q' i ∧
    b.cartesianPoseV junk q i x = b.cartesianPoseV junk q' i x ∧
    b.jacobianV q i x = b.jacobianV q' i x := by
  have hc : ∀ {α : Type} (f : Iso → α → α) (n : ℕ) (x : α) (l : ℕ), Anc b.par l k →
      b.climb (fun j => q.getD j 0) f n (some l) x = b.climb (fun j => q'.getD j 0) f n (some l) x := by
    intro α f n
    induction n with
    | zero => intros; rfl
    | succ n ih =>
      intro x l hl
      unfold Body.climb
      beta_reduce
      rw [he l hl]
      cases hp : b.par l with
      | none => cases n <;> rfl
      | some p =>
        exact ih _ p (hl.up hp)
  obtain ⟨a1, a2, a3, a4, a5⟩ := C127_kinematics h hk hq x junk
  obtain ⟨c1, c2, c3, c4, c5⟩ := C127_kinematics h hk hq' x junk
  have hT : b.tToWorldQ junk (fun j => q.getD j 0) i = b.tToWorldQ junk (fun j => q'.getD j 0) i := by
    unfold Body.tToWorldQ
    rw [hk.index]
    show Out.ok _ = Out.ok _
    rw [hc _ _ _ k .refl]
  refine ⟨?_, ?_, ?_, ?_, ?_⟩
  · rw [a1, c1]
    unfold Body.positionQ
    rw [Body.climbStart_ok hk.index]
    show Out.ok _ = Out.ok _
    rw [hc _ _ _ k .refl]
  · rw [a2, c2]
    unfold Body.orientationQ
    rw [Body.climbStart_ok hk.index]
    show Out.ok _ = Out.ok _
    rw [hc _ _ _ k .refl]
  · rw [a3, c3, hT]
  · rw [a4, c4]
    unfold Body.cartesianPoseQ
    rw [hT]
  · rw [a5, c5, Body.jacobianQ_val h.inv.tree hk, Body.jacobianQ_val h.inv.tree hk]
    have ht : ∀ l ∈ b.anc.getD k [], b.twAt (fun j => q.getD j 0) l = b.twAt (fun j => q'.getD j 0) l := by
      intro l
      induction l using Nat.strong_induction_on with
      | _ l ih =>
        intro hl
        have hlk := (h.inv.tree.anc_mem k hk.1 l).1 hl
        have hld : l < b.dof := (hlk.le h.inv.tree.parLt hk.1).trans_lt hk.1
        rw [Body.twAt_rec h.inv.tree _ hld, Body.twAt_rec h.inv.tree _ hld]
        cases hp : b.par l with
        | none => beta_reduce; rw [he l hlk]
        | some p =>
          have hpk : Anc b.par p k := hlk.up hp
          beta_reduce
          rw [he l hlk]
          have e := ih p (h.inv.tree.parLt l hld p hp) ((h.inv.tree.anc_mem k hk.1 p).2 hpk)
          exact congrArg (· * _) e
    rw [ht k ((h.inv.tree.anc_mem k hk.1 k).2 .refl), Body.jacLoop_congr ht]

/-! ## C127: dynamics -/

/-- C127: with one entry per joint every function computes its result from the entries. -/
theorem C127_exact {tau : List ℝ} (ht : tau.length = b.dof) (fext : FExt) (oi : IDOpts) (of : FDOpts)
    (o : IntOpts) (od : DIntOpts) (dt : ℝ) (g comp : Bool) (eps : ℝ) :
    b.inverseDynamicsV tau fext oi = .ok (b.inverseDynamics (fun i => tau.getD i 0) fext oi) ∧
    b.forwardDynamicsV E tau fext of = .ok (b.fd E (fun i => tau.getD i 0) fext of) ∧
    b.forwardDynamicsAbaV tau fext of = .ok (b.forwardDynamicsAba (fun i => tau.getD i 0) fext of) ∧
    b.integrateV E tau dt fext o = b.integrate E (fun i => tau.getD i 0) dt fext o ∧
    b.frictionV tau comp eps = .ok (b.friction (fun i => tau.getD i 0) comp eps) ∧
    b.discreteInverseDynamicsV E tau dt fext g =
      .ok (b.discreteID E (fun i => tau.getD i 0) dt fext g) ∧
    b.discreteIntegrateV E tau dt fext od = b.discreteIntegrate E (fun i => tau.getD i 0) dt fext od := by
  have h1 : sameSize tau b.dof = .ok () := if_pos ht
  have h2 : readAll tau (List.range b.dof) = .ok () := readAll_range ht.ge
  refine ⟨?_, ?_, ?_, ?_, ?_, ?_, ?_⟩
  · unfold Body.inverseDynamicsV; rw [h1, h2, ite_self]; rfl
  · unfold Body.forwardDynamicsV; rw [h1]; rfl
  · unfold Body.forwardDynamicsAbaV; rw [h2]; rfl
  · unfold Body.integrateV; rw [h1, h2, ite_self]; rfl
  · unfold Body.frictionV
    rw [readAll_ok fun i hi => by
      have := List.mem_range.1 (List.mem_filter.1 hi).1; omega]
    rfl
  · unfold Body.discreteInverseDynamicsV; rw [h2]; rfl
  · unfold Body.discreteIntegrateV; rw [h1]; rfl

/-- C127: a vector with too few entries is refused by none of them. -/
theorem C127_short_violated {tau : List ℝ} (ht : tau.length < b.dof) (fext : FExt) (oi : IDOpts)
    (of : FDOpts) (o : IntOpts) (od : DIntOpts) (dt : ℝ) (g : Bool) :
    b.inverseDynamicsV tau fext oi = .ub ∧ b.forwardDynamicsV E tau fext of = .ub ∧
    b.forwardDynamicsAbaV tau fext of = .ub ∧ b.integrateV E tau dt fext o = .ub ∧
    b.discreteInverseDynamicsV E tau dt fext g = .ub ∧ b.discreteIntegrateV E tau dt fext od = .ub := by
  have h1 : sameSize tau b.dof = .ub := if_neg ht.ne
  have h2 : readAll tau (List.range b.dof) = .ub := readAll_range_short ht
  refine ⟨?_, ?_, ?_, ?_, ?_, ?_⟩
  · unfold Body.inverseDynamicsV; rw [h1, h2, ite_self]; rfl
  · unfold Body.forwardDynamicsV; rw [h1]; rfl
  · unfold Body.forwardDynamicsAbaV; rw [h2]; rfl
  · unfold Body.integrateV; rw [h1, h2, ite_self]; rfl
  · unfold Body.discreteInverseDynamicsV; rw [h2]; rfl
  · unfold Body.discreteIntegrateV; rw [h1]; rfl

/-- C127: with too many entries, the functions that go joint by joint compute what the leading entries
give, and leave the body as they would; those that subtract vectors have undefined behaviour.  So the
option `aba` decides whether `Integrate` is defined. -/
theorem C127_long_violated {tau : List ℝ} (ht : b.dof < tau.length) (fext : FExt) (of : FDOpts)
    (o : IntOpts) (od : DIntOpts) (dt : ℝ) (g : Bool) :
    b.forwardDynamicsAbaV tau fext of = b.forwardDynamicsAbaV (tau.take b.dof) fext of ∧
    b.discreteInverseDynamicsV E tau dt fext g =
      b.discreteInverseDynamicsV E (tau.take b.dof) dt fext g ∧
    (o.aba = true → b.integrateV E tau dt fext o = b.integrateV E (tau.take b.dof) dt fext o) ∧
    (o.aba = false → b.integrateV E tau dt fext o = .ub) ∧
    b.forwardDynamicsV E tau fext of = .ub ∧ b.discreteIntegrateV E tau dt fext od = .ub := by
  have h1 : sameSize tau b.dof = .ub := if_neg ht.ne'
  have h2 : readAll tau (List.range b.dof) = .ok () := readAll_range ht.le
  have h3 : readAll (tau.take b.dof) (List.range b.dof) = .ok () :=
    readAll_range (by rw [List.length_take]; omega)
  have h4 : ∀ i < b.dof, arrOf tau i = arrOf (tau.take b.dof) i := fun i hi => (arrOf_take tau hi).symm
  refine ⟨?_, ?_, fun ho => ?_, fun ho => ?_, ?_, ?_⟩
  · unfold Body.forwardDynamicsAbaV; rw [h2, h3, b.forwardDynamicsAba_steps h4]
  · unfold Body.discreteInverseDynamicsV; rw [h2, h3, b.discreteID_steps h4]
  · unfold Body.integrateV; rw [if_pos ho, if_pos ho, h2, h3, b.integrate_steps h4 dt fext ho]
  · unfold Body.integrateV; rw [if_neg (by simp [ho]), h1]; rfl
  · unfold Body.forwardDynamicsV; rw [h1]; rfl
  · unfold Body.discreteIntegrateV; rw [h1]; rfl

theorem Body.touch_flags (b : Body) (p q : Bool) : (b.touch p q).c.crbaDone = b.c.crbaDone ∧
    (b.touch p q).c.ccDone = b.c.ccDone ∧ (b.touch p q).c.gravDone = b.c.gravDone := by
  unfold Body.touch Body.touchTw Body.touchTp
  dsimp only
  refine ⟨?_, ?_, ?_⟩ <;> split <;> split <;> (try split) <;> rfl

/-- C127: with too many entries, whether `InverseDynamics` is defined depends on what was asked
before.  In a state that has just been set it computes what the leading entries give; after `Inertia`,
`CentrifugalCoriolis` and `Gravity` have been asked for in the same state, it does not. -/
theorem C127_history_violated {ddq q : List ℝ} {b' : Body} (hq : b.setQ q = .ok b') (hne : q ≠ b.q)
    (ht : b.dof < ddq.length) (fext : FExt) (o : IDOpts) :
    b'.inverseDynamicsV ddq fext o = b'.inverseDynamicsV (ddq.take b.dof) fext o ∧
    b'.inverseDynamicsV ddq fext o = .ok (b'.inverseDynamics (fun i => ddq.getD i 0) fext o) ∧
    (b'.inertia.2.centrifugalCoriolis.2.gravity.2).inverseDynamicsV ddq fext o = .ub := by
  have hd := Body.setQ_dof hq
  have hc : b'.c.crbaDone = false := by
    unfold Body.setQ at hq
    split at hq
    · cases hq
    · rw [if_neg (Ne.symm hne)] at hq
      cases hq
      rfl
  have h2 : readAll ddq (List.range b'.dof) = .ok () := readAll_range (by omega)
  have h3 : readAll (ddq.take b.dof) (List.range b'.dof) = .ok () :=
    readAll_range (by rw [List.length_take]; omega)
  have h4 : ∀ i < b'.dof, arrOf ddq i = arrOf (ddq.take b.dof) i := fun i hi =>
    (arrOf_take ddq (hd ▸ hi)).symm
  refine ⟨?_, ?_, ?_⟩
  · unfold Body.inverseDynamicsV
    simp only [hc, Bool.false_and, Bool.false_eq_true, if_false]
    rw [h2, h3, b'.inverseDynamics_steps h4]
  · unfold Body.inverseDynamicsV
    simp only [hc, Bool.false_and, Bool.false_eq_true, if_false]
    rw [h2]
    rfl
  · have f1 : b'.inertia.2.c.crbaDone = true ∧ b'.inertia.2.dof = b'.dof := by
      refine ⟨?_, by rw [show b'.inertia.2 = _ from b'.inertia_same]; rfl⟩
      unfold Body.inertia
      split
      · assumption
      · rfl
    generalize b'.inertia.2 = c at f1
    have f2 : c.centrifugalCoriolis.2.c.crbaDone = true ∧ c.centrifugalCoriolis.2.c.ccDone = true ∧
        c.centrifugalCoriolis.2.dof = b'.dof := by
      refine ⟨?_, ?_, by rw [show c.centrifugalCoriolis.2 = _ from c.centrifugalCoriolis_same]; exact f1.2⟩
      all_goals unfold Body.centrifugalCoriolis; split
      · exact f1.1
      · exact (c.touch_flags _ _).1.trans f1.1
      · assumption
      · rfl
    generalize c.centrifugalCoriolis.2 = c at f2
    have f3 : c.gravity.2.c.crbaDone = true ∧ c.gravity.2.c.ccDone = true ∧
        c.gravity.2.c.gravDone = true ∧ c.gravity.2.dof = b'.dof := by
      refine ⟨?_, ?_, ?_, by rw [show c.gravity.2 = _ from c.gravity_same]; exact f2.2.2⟩
      all_goals unfold Body.gravity; split
      · exact f2.1
      · exact (c.touch_flags _ _).1.trans f2.1
      · exact f2.2.1
      · exact (c.touch_flags _ _).2.1.trans f2.2.1
      · assumption
      · rfl
    unfold Body.inverseDynamicsV
    simp only [f3.1, f3.2.1, f3.2.2.1, Bool.or_true, Bool.and_true, if_true]
    unfold sameSize
    rw [if_neg (by rw [f3.2.2.2, hd]; omega)]
    rfl

/-- C127: `Friction` needs the torque only of the joints that have no kinetic friction at the moment:
whether a short vector is undefined behaviour depends on the velocities. -/
theorem C127_friction {tau : List ℝ} (comp : Bool) (eps : ℝ) :
    b.frictionV tau comp eps = .ub ↔ ∃ i < b.dof, tau.length ≤ i ∧
      ((b.rb i).joint.fCoulomb.val = 0 ∨ |b.dq.getD i 0| ≤ eps) := by
  have hs : ∀ x : ℝ, Sys.signum x eps = 0 ↔ |x| ≤ eps := by
    intro x
    unfold Sys.signum
    rw [abs_le]
    split
    · next e => constructor
                · intro h; norm_num at h
                · intro h; linarith [h.2]
    · split
      · next e => constructor
                  · intro h; norm_num at h
                  · intro h; linarith [h.1]
      · next e1 e2 => exact ⟨fun _ => ⟨by linarith, by linarith⟩, fun _ => rfl⟩
  constructor
  · intro hu
    by_contra hn
    push Not at hn
    unfold Body.frictionV at hu
    rw [readAll_ok] at hu
    · cases hu
    · intro i hi
      obtain ⟨h1, h2⟩ := List.mem_filter.1 hi
      by_contra hl
      have := hn i (List.mem_range.1 h1) (not_lt.1 hl)
      rcases mul_eq_zero.1 (of_decide_eq_true h2) with e | e
      · exact this.1 e
      · exact absurd ((hs _).1 e) (not_le.2 this.2)
  · rintro ⟨i, hi, hl, hf⟩
    unfold Body.frictionV
    rw [readAll_ub (i := i) ?_ hl]
    · rfl
    · refine List.mem_filter.2 ⟨List.mem_range.2 hi, decide_eq_true ?_⟩
      rcases hf with e | e
      · exact mul_eq_zero.2 (.inl e)
      · exact mul_eq_zero.2 (.inr ((hs _).2 e))

/-- The hypotheses hold for the robot of `Lemmas/Demo`: two positions reach its second link and not
its third; four accelerations are one too many. -/
example : (∃ d, Reach ext0 Body.demo d) ∧ Body.demo.LinkIdx 1 1 ∧ 1 < [(0.5 : ℝ), 1].length ∧
    Body.demo.LinkIdx (-1) 2 ∧ [(0.5 : ℝ), 1].length ≤ 2 ∧
    (∃ b', Body.demo.setQ [0, 0, 0] = .ok b') ∧ [(0 : ℝ), 0, 0] ≠ Body.demo.q ∧
    Body.demo.dof < [(1 : ℝ), 2, 3, 4].length := by
  have hd : Body.demo.dof = 3 := rfl
  refine ⟨Body.demo_reach ext0, ⟨by rw [hd]; norm_num, .inl rfl⟩, by simp, ⟨by rw [hd]; norm_num, .inr ⟨by rw [hd]; rfl, by norm_num⟩⟩,
    by simp, ?_, ?_, by rw [hd]; simp⟩
  · exact ((C127_setters (E := ext0) Body.demo [0, 0, 0]).1).2 (by rw [hd]; rfl)
  · intro h
    have := congrArg (fun l : List ℝ => l.getD 0 0) h
    simp [Body.demo] at this

/-! ## C128 -/

theorem jacLoop_ang (b : Body) (Tw : ℕ → Iso) (l : List ℕ) (p p' : Vec3) (i : ℕ) :
    (b.jacLoop Tw l p i).ang = (b.jacLoop Tw l p' i).ang := by
  unfold Body.jacLoop
  suffices h : ∀ J J' : ℕ → Motion, (∀ i, (J i).ang = (J' i).ang) → ∀ i,
      (l.foldl (fun J i => Function.update J i
        ((⟨(Tw i).R, (Tw i).t - p⟩ : Iso).actM (b.rb i).joint.subspace)) J i).ang =
      (l.foldl (fun J i => Function.update J i
        ((⟨(Tw i).R, (Tw i).t - p'⟩ : Iso).actM (b.rb i).joint.subspace)) J' i).ang from
    h _ _ (fun _ => rfl) i
  induction l with
  | nil => exact fun J J' h => h
  | cons a l ih =>
    intro J J' h
    refine ih _ _ fun i => ?_
    beta_reduce
    by_cases e : i = a
    · subst e; rw [Function.update_self, Function.update_self]; rfl
    · rw [Function.update_of_ne e, Function.update_of_ne e]; exact h i

theorem Body.jacobian_fst (h : Reach E b d) {i : ℤ} {k : ℕ} (hk : b.LinkIdx i k) (x : Vec3) :
    (b.jacobian i x).map Prod.fst =
      .ok (b.jacLoop b.freshTw (b.anc.getD k []) ((b.freshTw k).app x)) := by
  obtain ⟨r, hr⟩ := Body.jacobian_total b hk x
  obtain ⟨-, k', hi, hJ⟩ := Body.jacobian_run h.inv hr
  rw [hk.index] at hi
  cases hi
  rw [hr, ← hJ]
  rfl

/-- C128: passing the current positions as `q` gives what leaving `q` out gives: positions,
orientations, Jacobians and their halves, and the transform of a link in its parent (for which `q` is
one number).  The body is not changed by a call with `q`. -/
theorem C128_current_q (h : Reach E b d) {i : ℤ} {k : ℕ} (hk : b.LinkIdx i k) (x x' : Vec3) :
    (b.pyPosition i x (.vec b.q)).map Prod.fst = (b.pyPosition i x).map Prod.fst ∧
    (b.pyOrientation i (.vec b.q)).map Prod.fst = (b.pyOrientation i).map Prod.fst ∧
    (b.pyJacobian i x (.vec b.q)).map Prod.fst = (b.pyJacobian i x).map Prod.fst ∧
    (b.pyLinearJacobian i x (.vec b.q)).map Prod.fst = (b.pyLinearJacobian i x).map Prod.fst ∧
    (b.pyAngularJacobian i x' (.vec b.q)).map Prod.fst = (b.pyAngularJacobian i x).map Prod.fst ∧
    (b.pyTToParent i (.num (b.q.getD k 0))).map Prod.fst = (b.pyTToParent i).map Prod.fst := by
  have hs : b.setQ b.q = .ok b := by
    unfold Body.setQ
    rw [if_neg (not_not.2 h.inv.tree.lq), if_pos rfl]
  obtain ⟨h1, h2, h3⟩ := C127_as_set_q h hs hk x
  obtain ⟨-, -, h4⟩ := C127_as_set_q h hs hk 0
  have hv : ∀ {α : Type} (n : Out (α × Body)) (g : List ℝ → Out α) (q : List ℝ),
      (Body.pyVec n b g (.vec q)).map Prod.fst = g q := by
    intro α n g q
    show ((g q).bind _).map _ = _
    cases g q <;> rfl
  have hJ := Body.jacobian_fst h hk
  have hc : ∀ y, ∃ B, b.jacobian i y =
      .ok (b.jacLoop b.freshTw (b.anc.getD k []) ((b.freshTw k).app y), B) := by
    intro y
    have := hJ y
    cases e : b.jacobian i y with
    | ok r => rw [e] at this; exact ⟨r.2, by rw [← Out.ok.inj this]⟩
    | throws => rw [e] at this; cases this
    | ub => rw [e] at this; cases this
  refine ⟨(hv _ _ _).trans h1, (hv _ _ _).trans h2, (hv _ _ _).trans h3, ?_, ?_, ?_⟩
  · refine (hv _ _ _).trans ?_
    rw [h3, hJ]
    show _ = (b.linearJacobian i x).map _
    unfold Body.linearJacobian
    obtain ⟨B, e⟩ := hc x
    rw [e]
    rfl
  · refine (hv _ _ _).trans ?_
    rw [h4, hJ]
    show _ = (b.angularJacobian i).map _
    unfold Body.angularJacobian
    obtain ⟨B, e⟩ := hc b.c.jacOffset
    rw [e]
    show Out.ok _ = Out.ok _
    congr 1
    funext j
    exact jacLoop_ang b _ _ _ _ _
  · show ((b.tToParentQ i _).bind _).map _ = (b.tToParent i).map _
    unfold Body.tToParentQ Body.tToParent
    rw [hk.index]
    show Out.ok _ = Out.ok (b.viewTp k)
    rw [h.inv.viewTp k hk.1]
    rfl

/-- C128: the two halves of the Jacobian are the ones of `jacobian`, with or without `q`; the argument
`offset` of `angular_jacobian` has no effect, as it should. -/
theorem C128_halves (h : Reach E b d) {i : ℤ} {k : ℕ} (hk : b.LinkIdx i k) (x x' : Vec3) {q : PyQ}
    (hq : q = .none ∨ ∃ v, q = .vec v ∧ k < v.length) : ∃ J,
    (b.pyJacobian i x q).map Prod.fst = .ok J ∧
    (b.pyLinearJacobian i x q).map Prod.fst = .ok (fun j => (J j).lin) ∧
    (b.pyAngularJacobian i x' q).map Prod.fst = .ok (fun j => (J j).ang) := by
  have hJ := Body.jacobian_fst h hk
  have hc : ∀ y, ∃ B, b.jacobian i y =
      .ok (b.jacLoop b.freshTw (b.anc.getD k []) ((b.freshTw k).app y), B) := by
    intro y
    have := hJ y
    cases e : b.jacobian i y with
    | ok r => rw [e] at this; exact ⟨r.2, by rw [← Out.ok.inj this]⟩
    | throws => rw [e] at this; cases this
    | ub => rw [e] at this; cases this
  rcases hq with rfl | ⟨v, rfl, hv⟩
  · obtain ⟨B, e⟩ := hc x
    obtain ⟨B', e'⟩ := hc b.c.jacOffset
    refine ⟨_, hJ x, ?_, ?_⟩
    · show (b.linearJacobian i x).map _ = _
      unfold Body.linearJacobian
      rw [e]
      rfl
    · show (b.angularJacobian i).map _ = _
      unfold Body.angularJacobian
      rw [e']
      show Out.ok _ = Out.ok _
      congr 1
      funext j
      exact jacLoop_ang b _ _ _ _ _
  · have a : ∀ y, b.jacobianV v i y = _ := fun y => (C127_kinematics h hk hv y 1).2.2.2.2.trans
      (Body.jacobianQ_val h.inv.tree hk _ y)
    refine ⟨b.jacLoop (b.twAt fun j => v.getD j 0) (b.anc.getD k [])
        ((b.twAt (fun j => v.getD j 0) k).app x), ?_, ?_, ?_⟩
    · show ((b.jacobianV v i x).bind _).map _ = _
      rw [a]
      rfl
    · show (((b.jacobianV v i x).bind _).bind _).map _ = _
      rw [a]
      rfl
    · show (((b.jacobianV v i 0).bind _).bind _).map _ = _
      rw [a]
      show Out.ok _ = Out.ok _
      congr 1
      funext j
      exact jacLoop_ang b _ _ _ _ _

/-- C128: what may be given as `q`.  A list and an array of the same numbers are the same `q`.  A number
is refused wherever positions of all joints are expected; for the transform of a link in its parent an
array of one number is that number, and lists and other arrays are refused. -/
theorem C128_arguments (b : Body) (i : ℤ) (x : Vec3) (T : Iso) (a : ℝ) (v : List ℝ) :
    (b.pyPosition i x (.num a) = .throws ∧ b.pyOrientation i (.num a) = .throws ∧
      b.pyJacobian i x (.num a) = .throws ∧ b.pyLinearJacobian i x (.num a) = .throws ∧
      b.pyAngularJacobian i x (.num a) = .throws ∧ b.pyTToWorld T i (.num a) = .throws) ∧
    (b.pyPosition i x (.arr v) = b.pyPosition i x (.vec v) ∧
      b.pyOrientation i (.arr v) = b.pyOrientation i (.vec v) ∧
      b.pyJacobian i x (.arr v) = b.pyJacobian i x (.vec v) ∧
      b.pyLinearJacobian i x (.arr v) = b.pyLinearJacobian i x (.vec v) ∧
      b.pyAngularJacobian i x (.arr v) = b.pyAngularJacobian i x (.vec v) ∧
      b.pyTToWorld T i (.arr v) = b.pyTToWorld T i (.vec v)) ∧
    b.pyTToParent i (.vec v) = .throws ∧ b.pyTToParent i (.arr [a]) = b.pyTToParent i (.num a) ∧
    (v.length ≠ 1 → b.pyTToParent i (.arr v) = .throws) := by
  refine ⟨⟨rfl, rfl, rfl, rfl, rfl, rfl⟩, ⟨rfl, rfl, rfl, rfl, rfl, rfl⟩, rfl, rfl, fun h => ?_⟩
  match v, h with
  | [], _ => rfl
  | [_], h => exact absurd rfl h
  | _ :: _ :: _, _ => rfl

/-- C128: the array returned by `hessian` has shape `(n, n, 6)`; its entry `[j, l, r]` is component `r`
of entry `(j, l)` of the Hessian, and any other index is refused. -/
theorem C128_hessian {i : ℤ} {x : Vec3} {H : ℕ → ℕ → Motion} {b1 : Body}
    (hH : b.hessian i x = .ok (H, b1)) : ∃ a, b.pyHessian i x = .ok (a, b1) ∧
    a.shape = [b.dof, b.dof, 6] ∧
    ∀ j l r : ℕ, (j < b.dof → l < b.dof → r < 6 →
        a.at3 j l r = .ok ([(H j l).lin.x, (H j l).lin.y, (H j l).lin.z, (H j l).ang.x, (H j l).ang.y,
          (H j l).ang.z].getD r 0)) ∧
      (¬ (j < b.dof ∧ l < b.dof ∧ r < 6) → a.at3 j l r = .throws) := by
  refine ⟨_, by unfold Body.pyHessian; rw [hH]; rfl, rfl, fun j l r => ⟨fun hj hl hr => ?_, fun hn => ?_⟩⟩
  · unfold NdArray.at3
    rw [if_pos ⟨hj, hl, hr⟩]
    have hn : 0 < b.dof := by omega
    have e : (j * 8 + l * (8 * b.dof) + r * (8 * b.dof * b.dof)) / 8 =
        j + b.dof * (l + b.dof * r) := by
      rw [show j * 8 + l * (8 * b.dof) + r * (8 * b.dof * b.dof) =
        8 * (j + b.dof * (l + b.dof * r)) by ring]
      exact Nat.mul_div_cancel_left _ (by norm_num)
    show Out.ok (tensorMem b.dof H ((j * 8 + l * (8 * b.dof) + r * (8 * b.dof * b.dof)) / 8)) = _
    rw [e]
    have e1 : (j + b.dof * (l + b.dof * r)) % b.dof = j := by
      rw [Nat.add_mul_mod_self_left, Nat.mod_eq_of_lt hj]
    have e2 : (j + b.dof * (l + b.dof * r)) / b.dof = l + b.dof * r := by
      rw [Nat.add_mul_div_left _ _ hn, Nat.div_eq_of_lt hj, zero_add]
    have e3 : (j + b.dof * (l + b.dof * r)) / (b.dof * b.dof) = r := by
      rw [← Nat.div_div_eq_div_mul, e2, Nat.add_mul_div_left _ _ hn, Nat.div_eq_of_lt hl, zero_add]
    have e4 : (l + b.dof * r) % b.dof = l := by
      rw [Nat.add_mul_mod_self_left, Nat.mod_eq_of_lt hl]
    unfold tensorMem
    rw [e1, e2, e3, e4]
    interval_cases r <;> rfl
  · unfold NdArray.at3
    exact if_neg hn

end SpatialDyn
