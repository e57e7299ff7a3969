import Verif.Lemmas.Discrete
import Verif.Lemmas.Integrate

/-! The cache of the discrete dynamics along any history of calls. -/

namespace SpatialDyn
namespace Body
variable {E : Ext} {b : Body}
open Finset

theorem toVec_getD (n : ℕ) (f : ℕ → ℝ) {i : ℕ} (hi : i < n) : (toVec n f).getD i 0 = f i := by
  simp [toVec, List.getD, hi]

theorem inertiaInverse_step_eq {b' : Body} (h : Inv E b) (hs : Step E b b') :
    ∀ i < b.dof, ∀ j < b.dof, b'.inertiaInverse.1 i j = b.inertiaInverse.1 i j := by
  have h1 := (inertiaInverse_run (h.step hs)).2
  rw [hs.fresh_eq] at h1
  exact IsA.unique h.wf h1 (inertiaInverse_run h).2

theorem before_some (p : Prev) (dt : ℝ) :
    b.before (some (dt, b.before p dt)) dt = b.before p dt := if_pos rfl

/-- Discrete inverse dynamics on the same body with another cache. -/
theorem discreteID_cache {p p' : Prev} (h : Inv E b) (hd : DCoh E b b.c.drnea p) {b' : Body}
    (hs : Step E b b') {dt : ℝ} (hd' : DCoh E b b'.c.drnea p')
    (hp : b.before p' dt = b.before p dt) (x : ℕ → ℝ) (fext : FExt) (g : Bool) :
    (∀ i < b.dof, (b'.discreteID E x dt fext g).1 i = (b.discreteID E x dt fext g).1 i) ∧
    DCoh E b (b'.discreteID E x dt fext g).2.c.drnea (some (dt, b.before p dt)) ∧
    (b'.discreteID E x dt fext g).2.c.drnea.prevDone = true ∧
    DNext E b (b'.discreteID E x dt fext g).2.c.drnea dt x := by
  have i' := h.step hs
  obtain ⟨c', rfl, -⟩ := hs
  obtain ⟨r1, r2, r3, r4⟩ := discreteID_run i' (hd'.same (Same.cache b c')) x dt fext g
  have hq := (discreteID_run h hd x dt fext g).1
  have e : ({ b with c := c' } : Body).before p' dt = b.before p dt := hp
  rw [e] at r1 r2
  exact ⟨fun i hi => (r1 i hi).trans (hq i hi).symm, ⟨r2.valid, r2.conf, r2.prev⟩, r3, r4⟩

/-- The root-finding loop stops at the first acceptable candidate. -/
theorem discreteLoop_run {p : Prev} (h : Inv E b) (hd : DCoh E b b.c.drnea p) {tau : ℕ → ℝ}
    {dt : ℝ} {fext : FExt} {o : DIntOpts} {K : ℕ}
    (hK : ∀ j < K, ¬ b.Accepts E tau dt fext o (b.candidate E tau dt fext o.gravity j))
    (hA : b.Accepts E tau dt fext o (b.candidate E tau dt fext o.gravity K)) :
    ∀ (k k0 : ℕ) (s : (ℕ → ℝ) × Body), k0 ≤ K → K < k0 + k →
      s.1 = b.candidate E tau dt fext o.gravity k0 → Step E b s.2 →
      (∃ p', DCoh E b s.2.c.drnea p' ∧ b.before p' dt = b.before p dt) →
      (discreteLoop E tau dt fext o k s).1 = b.candidate E tau dt fext o.gravity K ∧
      Step E b (discreteLoop E tau dt fext o k s).2 ∧
      DCoh E b (discreteLoop E tau dt fext o k s).2.c.drnea (some (dt, b.before p dt)) ∧
      (discreteLoop E tau dt fext o k s).2.c.drnea.prevDone = true ∧
      DNext E b (discreteLoop E tau dt fext o k s).2.c.drnea dt
        (b.candidate E tau dt fext o.gravity K) := by
  intro k
  induction k with
  | zero => intro k0 s h1 h2; omega
  | succ k ih =>
    intro k0 s h1 h2 hx hs ⟨p', hd', hp'⟩
    obtain ⟨e1, e2, e3, e4⟩ := discreteID_cache h hd hs hd' hp' s.1 fext o.gravity
    have st := hs.trans (discreteID_step (h.step hs) s.1 dt fext o.gravity)
    have hdof : s.2.dof = b.dof := hs.same.dof
    have hdef : ∀ i < b.dof, (s.2.discreteID E s.1 dt fext o.gravity).1 i - dt * tau i =
        b.defect E tau dt fext o.gravity s.1 i := fun i hi => by rw [e1 i hi]; rfl
    have hsum : ∑ i ∈ range s.2.dof,
        ((s.2.discreteID E s.1 dt fext o.gravity).1 i - dt * tau i) ^ 2 =
        ∑ i ∈ range b.dof, b.defect E tau dt fext o.gravity s.1 i ^ 2 := by
      rw [hdof]
      exact sum_congr rfl fun i hi => by rw [hdef i (mem_range.1 hi)]
    unfold discreteLoop
    simp only
    rw [hsum]
    by_cases hacc : √(∑ i ∈ range b.dof, b.defect E tau dt fext o.gravity s.1 i ^ 2) < o.epsV
    · have hk0 : k0 = K := by
        by_contra hne
        exact hK k0 (by omega) (by rw [← hx]; exact hacc)
      subst hk0
      rw [if_pos hacc]
      rw [← hx]
      exact ⟨rfl, st, e2, e3, e4⟩
    · rw [if_neg hacc]
      have hk0 : k0 ≠ K := by
        rintro rfl
        rw [← hx] at hA
        exact hacc hA
      have iv := h.step st
      refine ih (k0 + 1) _ (by omega) (by omega) ?_ ?_ ?_
      · funext i
        simp only [candidate]
        rw [hdof, E.solve_congr (inertiaInverse_step_eq h st) hdef, hx]
      · exact st.trans (inertiaInverse_run iv).1
      · have hk := inertiaInverse_keep (b := (s.2.discreteID E s.1 dt fext o.gravity).2)
        unfold KeepD at hk
        simp only
        rw [hk]
        exact ⟨_, e2, before_some p dt⟩

theorem StateOnly.disp {b' : Body} (h : StateOnly b b') : b'.disp = b.disp := by
  have hr : b'.rb = b.rb := by unfold Body.rb; rw [h.rbs]
  have hd : b'.dof = b.dof := by unfold Body.dof; rw [h.rbs]
  have hp : b'.par = b.par := by unfold Body.par; rw [hr]
  have ht : b'.TpAt = b.TpAt := by unfold Body.TpAt; rw [hr]
  unfold Body.disp twAt
  rw [hd, hp, ht, h.T0]

theorem setQ_drnea {q : List ℝ} {b' : Body} (hs : b.setQ q = .ok b') :
    b'.c.drnea.qPrev = b.c.drnea.qPrev ∧ b'.c.drnea.dt = b.c.drnea.dt ∧
      b'.c.drnea.TFromNext = b.c.drnea.TFromNext ∧ b'.c.drnea.p = b.c.drnea.p := by
  unfold setQ at hs
  split at hs
  · cases hs
  · split at hs <;> cases hs <;> exact ⟨rfl, rfl, rfl, rfl⟩

theorem setDq_drnea {q : List ℝ} {b' : Body} (hs : b.setDq q = .ok b') :
    b'.c.drnea.qPrev = b.c.drnea.qPrev ∧ b'.c.drnea.dt = b.c.drnea.dt ∧
      b'.c.drnea.TFromNext = b.c.drnea.TFromNext ∧ b'.c.drnea.p = b.c.drnea.p := by
  unfold setDq at hs
  split at hs
  · cases hs
  · split at hs <;> cases hs <;> exact ⟨rfl, rfl, rfl, rfl⟩

/-- A converged discrete step. -/
theorem discreteIntegrate_run {p : Prev} (h : Inv E b) (hd : DCoh E b b.c.drnea p) {tau : ℕ → ℝ}
    {dt : ℝ} {fext : FExt} {o : DIntOpts} {K : ℕ} (hlt : K < o.maxIter)
    (hK : ∀ j < K, ¬ b.Accepts E tau dt fext o (b.candidate E tau dt fext o.gravity j))
    (hA : b.Accepts E tau dt fext o (b.candidate E tau dt fext o.gravity K)) {b' : Body}
    (hs : b.discreteIntegrate E tau dt fext o = .ok b') :
    b'.q = toVec b.dof (b.candidate E tau dt fext o.gravity K) ∧
    b'.dq = toVec b.dof (fun i =>
      (b.candidate E tau dt fext o.gravity K i - b.before p dt i) / (2 * dt)) ∧
    DCoh E b' b'.c.drnea (some (dt, b.pos)) := by
  have hso := discreteIntegrate_stateOnly h.tree hs
  unfold discreteIntegrate at hs
  simp only at hs
  have hst0 := fd_step h tau fext ⟨o.gravity, true, false, 0.01⟩
  have hk0 : b.KeepD (b.fd E tau fext ⟨o.gravity, true, false, 0.01⟩).2 := fd_keep _ _ _
  have hrun := discreteLoop_run h hd hK hA o.maxIter 0 (fun i => b.qFun i + dt * b.dqFun i +
      dt * dt * (b.fd E tau fext ⟨o.gravity, true, false, 0.01⟩).1 i,
    (b.fd E tau fext ⟨o.gravity, true, false, 0.01⟩).2) (Nat.zero_le K) (by omega) rfl hst0
    ⟨p, by unfold KeepD at hk0; simp only; rw [hk0]; exact hd, rfl⟩
  obtain ⟨r1, r2, r3, r4, r5⟩ := hrun
  generalize discreteLoop E tau dt fext o o.maxIter (fun i => b.qFun i + dt * b.dqFun i +
      dt * dt * (b.fd E tau fext ⟨o.gravity, true, false, 0.01⟩).1 i,
    (b.fd E tau fext ⟨o.gravity, true, false, 0.01⟩).2) = s at hs r1 r2 r3 r4 r5
  obtain ⟨b1, h1, hs⟩ := Out.bind_ok hs
  obtain ⟨b2, h2, hs⟩ := Out.bind_ok hs
  cases hs
  obtain ⟨q1, q2, q3, q4⟩ := setQ_drnea h1
  obtain ⟨w1, w2, w3, w4⟩ := setDq_drnea h2
  have hq : b2.q = toVec b.dof (b.candidate E tau dt fext o.gravity K) := by
    rw [setDq_q h2, setQ_q h1, r1]
  have hconf := r3.conf _ _ rfl
  refine ⟨hq, ?_, ?_, ?_, ?_⟩
  · simp only
    rw [setDq_dq h2, r1]
    unfold toVec
    refine List.map_congr_left fun i hi => ?_
    rw [q1, hconf.2 i (List.mem_range.1 hi)]
  · rfl
  · intro t qp e
    cases e
    refine ⟨?_, fun i _ => rfl⟩
    simp only
    rw [w2, q2]; exact hconf.1
  · intro _ t qp e i hi
    cases e
    have hdof : b2.dof = b.dof := by
      have := hso.rbs
      unfold Body.dof; rw [← this]
    have hi : i < b.dof := by rw [← hdof]; exact hi
    rw [hso.disp]
    have hown : b.own = b2.own := by
      funext k m
      have := hso.rbs
      unfold own Body.rb
      rw [← this]
    have hpos : ∀ j < b.dof, b.candidate E tau dt fext o.gravity K j = b2.pos j := by
      intro j hj
      unfold Body.pos
      rw [hq, toVec_getD _ _ hj]
    have hdc := disp_congr h (fun _ _ => rfl : ∀ j < b.dof, b.pos j = b.pos j) hpos i hi
    have hr5 := r5 i hi
    rw [hdc] at hr5
    simp only
    rw [w3, q3, w4, q4]
    refine ⟨hr5.1, hr5.2.trans ?_⟩
    rw [hown]
    rfl

/-- Continuous integration: the discrete cache is invalidated or nothing changed. -/
def Forgets (b b' : Body) : Prop :=
  b'.c.drnea.qPrevValid = false ∨ b'.q = b.q ∧ b'.dq = b.dq ∧ b'.c.drnea = b.c.drnea

theorem Forgets.trans {b1 b2 b3 : Body} (h : Forgets b1 b2) (k : Forgets b2 b3) :
    Forgets b1 b3 := by
  rcases k with k | ⟨k1, k2, k3⟩
  · exact .inl k
  · rcases h with h | ⟨h1, h2, h3⟩
    · exact .inl (k3 ▸ h)
    · exact .inr ⟨k1.trans h1, k2.trans h2, k3.trans h3⟩

theorem setQ_forgets {q : List ℝ} {b' : Body} (hs : b.setQ q = .ok b') : Forgets b b' := by
  unfold setQ at hs
  split at hs
  · cases hs
  · split at hs
    · cases hs; exact .inr ⟨rfl, rfl, rfl⟩
    · cases hs; exact .inl rfl

theorem setDq_forgets {q : List ℝ} {b' : Body} (hs : b.setDq q = .ok b') : Forgets b b' := by
  unfold setDq at hs
  split at hs
  · cases hs
  · split at hs
    · cases hs; exact .inr ⟨rfl, rfl, rfl⟩
    · cases hs; exact .inl rfl

theorem accel_forgets (tau : ℕ → ℝ) (fext : FExt) (o : IntOpts) :
    Forgets b (b.accel E tau fext o).2 := by
  have hs := accel_same (b := b) (E := E) tau fext o
  have hk : b.KeepD (b.accel E tau fext o).2 := by
    unfold accel
    split
    · exact forwardDynamicsAba_keep _ _ _
    · exact fd_keep _ _ _
  unfold Same at hs
  exact .inr ⟨by rw [hs], by rw [hs], hk⟩

theorem setState_forgets {lim : Bool} {q dq : ℕ → ℝ} {b' : Body}
    (hs : b.setState lim q dq = .ok b') : Forgets b b' := by
  obtain ⟨b1, h1, hs⟩ := Out.bind_ok hs
  exact (setQ_forgets h1).trans (setDq_forgets hs)

theorem integrate_forgets {tau : ℕ → ℝ} {dt : ℝ} {fext : FExt} {o : IntOpts}
    {b' : Body} (hs : b.integrate E tau dt fext o = .ok b') : Forgets b b' := by
  unfold integrate integrateWith at hs
  have nx : ∀ {b1 : Body}, Forgets b1 (b1.accel E tau fext o).2 := accel_forgets tau fext o
  simp only at hs
  split at hs
  · exact nx.trans (setState_forgets hs)
  · obtain ⟨b1, h1, hs⟩ := Out.bind_ok hs
    exact ((nx.trans (setState_forgets h1)).trans nx).trans (setState_forgets hs)
  · obtain ⟨b1, h1, hs⟩ := Out.bind_ok hs
    obtain ⟨b2, h2, hs⟩ := Out.bind_ok hs
    obtain ⟨b3, h3, hs⟩ := Out.bind_ok hs
    exact ((((((nx.trans (setState_forgets h1)).trans nx).trans (setState_forgets h2)).trans
      nx).trans (setState_forgets h3)).trans nx).trans (setState_forgets hs)

theorem disp_setBase (h : Inv E b) {T : Iso} (h' : Inv E (b.setBase T)) (u w : ℕ → ℝ) :
    ∀ i < b.dof, (b.setBase T).disp u w i = b.disp u w i := by
  intro i
  induction i using Nat.strong_induction_on with
  | _ i ih =>
    intro hi
    rw [disp_rec h u w hi, disp_rec h' u w hi]
    have e : (b.setBase T).par = b.par := rfl
    rw [e]
    cases hpar : b.par i with
    | none => rfl
    | some p =>
      have hp := h.tree.parLt i hi p hpar
      simp only
      rw [ih p hp (hp.trans hi)]
      rfl

theorem discreteIntegrate_total (h : Inv E b) (tau : ℕ → ℝ) (dt : ℝ) (fext : FExt)
    (o : DIntOpts) : ∃ b', b.discreteIntegrate E tau dt fext o = .ok b' := by
  unfold discreteIntegrate
  simp only
  have k0 := (fd_same (b := b) (E := E) tau fext ⟨o.gravity, true, false, 0.01⟩)
  have k1 := fun u => k0.trans (discreteLoop_same (E := E) tau dt fext o o.maxIter (u, _))
  generalize hS : discreteLoop E tau dt fext o o.maxIter _ = s
  have k2 : b.Same s.2 := by rw [← hS]; exact k1 _
  obtain ⟨b1, h1⟩ := setQ_defined (b := s.2) (q := toVec b.dof s.1) (by simp [toVec, k2.dof])
  rw [h1]
  have hl : s.2.q.length = s.2.dof := (k2.stateOnly.tree h.tree).lq
  have hd : b1.dof = b.dof := by
    have := (setQ_stateOnly hl h1).rbs
    have e2 := k2.dof
    unfold Body.dof at e2 ⊢
    rw [this, e2]
  obtain ⟨b2, h2⟩ := setDq_defined (b := b1)
    (q := toVec b.dof fun i => (s.1 i - b1.c.drnea.qPrev i) / (2 * dt)) (by simp [toVec, hd])
  simp only [Out.bind]
  rw [h2]
  exact ⟨_, rfl⟩

end Body

open Body

/-- Along any history the discrete cache agrees with the previous configuration it fixes. -/
theorem DReach.dcoh {E : Ext} {b : Body} {d : Bool} {p : Prev} (h : DReach E b d p) :
    DCoh E b b.c.drnea p := by
  induction h with
  | init c => exact .none rfl
  | @step b b' d p op hr ho hs ht ih =>
    have hi := hr.reach.inv
    rcases Out.exec_cases hs with h1 | ⟨h1, rfl⟩
    · have hi' : Inv E b' := (hr.reach.step op ho hs).inv
      cases op with
      | addRigidBody rb q =>
        obtain ⟨⟨id, b1⟩, h2, rfl⟩ := Out.map_ok h1
        unfold addRigidBody at h2
        simp only at h2
        split at h2
        · cases h2
        · cases h2
          have : ¬ (b.q ++ [(0 : ℝ)] = b.q ∧ b.dq ++ [(0 : ℝ)] = b.dq) := fun e => by
            simpa using congrArg List.length e.1
          simp only [Op.prev]
          rw [if_neg this]
          exact .none rfl
      | setQ q =>
        have h2 : b.setQ q = .ok b' := h1
        simp only [Op.prev]
        unfold setQ at h2
        split at h2
        · cases h2
        · split at h2
          · cases h2; rw [if_pos ⟨rfl, rfl⟩]; exact ih
          · next hne =>
            cases h2
            rw [if_neg fun e => hne e.1.symm]
            exact .none rfl
      | setDq q =>
        have h2 : b.setDq q = .ok b' := h1
        simp only [Op.prev]
        unfold setDq at h2
        split at h2
        · cases h2
        · split at h2
          · cases h2; rw [if_pos ⟨rfl, rfl⟩]; exact ih
          · next hne =>
            cases h2
            rw [if_neg fun e => hne e.2.symm]
            exact .none rfl
      | setG g =>
        cases h1
        have : Op.prev b (b.setG g) p (.setG g) = p := if_pos ⟨rfl, rfl⟩
        rw [this]
        exact ⟨ih.valid, ih.conf, ih.prev⟩
      | addLoad I i =>
        cases h1
        have : Op.prev b (b.addLoad I i) p (.addLoad I i) = p := if_pos ⟨rfl, rfl⟩
        rw [this]
        exact ⟨ih.valid, ih.conf, fun e => (nomatch e)⟩
      | replaceLoad I i =>
        cases h1
        have : Op.prev b (b.replaceLoad I i) p (.replaceLoad I i) = p := if_pos ⟨rfl, rfl⟩
        rw [this]
        exact ⟨ih.valid, ih.conf, fun e => (nomatch e)⟩
      | clearLoad i =>
        cases h1
        have : Op.prev b (b.clearLoad i) p (.clearLoad i) = p := if_pos ⟨rfl, rfl⟩
        rw [this]
        exact ⟨ih.valid, ih.conf, fun e => (nomatch e)⟩
      | setBase T =>
        cases h1
        have : Op.prev b (b.setBase T) p (.setBase T) = p := if_pos ⟨rfl, rfl⟩
        rw [this]
        refine ⟨ih.valid, ih.conf, fun e t qp ep i hlt => ?_⟩
        have hd := disp_setBase hi hi' qp b.pos i hlt
        have := ih.prev e t qp ep i hlt
        have e2 : (b.setBase T).pos = b.pos := rfl
        rw [e2, hd]
        exact this
      | setInertiaBase I =>
        have h2 : b.setInertiaBase I = .ok b' := h1
        unfold setInertiaBase at h2
        split at h2
        · cases h2
        · cases h2
          simp only [Op.prev, and_self, if_true]
          exact ⟨ih.valid, ih.conf, ih.prev⟩
      | query x =>
        obtain ⟨r, hx, rfl⟩ := Out.map_ok h1
        by_cases hq : ∃ u dt f g, x = .discreteInverseDynamics u dt f g
        · obtain ⟨u, dt, f, g, rfl⟩ := hq
          cases hx
          exact (discreteID_run hi ih u dt f g).2.1.same (discreteID_same u dt f g)
        · have hsame := x.run_same hx
          have hkeep := x.run_keep (fun u dt f g e => hq ⟨u, dt, f, g, e⟩) hx
          have hp : Op.prev b r.2 p (.query x) = p := by
            have e1 : r.2.q = b.q := by unfold Same at hsame; rw [hsame]
            have e2 : r.2.dq = b.dq := by unfold Same at hsame; rw [hsame]
            cases x <;> first
              | exact absurd ⟨_, _, _, _, rfl⟩ hq
              | exact if_pos ⟨e1, e2⟩
          rw [hp]
          unfold KeepD at hkeep
          rw [hkeep]
          exact ih.same hsame
      | integrate t dt f o =>
        rcases integrate_forgets h1 with k | ⟨k1, k2, k3⟩
        · simp only [Op.prev]
          rw [if_neg fun e => ht.elim (fun hx => hx e.1) (fun hx => hx e.2)]
          exact .none k
        · exact absurd ht (by rintro (h | h); exacts [h k1, h k2])
      | discreteIntegrate t dt f o =>
        obtain ⟨k, hk, hA⟩ := ht
        classical
        have hex : ∃ k, b.Accepts E t dt f o (b.candidate E t dt f o.gravity k) := ⟨k, hA⟩
        exact (discreteIntegrate_run hi ih (lt_of_le_of_lt (Nat.find_min' hex hA) hk)
          (fun j hj => Nat.find_min hex hj) (Nat.find_spec hex) h1).2.2
    · have hp : ∀ u dt f o, op ≠ .discreteIntegrate u dt f o := by
        rintro u dt f o rfl
        obtain ⟨b1, e⟩ := discreteIntegrate_total hi u dt f o
        have : (b'.discreteIntegrate E u dt f o) = .throws := h1
        rw [e] at this
        cases this
      have hp2 : ∀ u dt f g, op ≠ .query (.discreteInverseDynamics u dt f g) := by
        rintro u dt f g rfl
        cases h1
      have : op.prev b' b' p = p := by
        cases op with
        | discreteIntegrate u dt f o => exact absurd rfl (hp u dt f o)
        | query x =>
          cases x <;> first
            | exact absurd rfl (hp2 _ _ _ _)
            | exact if_pos ⟨rfl, rfl⟩
        | _ => exact if_pos ⟨rfl, rfl⟩
      rw [this]
      exact ih

end SpatialDyn
