import Verif.Model.PyOpspace
import Verif.Props.OpsCache
import Verif.Lemmas.Control

/-!
# C100: prioritised tasks in Python
-/

namespace SpatialDyn
open Body Matrix

variable {E : Ext} {T : Set ℝ} {b : Body} {d : Bool}

/-- The keyword arguments of a call in Python. -/
structure PyTask where
  J : DMat
  ddx : ℕ → ℝ
  fext : FExt := noExt
  ext : Bool := false
  gravity : Bool := false
  cc : Bool := false
  friction : Bool := false
  svdEps : ℝ := 0
  stictionEps : ℝ := 0.01

/-- The C++ call the arguments stand for. -/
noncomputable def PyTask.task (t : PyTask) : Task :=
  ⟨t.J, t.ddx, t.fext, t.ext, OpsOpts.make t.gravity t.cc t.friction t.svdEps t.stictionEps⟩

/-- Only an acceleration is asked for. -/
def PyTask.Plain (t : PyTask) : Prop :=
  t.ext = false ∧ t.gravity = false ∧ t.cc = false ∧ t.friction = false

/-- The call in Python. -/
noncomputable def PyTask.call (E : Ext) (b : Body) (t : PyTask) (N : PyNull) :
    Out ((ℕ → ℝ) × PyNull × Body) :=
  b.pyOpsInverseDynamics E t.J t.ddx N t.fext t.ext t.gravity t.cc t.friction t.svdEps t.stictionEps

/-- Python calls one after the other with the same variable `N`; every torque is listed with its
task.  Each Jacobian is regular after projection with what `N` holds. -/
inductive PyStack (E : Ext) (T : Set ℝ) : Body → PyNull → List (PyTask × (ℕ → ℝ)) → Prop
  | nil (b : Body) (N : PyNull) : PyStack E T b N []
  | cons {b b' : Body} {own : Bool} {M : DMat} {N' : PyNull} {t : PyTask} {tau : ℕ → ℝ}
      {l : List (PyTask × (ℕ → ℝ))} (cols : t.J.cols = b.dof)
      (tol : t.svdEps ∈ T ∧ (t.cc = true → (0 : ℝ) ∈ T))
      (regular : b.Regular E T (if 0 < M.size then t.J.mul M else t.J))
      (call : t.call E b (.mat own M) = .ok (tau, N', b')) (rest : PyStack E T b' N' l) :
      PyStack E T b (.mat own M) ((t, tau) :: l)

/-- A successful call with a matrix. -/
theorem PyTask.call_mat {t : PyTask} {own : Bool} {M : DMat} {N' : PyNull} {tau : ℕ → ℝ} {b' : Body}
    (h : t.call E b (.mat own M) = .ok (tau, N', b')) : ∃ M',
      b.opsInverseDynamics E t.J t.ddx (some M) t.fext t.ext t.task.o = .ok (tau, some M', b') ∧
      N' = .mat own (if own then M' else M) ∧ M'.rows = M.rows ∧ M'.cols = M.cols := by
  unfold PyTask.call pyOpsInverseDynamics at h
  dsimp only at h
  obtain ⟨⟨tau1, N1, b1⟩, h1, h2⟩ := Out.bind_ok h
  cases N1 with
  | none => cases h2
  | some M' =>
    obtain ⟨_, h3, h4⟩ := Out.bind_ok h2
    cases h4
    refine ⟨M', h1, rfl, ?_⟩
    unfold Out.need at h3
    split at h3
    · assumption
    · cases h3

/-- C100: without `N`, or with a number, the function computes the torques of the C++ function without
a nullspace. -/
theorem C100_no_nullspace (t : PyTask) (b : Body) :
    (t.call E b .scalar).map (fun r => (r.1, r.2.2)) =
      (b.opsInverseDynamics E t.J t.ddx none t.fext t.ext t.task.o).map fun r => (r.1, r.2.2) := by
  unfold PyTask.call pyOpsInverseDynamics
  dsimp only
  show Out.map _ (Out.bind (b.opsInverseDynamics E t.J t.ddx none t.fext t.ext t.task.o) _) = _
  cases b.opsInverseDynamics E t.J t.ddx none t.fext t.ext t.task.o <;> rfl

/-- C100: an array of one or of three dimensions is refused before anything is computed. -/
theorem C100_dimensions (t : PyTask) (b : Body) : t.call E b .other = .throws := rfl

/-- C100: with a matrix the torques are those of the C++ function; an array of doubles holds the
updated nullspace matrix afterwards, any other object is left as it was. -/
theorem C100_update {t : PyTask} {own : Bool} {M : DMat} {N' : PyNull} {tau : ℕ → ℝ} {b' : Body}
    (h : t.call E b (.mat own M) = .ok (tau, N', b')) : ∃ M',
      b.opsInverseDynamics E t.J t.ddx (some M) t.fext t.ext t.task.o = .ok (tau, some M', b') ∧
      (own = true → N' = .mat true M') ∧ (own = false → N' = .mat false M) := by
  obtain ⟨M', h1, h2, -, -⟩ := PyTask.call_mat h
  refine ⟨M', h1, ?_, ?_⟩ <;> (rintro rfl; exact h2)

/-- C100: the empty array, which C++ callers start with, cannot be used from Python: the call is never
completed. -/
theorem C100_empty (h : Reach E b d) (hd : 0 < b.dof) (t : PyTask) {own : Bool} {M : DMat}
    (hM : M.size = 0) {r : (ℕ → ℝ) × PyNull × Body} : t.call E b (.mat own M) ≠ .ok r := by
  intro hc
  obtain ⟨tau, N', b'⟩ := r
  obtain ⟨M', h1, -, h3, h4⟩ := PyTask.call_mat hc
  obtain ⟨l, s1, s2, s3, s4, -, -, -, -, -, hNu, -, k0, k1, k2, k3, k4, k5⟩ :=
    opsInverseDynamics_parts h.inv h1
  obtain ⟨s, -, hNu⟩ := Out.bind_ok hNu
  obtain ⟨-, -, hNu⟩ := Out.bind_ok hNu
  simp only [if_pos hM, Out.ok.injEq, Prod.mk.injEq, Option.some.injEq] at hNu
  have e1 : M'.rows = b.dof := by rw [← hNu.1]; exact k4.dof_eq
  have e2 : M'.cols = b.dof := by rw [← hNu.1]; exact k4.dof_eq
  unfold DMat.size at hM
  rw [← h3, ← h4, e1, e2] at hM
  rcases Nat.mul_eq_zero.1 hM with h0 | h0 <;> omega

/-- A stack of calls with an array of doubles is a stack of C++ calls. -/
theorem PyStack.prioritised {b' : Body} {N : PyNull} {l : List (PyTask × (ℕ → ℝ))}
    (h : PyStack E T b' N l) : ∀ M, N = .mat true M →
      Prioritised E T b' M (l.map fun p => (p.1.task, p.2)) := by
  induction h with
  | nil b N => intro M _; exact .nil _ _
  | @cons b b' own M1 N' t tau l cols tol regular call rest ih =>
    intro M hM
    cases hM
    obtain ⟨M', h1, h2, -, -⟩ := PyTask.call_mat call
    exact .cons cols tol regular h1 (ih M' h2)

/-- C100: in Python, tasks solved one after the other with `N = np.eye(ab.dof)`: the torques of a task
cause no acceleration of any earlier task, and exactly the requested acceleration of their own. -/
theorem C100_priorities (h : Careful E T b d) (hm : b.Massive)
    (hn : DefiniteForm b.dof b.inertia.1) {l : List (PyTask × (ℕ → ℝ))}
    (hp : PyStack E T b (.mat true (DMat.id b.dof)) l) (tau0 : ℕ → ℝ) (fext : FExt)
    (q : FDOpts) (hq : q.friction = false) :
    (l.Pairwise fun p p' => p.1.J.mat p.1.J.rows b.dof *ᵥ b.effect E tau0 fext q p'.2 = 0) ∧
    ∀ p ∈ l, p.1.Plain →
      p.1.J.mat p.1.J.rows b.dof *ᵥ b.effect E tau0 fext q p.2 = vec p.1.J.rows p.1.ddx := by
  obtain ⟨-, h2, h3⟩ := prioritised_aux h hm hn (hp.prioritised _ rfl) (Step.refl h.inv) h.tol
    (NM := (1 : Matrix (Fin b.dof) (Fin b.dof) ℝ)) (id_nullIs _) (Projector.one _)
  constructor
  · refine (List.pairwise_map.1 h3).imp fun {p p'} h' => ?_
    rw [effect_eq h.reach hm hn _ _ _ hq]
    exact h'
  · intro p hp hpl
    rw [effect_eq h.reach hm hn _ _ _ hq]
    exact h2 (p.1.task, p.2) (List.mem_map_of_mem (f := fun p => (p.1.task, p.2)) hp)
      ⟨hpl.1, hpl.2.1, hpl.2.2.1, hpl.2.2.2, le_rfl⟩

/-- Negation of C100 for objects that are converted (`np.eye(n, dtype=int)`, a list of lists): the
update is lost, so every task is solved as if it were alone, and it accelerates an earlier task with
the same Jacobian as it asked for itself. -/
theorem C100_converted (h : Careful E T b d) (hm : b.Massive)
    (hn : DefiniteForm b.dof b.inertia.1) {l : List (PyTask × (ℕ → ℝ))}
    (hp : PyStack E T b (.mat false (DMat.id b.dof)) l) (tau0 : ℕ → ℝ) (fext : FExt)
    (q : FDOpts) (hq : q.friction = false) :
    ∀ p ∈ l, p.1.Plain →
      p.1.J.mat p.1.J.rows b.dof *ᵥ b.effect E tau0 fext q p.2 = vec p.1.J.rows p.1.ddx := by
  have key : ∀ {b' : Body} {N : PyNull} {l : List (PyTask × (ℕ → ℝ))}, PyStack E T b' N l →
      N = .mat false (DMat.id b.dof) → Step E b b' → TolC E T b'.c.ops → ∀ p ∈ l, p.1.Plain →
      p.1.J.mat p.1.J.rows b.dof *ᵥ b.massM⁻¹ *ᵥ vec b.dof p.2 = vec p.1.J.rows p.1.ddx := by
    intro b' N l hp
    induction hp with
    | nil b' N => simp
    | @cons b' b'' own M1 N' t tau l cols tol regular call rest ih =>
      intro hM hs ht p hp hpl
      cases hM
      obtain ⟨M', h1, h2, -, -⟩ := PyTask.call_mat call
      have hs' := (opsInverseDynamics_parts (h.inv.step hs) h1)
      obtain ⟨i1, i2, -⟩ := prioritised_aux h hm hn
        (.cons (t := t.task) cols tol regular h1 (.nil _ _)) hs ht
        (NM := (1 : Matrix (Fin b.dof) (Fin b.dof) ℝ)) (id_nullIs _) (Projector.one _)
      rcases List.mem_cons.1 hp with rfl | hp
      · exact i2 _ (List.mem_singleton.2 rfl)
          ⟨hpl.1, hpl.2.1, hpl.2.2.1, hpl.2.2.2, le_rfl⟩
      · obtain ⟨l0, s1, s2, s3, s4, -, -, -, -, -, -, -, -, -, -, -, -, k5⟩ := hs'
        exact ih h2 (hs.trans k5) (opsInverseDynamics_tol (h.inv.step hs) ht tol.1 tol.2 h1) p hp hpl
  intro p hpm hpl
  rw [effect_eq h.reach hm hn _ _ _ hq]
  exact key hp rfl (Step.refl h.inv) h.tol p hpm hpl

/-- A task of the witness in Python. -/
noncomputable def demoPy (k : ℕ) (a : ℝ) : PyTask :=
  { J := (demoTask k a).J, ddx := (demoTask k a).ddx }

theorem PyTask.call_of {t : PyTask} {own : Bool} {M M' : DMat} {tau : ℕ → ℝ} {b' : Body}
    (h : b.opsInverseDynamics E t.J t.ddx (some M) t.fext t.ext t.task.o = .ok (tau, some M', b'))
    (hr : M'.rows = M.rows) (hc : M'.cols = M.cols) :
    t.call E b (.mat own M) = .ok (tau, .mat own (if own then M' else M), b') := by
  unfold PyTask.call pyOpsInverseDynamics
  dsimp only
  change b.opsInverseDynamics E t.J t.ddx (some M) t.fext t.ext
    (OpsOpts.make t.gravity t.cc t.friction t.svdEps t.stictionEps) = _ at h
  rw [h]
  simp [Out.bind, Out.need, hr, hc]

/-- One call on `demo` with the identity, and where it leads. -/
theorem demoPy_first {b : Body} (h : Careful ext0 Set.univ demo d) (hs : Step ext0 demo b)
    (ht : TolC ext0 Set.univ b.c.ops) (own : Bool) (a : ℝ) :
    ∃ tau M' b', (demoPy 0 a).call ext0 b (.mat own (DMat.id 3)) =
        .ok (tau, .mat own (if own then M' else DMat.id 3), b') ∧
      b.Regular ext0 Set.univ (if 0 < (DMat.id 3).size then (demoPy 0 a).J.mul (DMat.id 3)
        else (demoPy 0 a).J) ∧
      Step ext0 demo b' ∧ TolC ext0 Set.univ b'.c.ops ∧
      NullIs M' (1 - dynInv demo.massM⁻¹ ((demoTask 0 a).J.mat 1 demo.dof) *
        (demoTask 0 a).J.mat 1 demo.dof) ∧
      M'.Is (1 - dynInv demo.massM⁻¹ ((demoTask 0 a).J.mat 1 demo.dof) *
        (demoTask 0 a).J.mat 1 demo.dof) := by
  have hn := demo_definite.form h.reach
  have hdof : demo.dof = 3 := rfl
  have hI : NullIs (DMat.id 3) (1 : Matrix (Fin demo.dof) (Fin demo.dof) ℝ) := id_nullIs 3
  have hJ : (demoTask 0 a).J.Is ((demoTask 0 a).J.mat 1 demo.dof) := ⟨rfl, rfl, fun _ _ => rfl⟩
  have hX0 : (demo.taskInv ((demoTask 0 a).J.mat 1 demo.dof)).det ≠ 0 :=
    C35_regular h.reach demo_definite fun v hv =>
      demoTask_ind (k := 1) (k' := 0) 0 a (by norm_num) (by norm_num) v 0
        (by rw [hv, Matrix.mulVec_zero])
  obtain ⟨t1, N1, b1, c1⟩ := opsInverseDynamics_total (h.inv.step hs) (J := (demoPy 0 a).J)
    (N := DMat.id 3) (by rw [hs.dof_eq]; rfl) (.inr ⟨by rw [hs.dof_eq]; rfl, by rw [hs.dof_eq]; rfl⟩)
    (by rw [hs.dof_eq, hdof]; norm_num) (demoPy 0 a).ddx (demoPy 0 a).fext
    (o := (demoPy 0 a).task.o) rfl rfl rfl
  obtain ⟨-, ⟨N1', e1, e2, e3⟩, st, tl⟩ := opsInverseDynamics_is (T := Set.univ) h.inv
    hs ht hn.mat hJ hI (fun e _ => ext0_exact _ e) trivial (fun _ => trivial) c1
  cases e1
  rw [Matrix.mul_one, Matrix.mul_one] at e2 e3
  have hK := hI.jx hJ
  rw [Matrix.mul_one] at hK
  exact ⟨t1, N1, b1, PyTask.call_of c1 e2.rows e2.cols,
    Regular.of_is h.inv hs hK hX0 fun e _ => ext0_exact _ e, st, tl, e3, e2⟩

/-- The hypotheses of `C100_priorities` hold: two tasks on the branching body in motion. -/
example : ∃ (d : Bool) (l : List (PyTask × (ℕ → ℝ))), Careful ext0 Set.univ demo d ∧ demo.Massive ∧
    DefiniteForm demo.dof demo.inertia.1 ∧ l.length = 2 ∧ (∀ p ∈ l, p.1.Plain) ∧
    PyStack ext0 Set.univ demo (.mat true (DMat.id demo.dof)) l := by
  obtain ⟨d, h⟩ := demo_reach ext0
  obtain ⟨t1, N1, b1, c1, r1, st, tl, e3, e2⟩ := demoPy_first h.careful (Step.refl h.inv)
    h.careful.tol true 5
  have hJ : (demoTask 1 7).J.Is ((demoTask 1 7).J.mat 1 demo.dof) := ⟨rfl, rfl, fun _ _ => rfl⟩
  have hn := demo_definite.form h
  have hX1 : (demo.taskInv ((demoTask 1 7).J.mat 1 demo.dof *
      (1 - dynInv demo.massM⁻¹ ((demoTask 0 5).J.mat 1 demo.dof) *
        (demoTask 0 5).J.mat 1 demo.dof))).det ≠ 0 :=
    C36_regular h demo_definite fun v w => demoTask_ind 5 7 (by norm_num) (by norm_num) v w
  have hK := e3.jx hJ
  have hdof : demo.dof = 3 := rfl
  obtain ⟨t2, N2, b2, c2⟩ := opsInverseDynamics_total (h.inv.step st) (J := (demoPy 1 7).J)
    (N := N1) (by rw [st.dof_eq]; rfl)
    (.inr ⟨by rw [e2.rows, st.dof_eq], by rw [e2.cols, st.dof_eq]⟩)
    (by rw [st.dof_eq, hdof]; norm_num) (demoPy 1 7).ddx (demoPy 1 7).fext
    (o := (demoPy 1 7).task.o) rfl rfl rfl
  obtain ⟨-, ⟨N2', e1, e4, -⟩, -, -⟩ := opsInverseDynamics_is (T := Set.univ) h.inv
    st tl hn.mat hJ e3 (fun e _ => ext0_exact _ e) trivial (fun _ => trivial) c2
  cases e1
  refine ⟨d, [(demoPy 0 5, t1), (demoPy 1 7, t2)], h.careful, demo_definite.massive h.inv.tree, hn,
    rfl, ?_, .cons rfl ⟨trivial, fun _ => trivial⟩ r1 c1 (.cons (by rw [st.dof_eq]; rfl)
      ⟨trivial, fun _ => trivial⟩ (Regular.of_is h.inv st hK hX1 fun e _ => ext0_exact _ e)
      (PyTask.call_of c2 (e4.rows.trans e2.rows.symm) (e4.cols.trans e2.cols.symm)) (.nil _ _))⟩
  intro p hp
  simp only [List.mem_cons, List.not_mem_nil, or_false] at hp
  rcases hp with rfl | rfl <;> exact ⟨rfl, rfl, rfl, rfl⟩

/-- Negation of C100, concrete: two tasks on the first joint of the branching body, asking for 5 and
then for 7, with `N = np.eye(3, dtype=int)`.  The second one, of lower priority, accelerates the joint
by 7 on top of the first. -/
theorem C100_violated : ∃ (d : Bool) (t1 t2 : ℕ → ℝ), Careful ext0 Set.univ demo d ∧
    PyStack ext0 Set.univ demo (.mat false (DMat.id demo.dof))
      [(demoPy 0 5, t1), (demoPy 0 7, t2)] ∧
    ∀ tau0 fext (q : FDOpts), q.friction = false →
      (demoPy 0 5).J.mat 1 demo.dof *ᵥ demo.effect ext0 tau0 fext q t2 = fun _ => 7 := by
  obtain ⟨d, h⟩ := demo_reach ext0
  obtain ⟨t1, N1, b1, c1, r1, st, tl, -, -⟩ := demoPy_first h.careful (Step.refl h.inv)
    h.careful.tol false 5
  obtain ⟨t2, N2, b2, c2, r2, -, -, -, -⟩ := demoPy_first h.careful st tl false 7
  have hp : PyStack ext0 Set.univ demo (.mat false (DMat.id demo.dof))
      [(demoPy 0 5, t1), (demoPy 0 7, t2)] :=
    .cons rfl ⟨trivial, fun _ => trivial⟩ r1 c1 (.cons (by rw [st.dof_eq]; rfl)
      ⟨trivial, fun _ => trivial⟩ r2 c2 (.nil _ _))
  refine ⟨d, t1, t2, h.careful, hp, fun tau0 fext q hq => ?_⟩
  exact C100_converted h.careful (demo_definite.massive h.inv.tree) (demo_definite.form h) hp
    tau0 fext q hq (demoPy 0 7, t2) (by simp) ⟨rfl, rfl, rfl, rfl⟩

end SpatialDyn
