import Verif.Props.LeastConstraint
import Verif.Props.OpsCache

/-! C124: what operational space control leaves free, it leaves to the robot. -/

namespace SpatialDyn
open Finset Matrix Body

variable {E : Ext} {b : Body} {d : Bool} {T : Set ℝ}

theorem gap_eq (b : Body) (x y : ℕ → ℝ) :
    b.gap x y = (vec b.dof x - vec b.dof y) ⬝ᵥ b.massM *ᵥ (vec b.dof x - vec b.dof y) := by
  unfold Body.gap dotProduct Matrix.mulVec dotProduct
  rw [← Fin.sum_univ_eq_sum_range fun i => ∑ j ∈ range b.dof, (x i - y i) * b.inertia.1 i j * (x j - y j)]
  refine sum_congr rfl fun i _ => ?_
  rw [← Fin.sum_univ_eq_sum_range fun j => (x i - y i) * b.inertia.1 i j * (x j - y j), mul_sum]
  refine sum_congr rfl fun j _ => ?_
  show _ = (x i - y i) * (b.inertia.1 i j * (x j - y j))
  ring

theorem gap_self (b : Body) (x y : ℕ → ℝ) (h : ∀ i < b.dof, x i = y i) : b.gap x y = 0 :=
  sum_eq_zero fun i hi => sum_eq_zero fun j _ => by rw [h i (mem_range.1 hi)]; ring

theorem gap_pos (h : Reach E b d) (hd : b.Definite) {x y : ℕ → ℝ} (hne : ∃ i < b.dof, x i ≠ y i) : 0 < b.gap x y := by
  obtain ⟨i, hi, hne⟩ := hne
  exact C24_positive_definite h hd (fun i => x i - y i) ⟨i, hi, sub_ne_zero.2 hne⟩

theorem gap_nonneg (h : Reach E b d) (hd : b.Definite) (x y : ℕ → ℝ) : 0 ≤ b.gap x y := by
  by_cases hne : ∃ i < b.dof, x i ≠ y i
  · exact (gap_pos h hd hne).le
  · push Not at hne
    exact (gap_self b x y hne).ge

/-- Pythagoras in the metric of the inertia. -/
theorem gap_split (h : Reach E b d) (hm : b.Massive) {f w w' : ℕ → ℝ}
    (ho : (vec b.dof w' - vec b.dof w) ⬝ᵥ b.massM *ᵥ (vec b.dof w - vec b.dof f) = 0) :
    b.gap w' f = b.gap w f + b.gap w' w := by
  have hs := massM_symm h hm
  have ho' : (vec b.dof w - vec b.dof f) ⬝ᵥ b.massM *ᵥ (vec b.dof w' - vec b.dof w) = 0 := by
    rw [Matrix.dotProduct_mulVec, ← Matrix.mulVec_transpose, hs, dotProduct_comm]
    exact ho
  rw [gap_eq, gap_eq, gap_eq]
  have e : vec b.dof w' - vec b.dof f = (vec b.dof w - vec b.dof f) + (vec b.dof w' - vec b.dof w) := by abel
  rw [e, Matrix.mulVec_add, add_dotProduct, dotProduct_add, dotProduct_add, ho, ho']
  ring

theorem least_of_split (h : Reach E b d) (hd : b.Definite) {f w w' : ℕ → ℝ}
    (hs : b.gap w' f = b.gap w f + b.gap w' w) :
    b.gap w f ≤ b.gap w' f ∧ ((∃ i < b.dof, w' i ≠ w i) → b.gap w f < b.gap w' f) := by
  rw [hs]
  exact ⟨by linarith [gap_nonneg h hd w' w], fun hne => by linarith [gap_pos h hd hne]⟩

theorem sameTask_is {J : DMat} {m : ℕ} {JM : Matrix (Fin m) (Fin b.dof) ℝ} (hJ : J.Is JM) {x y : ℕ → ℝ}
    (hs : J.SameTask x y) : JM *ᵥ (vec b.dof x - vec b.dof y) = 0 := by
  funext i
  have := hs i (by rw [hJ.rows]; exact i.2)
  rw [Matrix.mulVec_sub, Pi.sub_apply]
  exact sub_eq_zero.2 ((hJ.mulVec x i).symm.trans (this.trans (hJ.mulVec y i)))

theorem orth_of (h : Reach E b d) (hm : b.Massive) (hn : DefiniteForm b.dof b.inertia.1) {tau0 tau w' : ℕ → ℝ}
    {fext : FExt} {q : FDOpts} (hq : q.friction = false)
    (ho : vec b.dof tau ⬝ᵥ (vec b.dof w' - vec b.dof (b.fd E (fun i => tau0 i + tau i) fext q).1) = 0) :
    (vec b.dof w' - vec b.dof (b.fd E (fun i => tau0 i + tau i) fext q).1) ⬝ᵥ
      b.massM *ᵥ (vec b.dof (b.fd E (fun i => tau0 i + tau i) fext q).1 - vec b.dof (b.fd E tau0 fext q).1) = 0 := by
  have hd : PosMat b.massM := hn.mat
  have e := effect_eq h hm hn tau0 fext q hq tau
  unfold Body.effect at e
  rw [e, Matrix.mulVec_mulVec, Matrix.mul_nonsing_inv _ (Ne.isUnit hd.det_ne), Matrix.one_mulVec, dotProduct_comm]
  exact ho

/-- C124: whatever the options of `opspace::InverseDynamics`, the torques it returns change the accelerations
of the robot as little as the acceleration of the task allows: of all joint accelerations with the same task
acceleration, the resulting ones are the closest to those without these torques. -/
theorem C124_task (h : Reach E b d) (hd : b.Definite) {J : DMat} (hJ : J.cols = b.dof) {ddx : ℕ → ℝ}
    {N : Option DMat} (hN : ∀ M, N = some M → M.size = 0) {fext : FExt} {se : Bool} {o : OpsOpts}
    {r : (ℕ → ℝ) × Option DMat × Body} (hr : b.opsInverseDynamics E J ddx N fext se o = .ok r)
    (tau0 : ℕ → ℝ) (f : FExt) (q : FDOpts) (hq : q.friction = false) (w' : ℕ → ℝ)
    (hw : J.SameTask w' (b.fd E (fun i => tau0 i + r.1 i) f q).1) :
    b.gap (b.fd E (fun i => tau0 i + r.1 i) f q).1 (b.fd E tau0 f q).1 ≤ b.gap w' (b.fd E tau0 f q).1 ∧
    ((∃ i < b.dof, w' i ≠ (b.fd E (fun i => tau0 i + r.1 i) f q).1 i) →
      b.gap (b.fd E (fun i => tau0 i + r.1 i) f q).1 (b.fd E tau0 f q).1 < b.gap w' (b.fd E tau0 f q).1) := by
  have hm := hd.massive h.inv.tree
  have hn := hd.form h
  have hJI : J.Is (J.mat J.rows b.dof) := ⟨rfl, hJ, fun _ _ => rfl⟩
  obtain ⟨l, s1, s2, s3, s4, -, -, -, -, -, -, hr1, -⟩ := opsInverseDynamics_parts h.inv hr
  have hK : opsJx J N = J := by
    unfold opsJx
    cases N with
    | none => rfl
    | some M => simp only [hN M rfl, lt_irrefl, if_false]
  rw [hK] at hr1
  refine least_of_split h hd (gap_split h hm (orth_of h hm hn hq ?_))
  have := sameTask_is hJI hw
  rw [hr1] at this ⊢
  rw [vec_mulVec_tr hJI, dotProduct_comm, Matrix.dotProduct_mulVec, Matrix.vecMul_transpose, this,
    zero_dotProduct]

theorem stack_silent (h : Careful E T b d) (hn : DefiniteForm b.dof b.inertia.1) {b' : Body} {N : DMat}
    {l : List (Task × (ℕ → ℝ))} (hp : Prioritised E T b' N l) (hs : Step E b b') (ht : TolC E T b'.c.ops)
    {NM : Matrix (Fin b.dof) (Fin b.dof) ℝ} (hN : NullIs N NM) {u : Fin b.dof → ℝ} (hu : NM *ᵥ u = u)
    (hl : ∀ p ∈ l, p.1.J.mat p.1.J.rows b.dof *ᵥ u = 0) : ∀ p ∈ l, vec b.dof p.2 ⬝ᵥ u = 0 := by
  have hd : PosMat b.massM := hn.mat
  induction hp generalizing NM with
  | nil b' N => simp
  | @cons b' b'' N N' t tau l cols tol regular call rest ih =>
    have hJ : t.J.Is (t.J.mat t.J.rows b.dof) := ⟨rfl, cols.trans hs.dof_eq, fun _ _ => rfl⟩
    set JM := t.J.mat t.J.rows b.dof with hJM
    have hK := hN.jx hJ
    obtain ⟨-, hE⟩ := (regular.step h.inv hs).is hK
    obtain ⟨⟨F, hF, -⟩, ⟨N1, e1, -, e3⟩, hs', ht'⟩ :=
      opsInverseDynamics_is h.inv hs ht hd hJ hN hE tol.1 tol.2 call
    cases e1
    have h0 : JM *ᵥ u = 0 := hl _ List.mem_cons_self
    have hKu : (JM * NM) *ᵥ u = 0 := by rw [← Matrix.mulVec_mulVec, hu, h0]
    intro p hp
    rcases List.mem_cons.1 hp with rfl | hp
    · rw [hF, dotProduct_comm, Matrix.dotProduct_mulVec, Matrix.vecMul_transpose, hKu, zero_dotProduct]
    · refine ih hs' ht' e3 ?_ (fun p hp => hl p (List.mem_cons_of_mem _ hp)) p hp
      rw [← Matrix.mulVec_mulVec, hu, Matrix.sub_mulVec, Matrix.one_mulVec, ← Matrix.mulVec_mulVec, hKu,
        Matrix.mulVec_zero, sub_zero]

theorem sum_silent {n : ℕ} {u : Fin n → ℝ} {l : List (Task × (ℕ → ℝ))} (h : ∀ p ∈ l, vec n p.2 ⬝ᵥ u = 0) :
    vec n (fun i => (l.map fun p => p.2 i).sum) ⬝ᵥ u = 0 := by
  induction l with
  | nil => simp [vec, dotProduct]
  | cons p l ih =>
    have e : vec n (fun i => ((p :: l).map fun p => p.2 i).sum) =
        vec n p.2 + vec n (fun i => (l.map fun p => p.2 i).sum) := by
      funext i
      simp [vec]
    rw [e, add_dotProduct, h p List.mem_cons_self, ih fun p hp => h p (List.mem_cons_of_mem _ hp), add_zero]

theorem prioritised_cols (h : Careful E T b d) {b' : Body} {N : DMat}
    {l : List (Task × (ℕ → ℝ))} (hp : Prioritised E T b' N l) (hs : Step E b b') : ∀ p ∈ l, p.1.J.cols = b.dof := by
  induction hp with
  | nil => simp
  | @cons b' b'' N N' t tau l cols tol regular call rest ih =>
    intro p hp
    rcases List.mem_cons.1 hp with rfl | hp
    · exact cols.trans hs.dof_eq
    · obtain ⟨l, s1, s2, s3, s4, -, -, -, -, -, -, -, -, -, -, -, -, k5⟩ :=
        opsInverseDynamics_parts (h.inv.step hs) call
      exact ih (hs.trans k5) p hp

/-- C124: so do the torques of a stack of tasks of any height: of all joint accelerations that give every
task of the stack the same acceleration, the resulting ones are the closest to those without the stack. -/
theorem C124_stack (h : Careful E T b d) (hd : b.Definite) {N : DMat} (hN : N.size = 0)
    {l : List (Task × (ℕ → ℝ))} (hp : Prioritised E T b N l) (tau0 : ℕ → ℝ) (f : FExt) (q : FDOpts)
    (hq : q.friction = false) {tau w w' : ℕ → ℝ} (ht : tau = fun i => (l.map fun p => p.2 i).sum)
    (hw : w = (b.fd E (fun i => tau0 i + tau i) f q).1) (hs : ∀ p ∈ l, p.1.J.SameTask w' w) :
    b.gap w (b.fd E tau0 f q).1 ≤ b.gap w' (b.fd E tau0 f q).1 ∧
    ((∃ i < b.dof, w' i ≠ w i) → b.gap w (b.fd E tau0 f q).1 < b.gap w' (b.fd E tau0 f q).1) := by
  have hm := hd.massive h.inv.tree
  have hn := hd.form h.reach
  have hc := prioritised_cols h hp (Step.refl h.inv)
  have h1 := stack_silent h hn hp (Step.refl h.inv) h.tol (NM := 1) (.inl ⟨hN, rfl⟩)
    (Matrix.one_mulVec (vec b.dof w' - vec b.dof w))
    (fun p hp => sameTask_is ⟨rfl, hc p hp, fun _ _ => rfl⟩ (hs p hp))
  have h2 := sum_silent h1
  rw [← ht] at h2
  subst hw
  exact least_of_split h.reach hd (gap_split h.reach hm (orth_of h.reach hm hn hq h2))

/-- C124: `JacobianDynamicInverse` turns a task velocity into the joint velocities of least kinetic energy
that have it. -/
theorem C124_velocity (h : Careful E T b d) (hd : b.Definite) {J : DMat} (hJ : b.Regular E T J) {eps : ℝ}
    (he : eps ∈ T) {r : DMat × Body} (hr : b.opsJbar E J eps = .ok r) (dx : ℕ → ℝ) :
    (∀ i < J.rows, ∑ j ∈ range J.cols, J.e i j * r.1.mulVec dx j = dx i) ∧
    ∀ w' : ℕ → ℝ, (∀ i < J.rows, ∑ j ∈ range J.cols, J.e i j * w' j = dx i) →
      b.gap (r.1.mulVec dx) 0 ≤ b.gap w' 0 ∧
      ((∃ i < b.dof, w' i ≠ r.1.mulVec dx i) → b.gap (r.1.mulVec dx) 0 < b.gap w' 0) := by
  have hm := hd.massive h.inv.tree
  have hn := hd.form h.reach
  have hdet : PosMat b.massM := hn.mat
  obtain ⟨hc, hX, hE⟩ := id hJ
  have hJI : J.Is (J.mat J.rows b.dof) := ⟨rfl, hc, fun _ _ => rfl⟩
  set JM := J.mat J.rows b.dof with hJM
  have hK := opsJbar_is h.inv h.tol hdet hJI he hE hr
  have hv : vec b.dof (r.1.mulVec dx) = (b.massM⁻¹ * JMᵀ * (b.taskInv JM)⁻¹) *ᵥ vec J.rows dx := by
    funext i
    exact hK.mulVec dx i
  have h1 : ∀ i < J.rows, ∑ j ∈ range J.cols, J.e i j * r.1.mulVec dx j = dx i := by
    intro i hi
    have e : JM *ᵥ vec b.dof (r.1.mulVec dx) = vec J.rows dx := by
      rw [hv, Matrix.mulVec_mulVec, ← Matrix.mul_assoc, ← Matrix.mul_assoc]
      show (b.taskInv JM * (b.taskInv JM)⁻¹) *ᵥ _ = _
      rw [Matrix.mul_nonsing_inv _ (Ne.isUnit hX), Matrix.one_mulVec]
    exact (hJI.mulVec (r.1.mulVec dx) ⟨i, hi⟩).trans (congrFun e ⟨i, hi⟩)
  refine ⟨h1, fun w' hw => least_of_split h.reach hd (gap_split h.reach hm ?_)⟩
  have h2 := sameTask_is hJI (x := w') (y := r.1.mulVec dx) fun i hi => (hw i hi).trans (h1 i hi).symm
  have e : b.massM *ᵥ (vec b.dof (r.1.mulVec dx) - vec b.dof 0) =
      JMᵀ *ᵥ ((b.taskInv JM)⁻¹ *ᵥ vec J.rows dx) := by
    have : vec b.dof (0 : ℕ → ℝ) = 0 := rfl
    rw [this, sub_zero, hv, Matrix.mulVec_mulVec, Matrix.mulVec_mulVec, ← Matrix.mul_assoc, ← Matrix.mul_assoc,
      Matrix.mul_nonsing_inv _ (Ne.isUnit hdet.det_ne), Matrix.one_mul]
  rw [e, Matrix.dotProduct_mulVec, Matrix.vecMul_transpose, h2, zero_dotProduct]

/-- C124: that least energy is what `opspace::Inertia` says it is. -/
theorem C124_inertia (h : Careful E T b d) (hd : b.Definite) {J : DMat} (hJ : b.Regular E T J) {eps eps' : ℝ}
    (he : eps ∈ T) (he' : eps' ∈ T) {r r' : DMat × Body} (hr : b.opsJbar E J eps = .ok r)
    (hr' : b.opsInertia E J eps' = .ok r') (dx : ℕ → ℝ) :
    b.gap (r.1.mulVec dx) 0 = ∑ i ∈ range J.rows, ∑ j ∈ range J.rows, dx i * r'.1.e i j * dx j := by
  have hm := hd.massive h.inv.tree
  have hn := hd.form h.reach
  have hdet : PosMat b.massM := hn.mat
  obtain ⟨hc, hX, hE⟩ := id hJ
  have hJI : J.Is (J.mat J.rows b.dof) := ⟨rfl, hc, fun _ _ => rfl⟩
  set JM := J.mat J.rows b.dof with hJM
  have hK := opsJbar_is h.inv h.tol hdet hJI he hE hr
  have hL := opsInertia_is h.inv hdet hJI (hE _ he') hr'
  have hv : vec b.dof (r.1.mulVec dx) = (b.massM⁻¹ * JMᵀ * (b.taskInv JM)⁻¹) *ᵥ vec J.rows dx := by
    funext i
    exact hK.mulVec dx i
  have e1 : JM *ᵥ vec b.dof (r.1.mulVec dx) = vec J.rows dx := by
    rw [hv, Matrix.mulVec_mulVec, ← Matrix.mul_assoc, ← Matrix.mul_assoc]
    show (b.taskInv JM * (b.taskInv JM)⁻¹) *ᵥ _ = _
    rw [Matrix.mul_nonsing_inv _ (Ne.isUnit hX), Matrix.one_mulVec]
  have e2 : b.massM *ᵥ vec b.dof (r.1.mulVec dx) = JMᵀ *ᵥ ((b.taskInv JM)⁻¹ *ᵥ vec J.rows dx) := by
    rw [hv, Matrix.mulVec_mulVec, Matrix.mulVec_mulVec, ← Matrix.mul_assoc, ← Matrix.mul_assoc,
      Matrix.mul_nonsing_inv _ (Ne.isUnit hdet.det_ne), Matrix.one_mul]
  rw [gap_eq, show vec b.dof (0 : ℕ → ℝ) = 0 from rfl, sub_zero, e2, Matrix.dotProduct_mulVec,
    Matrix.vecMul_transpose, e1]
  unfold dotProduct Matrix.mulVec dotProduct
  rw [← Fin.sum_univ_eq_sum_range fun i => ∑ j ∈ range J.rows, dx i * r'.1.e i j * dx j]
  refine sum_congr rfl fun i _ => ?_
  rw [← Fin.sum_univ_eq_sum_range fun j => dx i * r'.1.e i j * dx j, mul_sum]
  refine sum_congr rfl fun j _ => ?_
  rw [hL.e i j]
  show dx i * (_ * dx j) = _
  ring

/-- The hypotheses of the theorems above hold: the branching body with two prioritised tasks, and joint
accelerations that differ from the resulting ones in the joint that no task uses. -/
example (tau0 : ℕ → ℝ) (f : FExt) (q : FDOpts) : ∃ (d : Bool) (N : DMat) (l : List (Task × (ℕ → ℝ)))
    (tau w w' : ℕ → ℝ), Careful ext0 Set.univ demo d ∧ demo.Definite ∧ N.size = 0 ∧ l.length = 2 ∧
    Prioritised ext0 Set.univ demo N l ∧ tau = (fun i => (l.map fun p => p.2 i).sum) ∧
    w = (demo.fd ext0 (fun i => tau0 i + tau i) f q).1 ∧ (∀ p ∈ l, p.1.J.SameTask w' w) ∧
    ∃ i < demo.dof, w' i ≠ w i := by
  obtain ⟨d, N, l, h1, -, -, h2, h3, -, h4, h5⟩ := demo_prioritised
  refine ⟨d, N, l, _, _, fun i => if i = 2 then (demo.fd ext0 (fun i => tau0 i + (l.map fun p => p.2 i).sum) f q).1 i + 1
    else (demo.fd ext0 (fun i => tau0 i + (l.map fun p => p.2 i).sum) f q).1 i, h1, demo_definite, h2, h3, h4, rfl,
    rfl, fun p hp i _ => sum_congr rfl fun j _ => ?_, 2, by decide, by simp⟩
  by_cases hj : j = 2
  · rw [hj, h5 p hp i, zero_mul, zero_mul]
  · simp only [hj, if_false]

/-- A regular Jacobian, for the theorems on `JacobianDynamicInverse`. -/
example : ∃ (d : Bool) (r r' : DMat × Body), Careful ext0 Set.univ demo d ∧ demo.Definite ∧
    demo.Regular ext0 Set.univ (demoTask 0 5).J ∧ demo.opsJbar ext0 (demoTask 0 5).J 0 = .ok r ∧
    demo.opsInertia ext0 (demoTask 0 5).J 0 = .ok r' := by
  obtain ⟨d, h⟩ := demo_reach ext0
  obtain ⟨r, hr⟩ := opsJbar_total (e := 0) h.inv (J := (demoTask 0 5).J) rfl (by decide)
  obtain ⟨r', hr'⟩ := opsInertia_total (e := 0) h.inv (J := (demoTask 0 5).J) rfl (by decide)
  refine ⟨d, r, r', h.careful, demo_definite, ⟨rfl, ?_, fun e _ => ext0_exact _ e⟩, hr, hr'⟩
  exact C35_regular h demo_definite fun v hv => demoTask_ind (k := 1) (k' := 0) 0 5 (by norm_num) (by norm_num) v 0
    (Eq.trans hv (Matrix.mulVec_zero _).symm)

end SpatialDyn
