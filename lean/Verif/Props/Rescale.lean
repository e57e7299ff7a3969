import Verif.Lemmas.Rescale
import Verif.Props.Converge
import Verif.Props.Alike

/-!
# C107: dynamics in other units of mass and time, and backwards
-/

namespace SpatialDyn
open Finset Body

variable {E : Ext} {b b' : Body} {d d' : Bool} {c v γ : ℝ}

/-- C107: inertia is proportional to mass and depends on neither velocity nor gravity. -/
theorem C107_inertia (h : Reach E b d) (h' : Reach E b' d') (hr : Rescaled c v γ b b')
    (hm : b.Massive) (hm' : b'.Massive) {i j : ℕ} (hi : i < b.dof) (hj : j < b.dof) :
    b'.inertia.1 i j = c * b.inertia.1 i j := by
  rw [inertia_entry h hm i j hi hj, inertia_entry h' hm' i j (hr.dof ▸ hi) (hr.dof ▸ hj)]
  exact (hr.resc h.inv h'.inv).mass hi hj

/-- C107: velocity products are proportional to mass and to the square of velocity, weight to mass
and gravity, and torques of external forces to the forces. -/
theorem C107_torques (h : Reach E b d) (h' : Reach E b' d') (hr : Rescaled c v γ b b') {a : ℝ}
    {F F' : FExt} (hF : ∀ i < b.dof, F' i = (F i).map (a • ·)) {i : ℕ} (hi : i < b.dof) :
    b'.centrifugalCoriolis.1 i = c * v ^ 2 * b.centrifugalCoriolis.1 i ∧
    b'.gravity.1 i = c * γ * b.gravity.1 i ∧
    (b'.externalTorques F').1 i = a * (b.externalTorques F).1 i := by
  have hs := hr.resc h.inv h'.inv
  have hj : i < b'.dof := hr.dof ▸ hi
  refine ⟨?_, ?_, ?_⟩
  · rw [(centrifugalCoriolis_run h.inv).2 i hi, (centrifugalCoriolis_run h'.inv).2 _ hj]
    exact hs.coriolis hi
  · rw [(gravity_run h.inv).2 i hi, (gravity_run h'.inv).2 _ hj]
    exact hs.gravity hi
  · rw [(externalTorques_run h.inv F).2 i hi, (externalTorques_run h'.inv F').2 _ hj]
    exact hs.ext hF hi

theorem Rescaled.id0 (h : Reach E b d) (h' : Reach E b' d') (hr : Rescaled c v (v ^ 2) b b')
    {F F' : FExt} (hF : ∀ i < b.dof, F' i = (F i).map ((c * v ^ 2) • ·)) (cc g : Bool) {i : ℕ}
    (hi : i < b.dof) : b'.fresh.idSpec (fun _ => 0) F' cc g i =
      c * v ^ 2 * b.fresh.idSpec (fun _ => 0) F cc g i := by
  have hs := hr.resc h.inv h'.inv
  unfold Sys.idSpec
  rw [hs.coriolis hi, hs.gravity hi, hs.ext hF hi]
  simp only [mul_zero, sum_const_zero, zero_add]
  cases cc <;> cases g <;> simp <;> ring

theorem Body.Rescaled.form (hr : Rescaled c v γ b b') (h : Reach E b d) (h' : Reach E b' d')
    (hc : 0 < c) (hm : b.Massive) (hm' : b'.Massive) (hn : DefiniteForm b.dof b.inertia.1) :
    DefiniteForm b'.dof b'.inertia.1 := by
  intro u hu
  rw [hr.dof] at hu ⊢
  refine (mul_pos hc (hn u hu)).trans_eq ?_
  rw [mul_sum]
  refine sum_congr rfl fun k hk => ?_
  rw [mul_left_comm, mul_sum]
  refine congrArg _ (sum_congr rfl fun l hl => ?_)
  rw [C107_inertia h h' hr hm hm' (mem_range.1 hk) (mem_range.1 hl), mul_assoc]

/-- C107: in consistent units (gravity, torques and forces scaled with mass and the square of
velocity) `ForwardDynamics` gives accelerations scaled with the square of velocity.  With friction
off: its coefficients are read as they are. -/
theorem C107_accelerations (h : Reach E b d) (h' : Reach E b' d') (hr : Rescaled c v (v ^ 2) b b')
    (hc : 0 < c) (hm : b.Massive) (hm' : b'.Massive) (hn : DefiniteForm b.dof b.inertia.1)
    {F F' : FExt} (hF : ∀ i < b.dof, F' i = (F i).map ((c * v ^ 2) • ·)) {t t' : ℕ → ℝ}
    (ht : ∀ i < b.dof, t' i = c * v ^ 2 * t i) (o : FDOpts) (hf : o.friction = false) {i : ℕ}
    (hi : i < b.dof) : (b'.fd E t' F' o).1 i = v ^ 2 * (b.fd E t F o).1 i := by
  have hs := hr.resc h.inv h'.inv
  have hn' := hr.form h h' hc hm hm' hn
  refine Sys.solve_unique (y := fun j => v ^ 2 * (b.fd E t F o).1 j) (fresh_det h hm hn)
    (fun k hk => ?_) i hi
  have e := fd_solves h' hm' hn' t' F' o k (hr.dof ▸ hk)
  have e0 := fd_solves h hm hn t F o k hk
  unfold Sys.fdRhs at e e0
  simp only [hf, Bool.false_eq_true, if_false] at e e0
  rw [Rescaled.id0 h h' hr hF o.cc o.gravity hk, ht k hk, hr.dof] at e
  rw [sum_congr rfl fun l hl => by
    rw [show b'.fresh.massSpec k l = c * b.fresh.massSpec k l from hs.mass hk (mem_range.1 hl),
      mul_assoc], ← mul_sum] at e
  have e1 : ∑ j ∈ range b.dof, b.fresh.massSpec k j * (v ^ 2 * (b.fd E t F o).1 j) =
      v ^ 2 * ∑ j ∈ range b.dof, b.fresh.massSpec k j * (b.fd E t F o).1 j := by
    rw [mul_sum]
    exact sum_congr rfl fun l _ => by ring
  rw [e1, e0]
  refine mul_left_cancel₀ hc.ne' ?_
  rw [e]
  ring

theorem Body.setG_ready (h : Reach E b d) (hm : b.Massive) (hn : DefiniteForm b.dof b.inertia.1)
    (g : Vec3) : ∃ d1, Reach E (b.setG g) d1 ∧ (b.setG g).Massive ∧
      DefiniteForm (b.setG g).dof (b.setG g).inertia.1 := by
  have h1 : Reach E (b.setG g) _ := h.step (.setG g) trivial rfl
  have hm1 : (b.setG g).Massive := ⟨hm.symm, hm.nonneg, hm.merge, hm.tree⟩
  refine ⟨_, h1, hm1, hn.congr fun i hi j hj => ?_⟩
  rw [inertia_entry h hm i j hi hj, inertia_entry h1 hm1 i j hi hj]
  rfl

/-- C107: so does `ForwardDynamicsAba`. -/
theorem C107_accelerations_aba (h : Reach E b d) (h' : Reach E b' d')
    (hr : Rescaled c v (v ^ 2) b b') (hc : 0 < c) (hm : b.Massive) (hm' : b'.Massive)
    (hn : DefiniteForm b.dof b.inertia.1)
    {F F' : FExt} (hF : ∀ i < b.dof, F' i = (F i).map ((c * v ^ 2) • ·)) {t t' : ℕ → ℝ}
    (ht : ∀ i < b.dof, t' i = c * v ^ 2 * t i) (o : FDOpts) (hf : o.friction = false) {i : ℕ}
    (hi : i < b.dof) :
    (b'.forwardDynamicsAba t' F' o).1 i = v ^ 2 * (b.forwardDynamicsAba t F o).1 i := by
  have hn' := hr.form h h' hc hm hm' hn
  rw [C30_aba_base h hm hn t F o hf i hi,
    C30_aba_base h' hm' hn' t' F' o hf _ (hr.dof ▸ hi)]
  obtain ⟨_, h1, hm1, hn1⟩ := setG_ready h hm hn (b.T0.R.mulVec b.g)
  obtain ⟨_, h2, hm2, -⟩ := setG_ready h' hm' hn' (b'.T0.R.mulVec b'.g)
  have hr' : Rescaled c v (v ^ 2) (b.setG (b.T0.R.mulVec b.g)) (b'.setG (b'.T0.R.mulVec b'.g)) :=
    { hr with g := (by
        show b'.T0.R.mulVec b'.g = v ^ 2 • b.T0.R.mulVec b.g
        rw [hr.T0, hr.g]
        ext <;> simp [Mat3.mulVec] <;> ring) }
  exact C107_accelerations h1 h2 hr' hc hm1 hm2 hn1 hF ht o hf hi

/-- A body after `set_dq` with the opposite velocities. -/
theorem setDq_reversed {dq : List ℝ} {b1 B B' : Body} (h1 : b1.setDq dq = .ok B)
    (h2 : b1.setDq (dq.map (- ·)) = .ok B') : Rescaled 1 (-1) ((-1) ^ 2) B B' := by
  have key : ∀ {x : List ℝ} {B : Body}, b1.setDq x = .ok B → B.rbs = b1.rbs ∧ B.q = b1.q ∧
      B.g = b1.g ∧ B.load = b1.load ∧ B.T0 = b1.T0 ∧ B.dq = x := by
    intro x B h
    have e := setDq_dq h
    unfold setDq at h
    split at h
    · cases h
    · split at h <;> (cases h; exact ⟨rfl, rfl, rfl, rfl, rfl, e⟩)
  obtain ⟨e1, e2, e3, e4, e5, e6⟩ := key h1
  obtain ⟨f1, f2, f3, f4, f5, f6⟩ := key h2
  have hrb : B'.rb = B.rb := by unfold Body.rb; rw [e1, f1]
  constructor
  · unfold Body.dof; rw [e1, f1]
  · intro i _; rw [hrb]
  · intro i _; rw [hrb]
  · intro i _; rw [hrb]
  · intro i _
    have : B'.totalInertia i = B.totalInertia i := by
      unfold totalInertia; rw [hrb, e4, f4]
    rw [this]
    ext <;> simp [Inertia.scale]
  · intro i _; rw [e2, f2]
  · intro i _
    rw [e6, f6]
    simp only [List.getD_eq_getElem?_getD, List.getElem?_map]
    cases dq[i]? <;> simp
  · rw [e3, f3]
    ext <;> simp
  · rw [e5, f5]

/-- C107: without friction every motion can be run backwards: the reversed curve, with reversed
velocities, is a motion under the same torques, forces and gravity. -/
theorem C107_reversible (h : Reach E b d) (hd : b.Definite) {tau : ℕ → ℝ} {fext : FExt} {o : IntOpts}
    (hf : o.friction = false) {T : ℝ} {q dq : ℝ → List ℝ} (hM : b.Moves E tau fext o T q dq) :
    b.Moves E tau fext o T (fun t => q (T - t)) (fun t => (dq (T - t)).map (- ·)) := by
  intro t ht
  have ht' : T - t ∈ Set.Icc 0 T := ⟨by linarith [ht.2], by linarith [ht.1]⟩
  obtain ⟨b1, B, h1, h2, h3⟩ := hM _ ht'
  have hlen : ((dq (T - t)).map (- ·)).length = b1.dof := by
    have : (dq (T - t)).length = b1.dof := by
      unfold setDq at h2
      split at h2
      · cases h2
      · next hx => exact not_not.1 hx
    rw [List.length_map, this]
  obtain ⟨B', h2', -⟩ := setDq_total hlen
  obtain ⟨hs, hn, -, -, -, _, r⟩ := h.after_set ⟨b1, h1, h2⟩
  obtain ⟨hs', hn', -, -, -, _, r'⟩ := h.after_set ⟨b1, h1, h2'⟩
  have hdB : B.Definite := hs.definite hd
  have hdB' : B'.Definite := hs'.definite hd
  have hr := setDq_reversed h2 h2'
  have hF : ∀ i < B.dof, fext i = (fext i).map (((1 : ℝ) * (-1) ^ 2) • ·) := by
    intro i _
    cases fext i with
    | none => rfl
    | some x => simp
  have htau : ∀ i < B.dof, tau i = (1 : ℝ) * (-1) ^ 2 * tau i := fun i _ => by norm_num
  refine ⟨b1, B', h1, h2', fun i hi => ?_⟩
  have hacc : B'.acceleration E tau fext o i = B.acceleration E tau fext o i := by
    unfold acceleration
    split
    · rw [C107_accelerations_aba r r' hr one_pos (hdB.massive r.inv.tree)
        (hdB'.massive r'.inv.tree) (hdB.form r) hF htau _ hf (hn ▸ hi)]
      norm_num
    · rw [C107_accelerations r r' hr one_pos (hdB.massive r.inv.tree)
        (hdB'.massive r'.inv.tree) (hdB.form r) hF htau _ hf (hn ▸ hi)]
      norm_num
  have hmap : Set.MapsTo (fun s : ℝ => T - s) (Set.Icc 0 T) (Set.Icc 0 T) := fun s hs =>
    ⟨by linarith [hs.2], by linarith [hs.1]⟩
  have hsub : HasDerivWithinAt (fun s : ℝ => T - s) (-1) (Set.Icc 0 T) t := by
    simpa using ((hasDerivWithinAt_id t (Set.Icc 0 T)).const_sub T)
  have hneg : ∀ s, ((dq s).map (- ·)).getD i 0 = -(dq s).getD i 0 := by
    intro s
    simp only [List.getD_eq_getElem?_getD, List.getElem?_map]
    cases (dq s)[i]? <;> simp
  obtain ⟨k1, k2⟩ := h3 i hi
  constructor
  · have := HasDerivWithinAt.comp t k1 hsub hmap
    rw [hneg]
    rw [mul_neg, mul_one] at this
    exact this
  · have := (HasDerivWithinAt.comp t k2 hsub hmap).neg
    rw [hacc]
    simp only [hneg]
    rw [mul_neg, mul_one, neg_neg] at this
    exact this

/-- The hypotheses are met by moving robots: a link twice as heavy, moving three times as fast under
nine times the gravity. -/
example (E : Ext) : ∃ (b b' : Body) (d d' : Bool), Reach E b d ∧ Reach E b' d' ∧
    Rescaled 2 3 (3 ^ 2) b b' ∧ b.Massive ∧ b'.Massive ∧ DefiniteForm b.dof b.inertia.1 ∧
    b.dq = [1] ∧ b'.dq = [3] := by
  obtain ⟨d, h⟩ := solo_reach E .px
  obtain ⟨d', h'⟩ := soloHeavy_reach E
  have hs : (solo .px).Definite := solo_definite (by
    intro e
    have := congrArg (fun x => x.lin.x) e
    simp [JType.subspace] at this)
  have e1 : (solo .px).setDq [1] = .ok { solo .px with dq := [1], c := (solo .px).c.clearDq } := by
    simp [Body.setDq, solo, Body.dof]
  have e2 : soloHeavy.setDq [3] = .ok { soloHeavy with dq := [3], c := soloHeavy.c.clearDq } := by
    simp [Body.setDq, soloHeavy, solo, Body.dof]
  have r1 := h.step (.setDq [1]) trivial (b' := { solo .px with dq := [1], c := (solo .px).c.clearDq })
    (by simp [Op.exec, Op.step, e1])
  have r2 := (h'.step (.setDq [3]) trivial
    (b' := { soloHeavy with dq := [3], c := soloHeavy.c.clearDq })
    (by simp [Op.exec, Op.step, e2])).step (.setG ⟨0, 0, 9 * -9.81⟩) trivial rfl
  have hd1 : Definite { solo .px with dq := [1], c := (solo .px).c.clearDq } :=
    ⟨hs.1, hs.2, hs.3, hs.4, hs.5⟩
  have hs' := soloHeavy_definite
  have hd2 : Definite (setG { soloHeavy with dq := [3], c := soloHeavy.c.clearDq }
      ⟨0, 0, 9 * -9.81⟩) := ⟨hs'.1, hs'.2, hs'.3, hs'.4, hs'.5⟩
  refine ⟨_, _, _, _, r1, r2, ?_, hd1.massive r1.inv.tree, hd2.massive r2.inv.tree,
    hd1.form r1, rfl, rfl⟩
  have h0 : ∀ k < Body.dof { solo .px with dq := [1], c := (solo .px).c.clearDq }, k = 0 :=
    fun k hk => Nat.lt_one_iff.1 hk
  refine ⟨rfl, fun i hi => ?_, fun i hi => ?_, fun i hi => ?_, fun i hi => ?_, fun i hi => ?_,
    fun i hi => ?_, ?_, rfl⟩
  all_goals try rw [h0 i hi]
  · rfl
  · rfl
  · rfl
  · show ball.add ball = ball.scale 2
    obtain ⟨hc, hI⟩ := ball_two
    have hm : (ball.add ball).mass = 2 := by show (1 : ℝ) + 1 = 2; norm_num
    cases hx : ball.add ball
    rw [hx] at hc hI hm
    simp only at hc hI hm
    rw [hc, hI, hm]
    simp [Inertia.scale, ball]
    ext <;> simp <;> norm_num
  · rfl
  · show (3 : ℝ) = 3 * 1; norm_num
  · show (⟨0, 0, 9 * -9.81⟩ : Vec3) = (3 ^ 2 : ℝ) • (⟨0, 0, -9.81⟩ : Vec3)
    ext <;> simp; norm_num

/-- Motions to run backwards exist: those of the demo body with a load, for every method. -/
example (E : Ext) (m : Method) (aba : Bool) (T : ℝ) : ∃ (d : Bool) (q dq : ℝ → List ℝ),
    Reach E demoLoaded d ∧ demoLoaded.Definite ∧ dq 0 = demoLoaded.dq ∧
    demoLoaded.Moves E (fun _ => 1) (fun _ => none) ⟨true, true, false, false, m, aba, 0⟩ T q dq ∧
    demoLoaded.Moves E (fun _ => 1) (fun _ => none) ⟨true, true, false, false, m, aba, 0⟩ T
      (fun t => q (T - t)) (fun t => (dq (T - t)).map (- ·)) := by
  obtain ⟨d, h⟩ := demoLoaded_reach E
  obtain ⟨q, dq, -, h2, h3⟩ := C78_exists h demoLoaded_definite demo_axesOK (fun _ => 1)
    (fun _ => none) ⟨true, true, false, false, m, aba, 0⟩ rfl rfl (q0 := demoLoaded.q)
    (dq0 := demoLoaded.dq) h.inv.tree.lq h.inv.tree.ldq
  exact ⟨d, q, dq, h, demoLoaded_definite, h2, h3 T, C107_reversible h demoLoaded_definite rfl (h3 T)⟩

end SpatialDyn
