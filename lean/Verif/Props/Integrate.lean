import Verif.Lemmas.Integrate
import Verif.Props.Dynamics

/-! # Properties C33, C34: integration -/

namespace SpatialDyn
open Body

variable {E : Ext} {b b' : Body} {d : Bool}

/-! ## C33 -/

/-- C33: without joint limits, `Integrate` never fails and leaves exactly the state given by the
selected textbook scheme for the equations of motion, whose accelerations are those asked from a body
with nothing cached (`c`), whatever was cached before the call; nothing but the state changes. -/
theorem C33_scheme (h : Reach E b d) (hm : b.Massive) {c : Cache} (hc : c.Clear) (tau : ℕ → ℝ)
    (dt : ℝ) (fext : FExt) (o : IntOpts) (ho : o.jointLimits = false) :
    ∃ b', b.integrate E tau dt fext o = .ok b' ∧
      (let y := scheme o.method (b.field E c tau fext o) id dt b.state
       b'.q = List.ofFn y.1 ∧ b'.dq = List.ofFn y.2) ∧
      b'.rbs = b.rbs ∧ b'.g = b.g ∧ b'.load = b.load ∧ b'.T0 = b.T0 ∧
      b'.inertiaBase = b.inertiaBase ∧ b'.anc = b.anc ∧ b'.sub = b.sub := by
  obtain ⟨b', h1, h2⟩ := integrate_scheme h.inv hm.symI (hm.posMass h.inv.tree) hc tau dt fext o
  have e : b.codeFilter o.jointLimits = id := by
    funext y
    unfold codeFilter
    simp [ho]
  rw [e] at h2
  have hk := h2.only
  exact ⟨b', h1, ⟨h2.q, h2.dq⟩, hk.rbs, hk.g, hk.load, hk.T0, hk.inertiaBase, hk.anc, hk.sub⟩

theorem Dbl.lt_iff {a b : Dbl} (ha : a ≠ .nan) (hb : b ≠ .nan) :
    a.Lt b ↔ a.toEReal < b.toEReal := by
  cases a <;> cases b <;> simp_all [Dbl.Lt, Dbl.toEReal]

theorem Dbl.le_iff {a b : Dbl} (ha : a ≠ .nan) (hb : b ≠ .nan) :
    a.Le b ↔ a.toEReal ≤ b.toEReal := by
  cases a <;> cases b <;> simp_all [Dbl.Le, Dbl.toEReal]

theorem Dbl.val_eq {a : Dbl} (h1 : a.toEReal ≠ ⊥) (h2 : a.toEReal ≠ ⊤) :
    (a.val : EReal) = a.toEReal := by
  cases a <;> simp_all [Dbl.val, Dbl.toEReal]

theorem clamp_coe {j : Joint} (hj : j.LimitsOK) (x : ℝ) :
    (j.clamp x : EReal) = max j.qMin.toEReal (min j.qMax.toEReal x) := by
  unfold Joint.clamp
  refine EReal.coe_toReal ?_ ?_
  · intro h
    rcases max_eq_top.1 h with h | h
    · exact hj.min_top h
    · exact absurd (min_eq_top.1 h).2 (EReal.coe_ne_top x)
  · intro h
    have h2 := (max_eq_bot.1 h).2
    rcases min_eq_bot.1 h2 with h | h
    · exact hj.max_bot h
    · exact absurd h (EReal.coe_ne_bot x)

theorem clipQ1_eq {j : Joint} (hj : j.LimitsOK) (x : ℝ) : clipQ1 j x = j.clamp x := by
  apply EReal.coe_injective
  rw [clamp_coe hj]
  unfold clipQ1
  rw [Dbl.lt_iff hj.max_nan (by simp), Dbl.lt_iff (by simp) hj.min_nan]
  split
  · next h =>
    have h : j.qMax.toEReal < (x : EReal) := h
    rw [Dbl.val_eq hj.max_bot (ne_top_of_lt h), min_eq_left h.le, max_eq_right hj.le]
  · next h =>
    have h : ¬ j.qMax.toEReal < (x : EReal) := h
    rw [min_eq_right (not_lt.1 h)]
    split
    · next h' =>
      have h' : (x : EReal) < j.qMin.toEReal := h'
      rw [Dbl.val_eq (ne_bot_of_gt h') hj.min_top, max_eq_left h'.le]
    · next h' =>
      have h' : ¬ (x : EReal) < j.qMin.toEReal := h'
      rw [max_eq_right (not_lt.1 h')]

theorem clamp_within {j : Joint} (hj : j.LimitsOK) (x : ℝ) : j.Within (j.clamp x) := by
  unfold Joint.Within
  rw [clamp_coe hj]
  exact ⟨le_max_left _ _, max_le hj.le (min_le_left _ _)⟩

theorem brake_notOutward (j : Joint) (x v : ℝ) : j.NotOutward x (j.brake x v) := by
  unfold Joint.NotOutward Joint.brake
  split
  · exact ⟨fun _ => le_rfl, fun _ => le_rfl⟩
  · next h0 =>
    split
    · next h => exact ⟨fun _ => min_le_right _ _, fun h' => absurd ⟨h, h'⟩ h0⟩
    · next h =>
      refine ⟨fun h' => absurd h' h, fun h' => ?_⟩
      rw [if_pos h']
      exact le_max_right _ _

theorem clipDq1_eq {j : Joint} (hj : j.LimitsOK) {x : ℝ} (hx : j.Within x) (v : ℝ) :
    clipDq1 j x v = j.brake x v := by
  unfold clipDq1 Joint.brake
  rw [Dbl.le_iff hj.max_nan (by simp), Dbl.le_iff (by simp) hj.min_nan]
  have e1 : j.qMax.toEReal ≤ (Dbl.fin x).toEReal ↔ (x : EReal) = j.qMax.toEReal :=
    ⟨fun h => le_antisymm hx.2 h, fun h => h ▸ le_rfl⟩
  have e2 : (Dbl.fin x).toEReal ≤ j.qMin.toEReal ↔ (x : EReal) = j.qMin.toEReal :=
    ⟨fun h => le_antisymm h hx.1, fun h => le_of_eq h⟩
  rw [e1, e2]
  by_cases h1 : (x : EReal) = j.qMax.toEReal
  · by_cases h2 : (x : EReal) = j.qMin.toEReal
    · rw [if_pos (⟨h1, h2⟩ : _ ∧ _)]
      by_cases h3 : 0 < v
      · rw [if_pos (.inl ⟨h1, h3⟩)]
      · by_cases h4 : v < 0
        · rw [if_pos (.inr ⟨h2, h4⟩)]
        · rw [if_neg (by tauto)]; linarith
    · rw [if_neg (fun h => h2 h.2 : ¬ ((x : EReal) = j.qMax.toEReal ∧ (x : EReal) = j.qMin.toEReal)),
        if_pos h1]
      by_cases h3 : 0 < v
      · rw [if_pos (.inl ⟨h1, h3⟩), min_eq_right h3.le]
      · rw [if_neg (by tauto), min_eq_left (not_lt.1 h3)]
  · rw [if_neg (fun h => h1 h.1 : ¬ ((x : EReal) = j.qMax.toEReal ∧ (x : EReal) = j.qMin.toEReal)),
      if_neg h1]
    by_cases h2 : (x : EReal) = j.qMin.toEReal
    · rw [if_pos h2]
      by_cases h4 : v < 0
      · rw [if_pos (.inr ⟨h2, h4⟩), max_eq_right h4.le]
      · rw [if_neg (by tauto), max_eq_left (not_lt.1 h4)]
    · rw [if_neg h2, if_neg (by tauto)]

theorem codeFilter_limit (hl : ∀ i < b.dof, (b.rb i).joint.LimitsOK) :
    b.codeFilter true = b.limit := by
  funext y
  unfold codeFilter limit
  simp only [if_true]
  refine Prod.ext (funext fun i => clipQ1_eq (hl i i.2) _) (funext fun i => ?_)
  simp only
  rw [clipQ1_eq (hl i i.2), clipDq1_eq (hl i i.2) (clamp_within (hl i i.2) _)]

/-- C33 with joint limits: the same schemes, where every new state (intermediate stages included) is
replaced by the nearest legal one. -/
theorem C33_scheme_limits (h : Reach E b d) (hm : b.Massive)
    (hl : ∀ i < b.dof, (b.rb i).joint.LimitsOK) {c : Cache} (hc : c.Clear) (tau : ℕ → ℝ)
    (dt : ℝ) (fext : FExt) (o : IntOpts) (ho : o.jointLimits = true) :
    ∃ b', b.integrate E tau dt fext o = .ok b' ∧
      (let y := scheme o.method (b.field E c tau fext o) b.limit dt b.state
       b'.q = List.ofFn y.1 ∧ b'.dq = List.ofFn y.2) ∧
      b'.rbs = b.rbs ∧ b'.g = b.g ∧ b'.load = b.load ∧ b'.T0 = b.T0 ∧
      b'.inertiaBase = b.inertiaBase ∧ b'.anc = b.anc ∧ b'.sub = b.sub := by
  obtain ⟨b', h1, h2⟩ := integrate_scheme h.inv hm.symI (hm.posMass h.inv.tree) hc tau dt fext o
  rw [ho, codeFilter_limit hl] at h2
  have hk := h2.only
  exact ⟨b', h1, ⟨h2.q, h2.dq⟩, hk.rbs, hk.g, hk.load, hk.T0, hk.inertiaBase, hk.anc, hk.sub⟩

/-! ## C34 -/

/-- Every joint is within its limits, and none at a limit moves outward. -/
def Body.Legal (b : Body) : Prop :=
  ∀ i < b.dof, (b.rb i).joint.Within (b.q.getD i 0) ∧
    (b.rb i).joint.NotOutward (b.q.getD i 0) (b.dq.getD i 0)

/-- Calls that may change state and structure at will: all others are covered by C34. -/
def Op.Free : Op → Prop
  | .setQ _ | .setDq _ | .addRigidBody .. | .discreteIntegrate .. => True
  | .integrate _ _ _ o => o.jointLimits = false
  | _ => False

theorem setState_legal (ht : b.Tree) (hl : ∀ i < b.dof, (b.rb i).joint.LimitsOK) {q dq : ℕ → ℝ}
    (hs : b.setState true q dq = .ok b') : b'.Legal := by
  have hso := setState_stateOnly ht hs
  obtain ⟨b1, h1, h2⟩ := Out.bind_ok hs
  have k1 := setQ_stateOnly ht.lq h1
  have hd : b'.dof = b.dof := by unfold Body.dof; rw [hso.rbs]
  have hr : b'.rb = b.rb := by unfold Body.rb; rw [hso.rbs]
  have hd1 : b1.dof = b.dof := by unfold Body.dof; rw [k1.rbs]
  have hr1 : b1.rb = b.rb := by unfold Body.rb; rw [k1.rbs]
  intro i hi
  rw [hd] at hi
  have e1 : b1.q.getD i 0 = (b.rb i).joint.clamp (q i) := by
    rw [setQ_q h1, toVec_ofFn, getD_ofFn _ (⟨i, hi⟩ : Fin b.dof)]
    simp only [if_true]
    exact clipQ1_eq (hl i hi) _
  have e2 : b'.q.getD i 0 = (b.rb i).joint.clamp (q i) := by rw [setDq_q h2, e1]
  have e3 : b'.dq.getD i 0 = (b.rb i).joint.brake ((b.rb i).joint.clamp (q i)) (dq i) := by
    rw [setDq_dq h2, toVec_ofFn, getD_ofFn _ (⟨i, hd1 ▸ hi⟩ : Fin b1.dof)]
    simp only [if_true, hr1]
    rw [e1]
    exact clipDq1_eq (hl i hi) (clamp_within (hl i hi) _) _
  rw [hr, e2, e3]
  exact ⟨clamp_within (hl i hi) _, brake_notOutward _ _ _⟩

/-- One call: whatever the state before, `Integrate` with joint limits leaves a legal state, for
every method, torque, time step and external forces. -/
theorem integrateWith_legal (ht : b.Tree) (hl : ∀ i < b.dof, (b.rb i).joint.LimitsOK)
    {f : Body → (ℕ → ℝ) × Body} (hf : ∀ b1 : Body, b1.Same (f b1).2) {dt : ℝ} {m : Method}
    (hs : b.integrateWith f dt true m = .ok b') : b'.Legal := by
  have nx : ∀ {b1 : Body}, StateOnly b b1 → StateOnly b (f b1).2 := fun h =>
    h.trans (hf _).stateOnly
  have lim : ∀ {b1 : Body}, StateOnly b b1 → ∀ i < b1.dof, (b1.rb i).joint.LimitsOK := by
    intro b1 h i hi
    have e1 : b1.rb = b.rb := by unfold Body.rb; rw [h.rbs]
    have e2 : b1.dof = b.dof := by unfold Body.dof; rw [h.rbs]
    rw [e1]
    exact hl i (e2 ▸ hi)
  have h0 := nx (Same.refl b).stateOnly
  unfold integrateWith at hs
  simp only at hs
  cases m <;> simp only at hs
  · exact setState_legal (h0.tree ht) (lim h0) hs
  · obtain ⟨b1, h1, hs⟩ := Out.bind_ok hs
    have k1 := nx (h0.trans (setState_stateOnly (h0.tree ht) h1))
    exact setState_legal (k1.tree ht) (lim k1) hs
  · obtain ⟨b1, h1, hs⟩ := Out.bind_ok hs
    have k1 := nx (h0.trans (setState_stateOnly (h0.tree ht) h1))
    obtain ⟨b2, h2, hs⟩ := Out.bind_ok hs
    have k2 := nx (k1.trans (setState_stateOnly (k1.tree ht) h2))
    obtain ⟨b3, h3, hs⟩ := Out.bind_ok hs
    have k3 := nx (k2.trans (setState_stateOnly (k2.tree ht) h3))
    exact setState_legal (k3.tree ht) (lim k3) hs

theorem integrate_legal (ht : b.Tree) (hl : ∀ i < b.dof, (b.rb i).joint.LimitsOK) {tau : ℕ → ℝ}
    {dt : ℝ} {fext : FExt} {o : IntOpts} (ho : o.jointLimits = true)
    (hs : b.integrate E tau dt fext o = .ok b') : b'.Legal := by
  unfold integrate at hs
  rw [ho] at hs
  exact integrateWith_legal ht hl (fun _ => accel_same tau fext o) hs

/-- C34: once an `Integrate` call with joint limits has been made, the state is legal after any
further calls (of any kind and number: integration steps with limits, queries, loads, gravity, base
pose, rejected calls), as long as none of them sets the state or adds a joint itself. -/
theorem C34_limits {l : List Op} (hb : Built E b) (hl : ∀ i < b.dof, (b.rb i).joint.LimitsOK)
    {tau : ℕ → ℝ} {dt : ℝ} {fext : FExt} {o : IntOpts} (ho : o.jointLimits = true) {b1 : Body}
    (hs : b.integrate E tau dt fext o = .ok b1) (hf : ∀ op ∈ l, ¬ op.Free)
    (he : execAll E b1 l = some b') : b'.Legal := by
  have ht : b.Tree := by
    obtain ⟨c, h, hh⟩ := hb
    exact execAll_tree h (tree_init c) hh
  have key : ∀ (l : List Op) {b1 : Body}, b1.Tree → (∀ i < b1.dof, (b1.rb i).joint.LimitsOK) →
      b1.Legal → (∀ op ∈ l, ¬ op.Free) → execAll E b1 l = some b' → b'.Legal := by
    intro l
    induction l with
    | nil => intro b1 _ _ h _ he; cases he; exact h
    | cons op l ih =>
      intro b1 ht hl hL hf he
      obtain ⟨b2, h1, h2⟩ := Option.bind_eq_some_iff.1 he
      have hop := hf op (List.mem_cons_self ..)
      rcases Out.exec_cases h1 with h3 | ⟨-, rfl⟩
      · have same : b2.rbs = b1.rbs → b2.q = b1.q → b2.dq = b1.dq →
            (∀ i < b2.dof, (b2.rb i).joint.LimitsOK) ∧ b2.Legal := by
          intro e1 e2 e3
          have hd : b2.dof = b1.dof := by unfold Body.dof; rw [e1]
          have hr : b2.rb = b1.rb := by unfold Body.rb; rw [e1]
          unfold Body.Legal
          rw [hd, hr, e2, e3]
          exact ⟨hl, hL⟩
        have h5 : (∀ i < b2.dof, (b2.rb i).joint.LimitsOK) ∧ b2.Legal := by
          cases op with
          | setQ _ => exact absurd trivial hop
          | setDq _ => exact absurd trivial hop
          | addRigidBody _ _ => exact absurd trivial hop
          | discreteIntegrate _ _ _ _ => exact absurd trivial hop
          | integrate t dt f o' =>
            have ho' : o'.jointLimits = true := by
              cases hj : o'.jointLimits with
              | true => rfl
              | false => exact absurd hj hop
            have e := integrate_stateOnly ht h3
            have hd : b2.dof = b1.dof := by unfold Body.dof; rw [e.rbs]
            have hr : b2.rb = b1.rb := by unfold Body.rb; rw [e.rbs]
            refine ⟨?_, integrate_legal ht hl ho' h3⟩
            rw [hd, hr]
            exact hl
          | query x =>
            obtain ⟨r, hr, rfl⟩ := Out.map_ok h3
            have e := Query.run_same x hr
            exact same (by rw [e]) (by rw [e]) (by rw [e])
          | setInertiaBase I =>
            simp only [Op.step, Body.setInertiaBase] at h3
            split at h3
            · cases h3
            · cases h3; exact same rfl rfl rfl
          | _ => cases h3; exact same rfl rfl rfl
        exact ih (Op.step_tree ht h3) h5.1 h5.2 (fun o h => hf o (List.mem_cons_of_mem _ h)) h2
      · exact ih ht hl hL (fun o h => hf o (List.mem_cons_of_mem _ h)) h2
  have e := integrate_stateOnly ht hs
  have hd : b1.dof = b.dof := by unfold Body.dof; rw [e.rbs]
  have hr : b1.rb = b.rb := by unfold Body.rb; rw [e.rbs]
  exact key l (e.tree ht) (by rw [hd, hr]; exact hl) (integrate_legal ht hl ho hs) hf he

/-! ## Witness -/

/-- Joint of the witness with limits. -/
def limJoint : Joint := { mkJoint .px with qMin := .fin (-1), qMax := .fin 1 }

/-- The calls that build the witness. -/
def sliderOps : List Op :=
  [.addRigidBody { T := 1, inertia := unitInertia, joint := limJoint } (-1), .setQ [3], .setDq [2]]

/-- A slider with limits, beyond its upper limit and moving outward. -/
noncomputable def slider : Body where
  rbs := [{ T := 1, inertia := unitInertia, joint := limJoint, id := 0, idParent := -1 }]
  q := [3]
  dq := [2]
  g := ⟨0, 0, -9.81⟩
  load := fun _ => none
  T0 := 1
  inertiaBase := ⟨1, 0, 0⟩
  anc := [[0]]
  sub := [[0]]
  c := ((Body.init cache0).c.expand 0).clearQ.clearDq

theorem slider_exec (E : Ext) : execAll E (Body.init cache0) sliderOps = some slider := by
  simp [sliderOps, execAll, Op.exec, Op.step, addRigidBody, setQ, setDq, Out.map, Out.bind,
    Body.init, Body.dof, pushSub, slider]

theorem limJoint_ok : limJoint.LimitsOK := by
  refine ⟨by simp [limJoint], by simp [limJoint], EReal.coe_ne_top _, EReal.coe_ne_bot _, ?_⟩
  exact EReal.coe_le_coe_iff.2 (by norm_num)

theorem slider_reach (E : Ext) : ∃ d, Reach E slider d := by
  refine reach_execAll sliderOps (Reach.init cache0) ?_ (slider_exec E)
  intro op hop
  simp only [sliderOps, List.mem_cons, List.not_mem_nil, or_false] at hop
  rcases hop with rfl | rfl | rfl <;> first | trivial | exact Iso.valid_one

theorem slider_lt {i : ℕ} (hi : i < slider.dof) : i = 0 := by
  have : i < 1 := hi
  omega

theorem slider_definite : slider.Definite := by
  have hI : ∀ k < slider.dof, (slider.rb k).inertia = unitInertia := by
    intro k hk
    rw [slider_lt hk]; rfl
  refine ⟨fun k hk => ?_, fun k hk => ?_, fun k hk v hv => ?_, fun k hk L hL => ?_,
    fun k hk h => ?_⟩
  · rw [hI k hk]; norm_num [unitInertia]
  · rw [hI k hk]; exact unitInertia_phys.2.1
  · rw [hI k hk]; exact unitInertia_pd v hv
  · cases hL
  · rw [slider_lt hk] at h
    have := congrArg (fun m : Motion => m.lin.x) h
    simp [slider, Body.rb, limJoint, mkJoint, JType.subspace] at this

/-- The hypotheses of C33 and C34 hold for a slider started in an illegal state. -/
example (E : Ext) : ∃ d, Reach E slider d ∧ slider.Massive ∧ Built E slider ∧ slider.dof = 1 ∧
    (∀ i < slider.dof, (slider.rb i).joint.LimitsOK) ∧ cache0.Clear ∧ ¬ slider.Legal := by
  obtain ⟨d, h⟩ := slider_reach E
  refine ⟨d, h, slider_definite.massive h.inv.tree, ⟨_, _, slider_exec E⟩, rfl, fun i hi => ?_, ?_, fun hL => ?_⟩
  · rw [slider_lt hi]; exact limJoint_ok
  · constructor <;> rfl
  · have h1 := (hL 0 (by simp [slider, Body.dof])).1.2
    have h2 : ((3 : ℝ) : EReal) ≤ ((1 : ℝ) : EReal) := h1
    have h3 := EReal.coe_le_coe_iff.1 h2
    norm_num at h3

end SpatialDyn
