import Verif.Lemmas.App

/-!
# C89 – C92: the demonstration program
-/

namespace SpatialDyn
open Body Finset

variable {E : Ext} {C : Ctl} {U : C.Quat → Prop} {b : Body} {d : Bool} {p : Prev}

/-! ## Conversions of the link number -/

theorem sizeT_nat {k : ℕ} (hk : k < 2 ^ 64) : sizeT (k : ℤ) = k := by
  unfold sizeT
  omega

theorem toInt32_sizeT {k : ℤ} (h1 : -2 ^ 31 ≤ k) (h2 : k < 2 ^ 31) : toInt32 (sizeT k) = k := by
  have e : ((k % 2 ^ 64).toNat : ℤ) = k % 2 ^ 64 := by omega
  unfold toInt32 sizeT Int.bmod
  rw [e]
  norm_num
  split <;> omega

/-! ## C89: dragging a link -/

theorem dot_transF (J : Motion) (x f : Vec3) :
    J.dot (transF x ⟨f, 0⟩) = (J.atPoint x).lin.dot f := by
  simp [Motion.dot, transF, Motion.atPoint, Vec3.dot, Vec3.cross]
  ring

/-- The forces of a drag of link `k`, and the body after computing them. -/
theorem clickForces_run (h : Inv E b) {robot : Str} {m : Interaction} {k : ℤ} {i : ℕ}
    (hk : b.LinkIdx k i) (hn : b.dof ≤ 2 ^ 31) {mouse click : Vec3} (h1 : m.keyObject = .val robot)
    (h2 : m.idxLink = .val k) (h3 : m.posMouse = .val mouse) (h4 : m.posClick = .val click) :
    ∃ b', b.clickForces robot m = .ok (fun j => if j = sizeT k then
      some (transF ((b.freshTw i).app click)
        ⟨appDragGain • (mouse - (b.freshTw i).app click), 0⟩) else none, b') ∧ Step E b b' ∧
      b.KeepD b' ∧ b.position k click = .ok ((b.freshTw i).app click, b') := by
  have hr : toInt32 (sizeT k) = k := by
    obtain ⟨h0, h5⟩ := hk
    have hn' : (b.dof : ℤ) ≤ 2 ^ 31 := by exact_mod_cast hn
    refine toInt32_sizeT ?_ ?_
    · rcases h5 with e | ⟨e1, e2⟩ <;> linarith
    · rcases h5 with e | ⟨e1, e2⟩ <;> [skip; linarith]
      have : (i : ℤ) < b.dof := by exact_mod_cast h0
      linarith
  obtain ⟨b', hp⟩ := position_of_index h hk.index click
  have hs := position_run h hp
  have hkd : b.KeepD b' := by
    obtain ⟨k', -, hq⟩ := Out.bind_ok hp
    simp only [Out.ok.injEq, Prod.mk.injEq] at hq
    rw [← hq.2]
    exact touchTw_keep
  refine ⟨b', ?_, hs.1, hkd, hp⟩
  unfold clickForces
  rw [h1, h2, h3, h4]
  have e : ∀ {α β : Type} (a : α) (f : α → Out β), (Field.val a).getConst.bind f = f a := fun _ _ => rfl
  rw [e, if_neg (not_not.2 rfl), e, e, e, hr, hp]
  rfl

theorem clickForces_other {robot key : Str} {m : Interaction} (h1 : m.keyObject = .val key)
    (h2 : key ≠ robot) : b.clickForces robot m = .ok (noExt, b) := by
  unfold clickForces
  rw [h1]
  exact if_pos h2

theorem genForce_single {σ : Sys} {k : ℕ} (hk : k < σ.n) (f : Force) (i : ℕ) :
    σ.genForce (fun j => ((if j = k then some f else none : Option Force)).getD 0) i =
      (σ.Jw k i).dot f := by
  unfold Sys.genForce
  rw [sum_eq_single k]
  · simp
  · intro j _ hj; simp [hj]
  · intro hc; exact absurd (mem_range.2 hk) hc

/-- C89: dragging a link of the robot pulls the clicked point of the link towards the mouse with 100
newtons per metre: the external torques are minus the transposed linear Jacobian of that point
applied to this force.  The robot is otherwise left alone. -/
theorem C89_drag (h : Reach E b d) {robot : Str} {m : Interaction} {k : ℕ} (hk : k < b.dof)
    (hn : b.dof ≤ 2 ^ 31) {mouse click x : Vec3} {J : ℕ → Vec3} (h1 : m.keyObject = .val robot)
    (h2 : m.idxLink = .val k) (h3 : m.posMouse = .val mouse) (h4 : m.posClick = .val click)
    (hx : (b.position k click).map Prod.fst = .ok x)
    (hJ : (b.linearJacobian k click).map Prod.fst = .ok J) :
    ∃ f b', b.clickForces robot m = .ok (f, b') ∧ b.ObsEq b' ∧ ∀ i < b.dof,
      (b'.externalTorques f).1 i = -(J i).dot ((100 : ℝ) • (mouse - x)) := by
  have hidx : b.LinkIdx (k : ℤ) k := ⟨hk, .inl rfl⟩
  obtain ⟨b', hf, hs, -, hp⟩ := clickForces_run h.inv hidx hn h1 h2 h3 h4
  rw [hp] at hx
  obtain rfl : (b.freshTw k).app click = x := Out.ok.inj hx
  obtain ⟨r, hr⟩ := jacobian_total b hidx click
  unfold linearJacobian at hJ
  rw [hr] at hJ
  obtain rfl : (fun i => (r.1 i).lin) = J := Out.ok.inj hJ
  refine ⟨_, b', hf, hs.obsEq, fun i hi => ?_⟩
  rw [(externalTorques_run (h.inv.step hs) _).2 i (by rw [hs.dof_eq]; exact hi), hs.fresh_eq]
  unfold Sys.extSpec
  rw [sizeT_nat (by omega), genForce_single hk, dot_transF, ← jacobian_val h.inv hidx hr i]
  rfl

/-- C89: in the simulation of the robot, the drag adds the impulse of this force over the time step. -/
theorem C89_impulse (h : DReach E b d p) {robot : Str} {m : Interaction} {k : ℕ} (hk : k < b.dof)
    (hn : b.dof ≤ 2 ^ 31) {mouse click x : Vec3} {J : ℕ → Vec3} (h1 : m.keyObject = .val robot)
    (h2 : m.idxLink = .val k) (h3 : m.posMouse = .val mouse) (h4 : m.posClick = .val click)
    (hx : (b.position k click).map Prod.fst = .ok x)
    (hJ : (b.linearJacobian k click).map Prod.fst = .ok J) (qn : ℕ → ℝ) (dt : ℝ) (g : Bool) :
    ∃ f b', b.clickForces robot m = .ok (f, b') ∧ ∀ i < b.dof,
      (b'.discreteID E qn dt f g).1 i =
        (b.discreteID E qn dt noExt g).1 i - dt * (J i).dot ((100 : ℝ) • (mouse - x)) := by
  have hR := h.reach
  have hidx : b.LinkIdx (k : ℤ) k := ⟨hk, .inl rfl⟩
  obtain ⟨b', hf, hs, hkd, hp⟩ := clickForces_run hR.inv hidx hn h1 h2 h3 h4
  rw [hp] at hx
  obtain rfl : (b.freshTw k).app click = x := Out.ok.inj hx
  obtain ⟨r, hr⟩ := jacobian_total b hidx click
  unfold linearJacobian at hJ
  rw [hr] at hJ
  obtain rfl : (fun i => (r.1 i).lin) = J := Out.ok.inj hJ
  refine ⟨_, b', hf, fun i hi => ?_⟩
  have hdc : DCoh E b b'.c.drnea p := by
    unfold KeepD at hkd; rw [hkd]; exact h.dcoh
  rw [(discreteID_cache hR.inv h.dcoh hs hdc rfl qn _ g).1 i hi, discreteID_own h _ _ _ _ i hi,
    discreteID_own h _ _ _ _ i hi]
  rw [sizeT_nat (by omega)]
  have key := genForce_single (σ := b.fresh) hk (transF ((b.freshTw k).app click)
        ⟨appDragGain • (mouse - (b.freshTw k).app click), 0⟩) i
  rw [dot_transF, ← jacobian_val hR.inv hidx hr i] at key
  have e : ∀ f : FExt, b.discreteSpec E b.own dt (b.before p dt) qn f i =
      b.discreteSpec E b.own dt (b.before p dt) qn noExt i -
        dt * b.fresh.genForce (fun j => (f j).getD 0) i := by
    intro f
    unfold discreteSpec Sys.genForce
    rw [mul_sum, ← sum_sub_distrib]
    refine sum_congr rfl fun j _ => ?_
    simp only [noExt, Option.getD_none, smul_zero, sub_zero]
    rw [sub_eq_add_neg, Motion.dot_add, ← neg_smul, Motion.dot_smul]
    ring
  rw [e, key]
  show _ - dt * (r.1 i).lin.dot (appDragGain • _) + _ = _
  unfold appDragGain
  ring

/-- C89: a message about another object, or a click on the base, exerts no force on any link. -/
theorem C89_elsewhere (h : Reach E b d) (hd : 0 < b.dof) (hn : b.dof ≤ 2 ^ 31) {robot : Str}
    {m : Interaction} {key : Str} (h1 : m.keyObject = .val key)
    (hm : key = robot → m.idxLink = .val (-1) ∧ (∃ x, m.posMouse = .val x) ∧ ∃ x, m.posClick = .val x) :
    ∃ f b', b.clickForces robot m = .ok (f, b') ∧ b.ObsEq b' ∧ ∀ i < b.dof, f i = none := by
  by_cases hk : key = robot
  · subst hk
    obtain ⟨h2, ⟨x, h3⟩, y, h4⟩ := hm rfl
    obtain ⟨b', hf, hs, -⟩ := clickForces_run h.inv (lastLink hd) hn h1 h2 h3 h4
    refine ⟨_, b', hf, hs.obsEq, fun i hi => if_neg ?_⟩
    unfold sizeT
    omega
  · refine ⟨noExt, b, ?_, ⟨rfl, rfl, rfl, rfl, rfl, rfl, rfl, rfl⟩, fun _ _ => rfl⟩
    exact clickForces_other h1 hk

/-! ## C90: messages of the web page -/

theorem clickForces_total (h : Inv E b) (hd : 0 < b.dof) (hn : b.dof ≤ 2 ^ 31) {robot : Str}
    {m : Interaction} (hm : m.Complete robot b.dof) :
    ∃ r, b.clickForces robot m = .ok r ∧ Asked E b r.2 := by
  obtain ⟨key, hk⟩ := hm.object
  by_cases e : key = robot
  · subst e
    obtain ⟨⟨k, h2, k1, k2⟩, ⟨x, h3⟩, y, h4⟩ := hm.drag hk
    obtain ⟨i, hi⟩ : ∃ i, b.LinkIdx k i := by
      by_cases h0 : k < 0
      · exact ⟨(k + b.dof).toNat, by omega, .inr ⟨by omega, h0⟩⟩
      · exact ⟨k.toNat, by omega, .inl (by omega)⟩
    obtain ⟨b', hf, -, -, hp⟩ := clickForces_run h hi hn hk h2 h3 h4
    exact ⟨_, hf, Asked.refl.position hp⟩
  · refine ⟨(noExt, b), ?_, .refl⟩
    exact clickForces_other hk e

/-- The calls of a cycle. -/
theorem cycle_run {cfg : AppCfg C} {s : App} (h : Inv E s.body) (hd : 0 < s.body.dof)
    (hn : s.body.dof ≤ 2 ^ 31) (hq : cfg.qDes.length = s.body.dof) {i : AppInput}
    (hi : i.interaction.Complete cfg.robot s.body.dof) :
    ∃ m t f key b', s.body.appMeasure C cfg s.xDes i = .ok m ∧ Asked E s.body m.2 ∧
      m.2.appTorque E C cfg i m.1.1 = .ok t ∧ Asked E s.body t.2 ∧
      t.2.clickForces cfg.robot i.interaction = .ok f ∧ Asked E s.body f.2 ∧
      i.interaction.keyDown = .val key ∧
      f.2.discreteIntegrate E t.1 i.dt f.1 (DIntOpts.make true) = .ok b' ∧
      s.step E C cfg i = .ok (⟨t.1, adjustPosition key s.xDes, b'.q, b'.dq, m.1.2.1, m.1.2.2⟩,
        ⟨adjustPosition key s.xDes, b'⟩) := by
  obtain ⟨J, x, R, b1, hm, a1, -, -⟩ := appMeasure_run (C := C) h hd cfg s.xDes i
  have s1 := a1.step h
  obtain ⟨m, hm'⟩ : ∃ m, m = s.body.appMeasure C cfg s.xDes i := ⟨_, rfl⟩
  rw [hm] at hm'
  generalize hM : ((_, _) : (Measured × Vec3 × C.Quat) × Body) = M at hm
  have e : M.2 = b1 := by rw [← hM]
  rw [← e] at a1 s1
  obtain ⟨t, ht, a2⟩ := appTorque_run (h.step s1) (by rw [s1.dof_eq]; exact hd)
    (by rw [s1.dof_eq]; exact hq) i M.1.1
  have a2 := a1.trans a2
  have s2 := a2.step h
  obtain ⟨f, hf, a3⟩ := clickForces_total (h.step s2) (by rw [s2.dof_eq]; exact hd)
    (by rw [s2.dof_eq]; exact hn) (robot := cfg.robot) (m := i.interaction)
    (by rw [s2.dof_eq]; exact hi)
  have a3 := a2.trans a3
  obtain ⟨key, hk⟩ := hi.key
  obtain ⟨b', hb⟩ := discreteIntegrate_total (h.step (a3.step h)) t.1 i.dt f.1 (DIntOpts.make true)
  refine ⟨M, t, f, key, b', hm, a1, ht, a2, hf, a3, hk, hb, ?_⟩
  unfold App.step
  simp only [hm, ht, hf, hk, hb, Out.bind, Field.get]

/-- C90: with complete messages about existing links, a cycle of the program succeeds, whatever the
gains, the time step and the goals; the robot keeps its links. -/
theorem C90_cycle {cfg : AppCfg C} {s : App} (h : Reach E s.body d) (hd : 0 < s.body.dof)
    (hn : s.body.dof ≤ 2 ^ 31) (hq : cfg.qDes.length = s.body.dof) {i : AppInput}
    (hi : i.interaction.Complete cfg.robot s.body.dof) :
    ∃ r, s.step E C cfg i = .ok r ∧ (∃ d', Reach E r.2.body d') ∧ r.2.body.dof = s.body.dof := by
  obtain ⟨m, t, f, key, b', -, -, -, -, -, a3, -, hb, hs⟩ := cycle_run (C := C) h.inv hd hn hq hi
  obtain ⟨d3, r3⟩ := a3.reach h
  refine ⟨_, hs, ⟨_, r3.step (b' := b') (.discreteIntegrate t.1 i.dt f.1 (DIntOpts.make true)) trivial
    (by simp [Op.exec, Op.step, hb])⟩, ?_⟩
  have := discreteIntegrate_stateOnly r3.inv.tree hb
  have h3 := (a3.step h.inv).dof_eq
  show b'.dof = _
  rw [← h3]
  unfold Body.dof
  rw [this.rbs]

/-- C90: a message that is complete but for the key stops the program with an exception. -/
theorem C90_missing_key {cfg : AppCfg C} {s : App} (h : Reach E s.body d) (hd : 0 < s.body.dof)
    (hn : s.body.dof ≤ 2 ^ 31) (hq : cfg.qDes.length = s.body.dof) {i : AppInput} {key : Str}
    (hi : { i.interaction with keyDown := .val key }.Complete cfg.robot s.body.dof)
    (hk : ∀ k, i.interaction.keyDown ≠ .val k) : s.step E C cfg i = .throws := by
  obtain ⟨m, t, f, -, -, hm, -, ht, -, hf, -⟩ := cycle_run (C := C) (cfg := cfg) h.inv hd hn hq
    (i := { i with interaction := { i.interaction with keyDown := .val key } }) hi
  have hm : s.body.appMeasure C cfg s.xDes i = .ok m := hm
  have ht : m.2.appTorque E C cfg i m.1.1 = .ok t := ht
  have hf : t.2.clickForces cfg.robot i.interaction = .ok f := hf
  have hg : i.interaction.keyDown.get = .throws := by
    cases e : i.interaction.keyDown with
    | missing => rfl
    | wrong => rfl
    | val a => exact absurd e (hk a)
  unfold App.step
  simp only [hm, ht, hf, hg, Out.bind]

/-- C90: the program runs on for any number of such cycles. -/
theorem C90_run {cfg : AppCfg C} (l : List AppInput) : ∀ {s : App} {d : Bool}, Reach E s.body d →
    0 < s.body.dof → s.body.dof ≤ 2 ^ 31 → cfg.qDes.length = s.body.dof →
    (∀ i ∈ l, i.interaction.Complete cfg.robot s.body.dof) →
    ∃ r, s.run E C cfg l = .ok r ∧ r.1.length = l.length := by
  induction l with
  | nil => intro s d _ _ _ _ _; exact ⟨_, rfl, rfl⟩
  | cons i l ih =>
    intro s d h hd hn hq hl
    obtain ⟨r, hr, ⟨d', h'⟩, e⟩ := C90_cycle (C := C) h hd hn hq (hl i List.mem_cons_self)
    obtain ⟨t, ht, hlen⟩ := ih h' (by rw [e]; exact hd) (by rw [e]; exact hn) (by rw [e]; exact hq)
      (by rw [e]; exact fun j hj => hl j (List.mem_cons_of_mem _ hj))
    refine ⟨(r.1 :: t.1, t.2), ?_, ?_⟩
    · unfold App.run
      simp only [hr, ht, Out.bind]
    · simp [hlen]

/-- C90 as one would expect it: a message that is not complete is never undefined behaviour. -/
def Claim90 (E : Ext) : Prop := ∀ (b : Body) (d : Bool), Reach E b d → ∀ (robot : Str) (m : Interaction),
  b.clickForces robot m ≠ .ub

/-- C90: a message without an object, and one about a link of the robot that it does not have, are
undefined behaviour for every robot. -/
theorem C90_violated (E : Ext) (b : Body) (robot : Str) (m : Interaction) :
    (m.keyObject = .missing → b.clickForces robot m = .ub) ∧
    (∀ (k : ℕ) (x y : Vec3), b.dof ≤ k → k < 2 ^ 31 → m.keyObject = .val robot → m.idxLink = .val k →
      m.posMouse = .val x → m.posClick = .val y → b.clickForces robot m = .ub) ∧ ¬ Claim90 E := by
  have h1 : ∀ b : Body, ∀ robot m, m.keyObject = .missing → b.clickForces robot m = .ub := by
    intro b robot m h
    unfold clickForces
    rw [h]
    rfl
  refine ⟨h1 b robot m, ?_, ?_⟩
  · intro k x y hk hk2 e1 e2 e3 e4
    have hr : toInt32 (sizeT k) = k := toInt32_sizeT (by omega) (by omega)
    have hi : b.index (k : ℤ) = .ub := by
      have hr' : b.resolve (k : ℤ) = k := by unfold Body.resolve; rw [if_neg (by omega)]
      unfold Body.index
      simp only [hr']
      rw [if_neg (by omega)]
    unfold clickForces
    rw [e1, e2, e3, e4]
    have e : ∀ {α β : Type} (a : α) (f : α → Out β), (Field.val a).getConst.bind f = f a :=
      fun _ _ => rfl
    rw [e, if_neg (not_not.2 rfl), e, e, e, hr]
    unfold Body.position
    rw [hi]
    rfl
  · intro hc
    exact hc _ _ (Reach.init (E := E) cache0) [] ⟨.missing, .missing, .missing, .missing, .missing⟩
      (h1 _ _ _ rfl)

/-- C90: a field of the wrong type stops the program with an exception instead, if all fields are
there. -/
theorem C90_wrong_type (robot : Str) {m : Interaction} (h1 : m.keyObject ≠ .missing)
    (h2 : m.idxLink ≠ .missing) (h3 : m.posMouse ≠ .missing) (h4 : m.posClick ≠ .missing)
    (hw : m.keyObject = .wrong ∨ m.keyObject = .val robot ∧
      (m.idxLink = .wrong ∨ m.posMouse = .wrong ∨ m.posClick = .wrong)) :
    b.clickForces robot m = .throws := by
  obtain ⟨key, idx, mouse, click, down⟩ := m
  dsimp only at *
  have e : ∀ {α β : Type} (a : α) (f : α → Out β), (Field.val a).getConst.bind f = f a :=
    fun _ _ => rfl
  have w : ∀ {α β : Type} (f : α → Out β), Field.wrong.getConst.bind f = .throws := fun _ => rfl
  unfold clickForces
  rcases hw with rfl | ⟨rfl, hw⟩
  · exact w _
  · dsimp only
    rw [e, if_neg (not_not.2 rfl)]
    cases idx with
    | missing => exact absurd rfl h2
    | wrong => exact w _
    | val k =>
      rw [e]
      cases mouse with
      | missing => exact absurd rfl h3
      | wrong => exact w _
      | val x =>
        rw [e]
        cases click with
        | missing => exact absurd rfl h4
        | wrong => exact w _
        | val y => simp at hw

/-! ## C91: the keyboard -/

theorem adjustPosition_eq (key : Str) (x : Vec3) : adjustPosition key x = x + appKeyGain •
    (⟨presses 'd' [key] - presses 'a' [key], presses 'w' [key] - presses 's' [key],
      presses 'e' [key] - presses 'q' [key]⟩ : Vec3) := by
  unfold adjustPosition
  cases key with
  | nil => ext <;> simp [presses]
  | cons c t =>
    dsimp only
    unfold keyMove
    by_cases h1 : c = 'a'
    · subst h1; ext <;> simp [presses, Vec3.bump]
    by_cases h2 : c = 'd'
    · subst h2; ext <;> simp [presses, Vec3.bump]
    by_cases h3 : c = 'w'
    · subst h3; ext <;> simp [presses, Vec3.bump]
    by_cases h4 : c = 's'
    · subst h4; ext <;> simp [presses, Vec3.bump]
    by_cases h5 : c = 'e'
    · subst h5; ext <;> simp [presses, Vec3.bump]
    by_cases h6 : c = 'q'
    · subst h6; ext <;> simp [presses, Vec3.bump]
    simp only [h1, h2, h3, h4, h5, h6, if_false]
    ext <;> simp [presses, h1, h2, h3, h4, h5, h6]

/-- C91: after any run of the program the goal has moved by a tenth of a millimetre for every cycle a
key was held: `d`/`a` along x, `w`/`s` along y, `e`/`q` along z; other keys do nothing. -/
theorem C91_keys {cfg : AppCfg C} (l : List AppInput) : ∀ {s : App} {keys : List Str}
    {r : List (AppOutput C) × App}, s.run E C cfg l = .ok r →
    (l.map fun i => i.interaction.keyDown) = keys.map .val →
    r.2.xDes = s.xDes + (0.0001 : ℝ) •
      (⟨presses 'd' keys - presses 'a' keys, presses 'w' keys - presses 's' keys,
        presses 'e' keys - presses 'q' keys⟩ : Vec3) := by
  induction l with
  | nil =>
    intro s keys r hr hk
    cases hr
    cases keys with
    | nil => ext <;> simp [presses]
    | cons _ _ => simp at hk
  | cons i l ih =>
    intro s keys r hr hk
    cases keys with
    | nil => simp at hk
    | cons key keys =>
      simp only [List.map_cons, List.cons.injEq] at hk
      obtain ⟨t, ht, hr⟩ := Out.bind_ok hr
      obtain ⟨u, hu, hr⟩ := Out.bind_ok hr
      cases hr
      have := ih hu hk.2
      dsimp only
      rw [this]
      obtain ⟨m, -, ht⟩ := Out.bind_ok ht
      obtain ⟨ta, -, ht⟩ := Out.bind_ok ht
      obtain ⟨f, -, ht⟩ := Out.bind_ok ht
      obtain ⟨key', hkey, ht⟩ := Out.bind_ok ht
      obtain ⟨b', -, ht⟩ := Out.bind_ok ht
      cases ht
      rw [hk.1] at hkey
      cases hkey
      dsimp only
      rw [adjustPosition_eq]
      have hc : ∀ c, (presses c (key :: keys) : ℝ) = presses c [key] + presses c keys := by
        intro c
        unfold presses
        rw [← List.singleton_append, List.countP_append]
        push_cast
        rfl
      rw [hc, hc, hc, hc, hc, hc]
      have hg : appKeyGain = 0.0001 := by unfold appKeyGain; norm_num
      rw [hg]
      ext <;> simp <;> ring

/-! ## C92: rest -/

/-- C42: a body at rest under the torques that hold it against gravity stays exactly where it is. -/
theorem C42_rest (h : DReach E b d p) (hD : b.Definite) {dt : ℝ} (hdt : dt ≠ 0)
    (hp : ∀ i < b.dof, b.before p dt i = b.pos i) (hv : ∀ i < b.dof, b.vel i = 0) {tau : ℕ → ℝ}
    (ht : ∀ i < b.dof, tau i = b.gravity.1 i) {o : DIntOpts} (hg : o.gravity = true)
    (heps : 0 < o.epsV) (hit : 0 < o.maxIter) {b' : Body}
    (hs : b.discreteIntegrate E tau dt noExt o = .ok b') :
    (∀ i < b.dof, b'.pos i = b.pos i ∧ b'.vel i = 0) ∧ StateOnly b b' ∧
      DReach E b' true (some (dt, b.pos)) := by
  have hR := h.reach
  have hm := hD.massive hR.inv.tree
  have hgr : vec b.dof tau = vec b.dof b.fresh.gravitySpec := by
    funext i
    exact (ht i i.2).trans ((gravity_run hR.inv).2 i i.2)
  have ha : ∀ i < b.dof, (b.fd E tau noExt ⟨o.gravity, true, false, 0.01⟩).1 i = 0 := by
    intro i hi
    have := congrFun (fd_matrix hR hm (hD.form hR) tau noExt ⟨o.gravity, true, false, 0.01⟩ rfl)
      ⟨i, hi⟩
    rw [idSpec_gravity fun _ => hv, hg, if_pos rfl, hgr, sub_self, Matrix.mulVec_zero] at this
    rw [hg]
    exact this
  have hc : ∀ i < b.dof, b.candidate E tau dt noExt o.gravity 0 i = b.pos i := by
    intro i hi
    show b.pos i + dt * b.vel i + dt * dt * _ = _
    rw [ha i hi, hv i hi]
    ring
  have h1 : ∀ k < b.dof, b.disp b.pos b.pos k = 1 := fun k hk =>
    (twAt_valid hR.inv.tree hR.inv.rigid b.pos k hk).inv_mul
  have hdef : ∀ i < b.dof, b.defect E tau dt noExt o.gravity (b.candidate E tau dt noExt o.gravity 0) i
      = 0 := by
    intro i hi
    unfold defect
    rw [discreteID_own h _ _ _ _ i hi, hg, if_pos rfl, ht i hi, add_sub_cancel_right]
    unfold discreteSpec Sys.genForce
    refine sum_eq_zero fun k hk => ?_
    have hk : k < b.dof := mem_range.1 hk
    have e1 := (disp_congr hR.inv (fun _ _ => rfl) hc k hk).trans (h1 k hk)
    have e2 := (disp_congr hR.inv hp (fun _ _ => rfl) k hk).trans (h1 k hk)
    rw [hg] at e1
    beta_reduce
    have e3 : Iso.inv 1 = 1 := by ext <;> simp [Iso.inv, Mat3.mulVec, Mat3.T]
    rw [e1, e2, e3]
    simp [noExt]
  have hA : b.Accepts E tau dt noExt o (b.candidate E tau dt noExt o.gravity 0) := by
    unfold Accepts
    rw [sum_eq_zero fun i hi => by rw [hdef i (mem_range.1 hi)]; simp, Real.sqrt_zero]
    exact heps
  obtain ⟨k, x, -, rfl, hk, -, hst, hso, hr⟩ := C42_step h ⟨0, hit, hA⟩ hs
  have : k = 0 := by
    by_contra h0
    exact hk 0 (Nat.pos_of_ne_zero h0) hA
  subst this
  refine ⟨fun i hi => ?_, hso, hr⟩
  obtain ⟨e1, e2⟩ := hst i hi
  rw [hc i hi] at e1 e2
  rw [hp i hi] at e2
  exact ⟨e1, by rw [e2]; simp⟩

/-- The program with a resting robot at its goals. -/
structure App.Still (E : Ext) (cfg : AppCfg C) (s : App) : Prop where
  past : ∃ d p, DReach E s.body d p ∧ ∀ dt, ∀ k < s.body.dof, s.body.before p dt k = s.body.pos k
  definite : s.body.Definite
  dof : 0 < s.body.dof
  small : s.body.dof ≤ 2 ^ 31
  rest : ∀ k < s.body.dof, s.body.vel k = 0
  joints : cfg.qDes = s.body.q
  pos : s.xDes = (s.body.freshTw (s.body.dof - 1)).app appOffset
  ori : cfg.quatDes = C.ofRot (s.body.freshTw (s.body.dof - 1)).R

theorem list_ext_getD {l l' : List ℝ} (h : l.length = l'.length)
    (e : ∀ k < l.length, l.getD k 0 = l'.getD k 0) : l = l' := by
  refine List.ext_getElem h fun k h1 h2 => ?_
  have := e k h1
  simpa [List.getD, h1, h2] using this

theorem Interaction.Idle.complete {m : Interaction} {robot : Str} (h : m.Idle robot) (n : ℕ) :
    m.Complete robot n := by
  obtain ⟨key, h1, h2⟩ := h.other
  obtain ⟨k, h3, -⟩ := h.noKey
  refine ⟨⟨key, h1⟩, ⟨k, h3⟩, fun h4 => ?_⟩
  rw [h1] at h4
  cases h4
  exact absurd rfl h2

theorem Interaction.Idle.adjust {m : Interaction} {robot : Str} (h : m.Idle robot) {key : Str}
    (hk : m.keyDown = .val key) (x : Vec3) : adjustPosition key x = x := by
  obtain ⟨s, h3, h4⟩ := h.noKey
  rw [hk] at h3
  cases h3
  cases key with
  | nil => rfl
  | cons c t =>
    have := h4 c rfl
    simp only [List.mem_cons, List.not_mem_nil, or_false, not_or] at this
    obtain ⟨h1, h2, h3, h4, h5, h6⟩ := this
    unfold adjustPosition keyMove
    simp only [h1, h2, h3, h4, h5, h6, if_false]

theorem App.Still.step {cfg : AppCfg C} {s : App} (h : s.Still E cfg) (hL : C.Law U) {i : AppInput}
    (hdt : i.dt ≠ 0) (hi : i.interaction.Idle cfg.robot) :
    ∃ o s', s.step E C cfg i = .ok (o, s') ∧ s'.Still E cfg ∧ s'.xDes = s.xDes ∧
      s'.body.q = s.body.q ∧ s'.body.dq = s.body.dq ∧ s'.body.fresh = s.body.fresh ∧
      (∀ k < s.body.dof, o.tau k = s.body.fresh.gravitySpec k) ∧ o.xDes = s.xDes ∧ o.x = s.xDes ∧
      o.q = s.body.q ∧ o.dq = s.body.dq := by
  obtain ⟨d, p, hR, hp⟩ := h.past
  have hinv := hR.reach.inv
  obtain ⟨m, t, f, key, b', hm, a1, ht, a2, hf, a3, hk, hb, hst⟩ := cycle_run (C := C) hinv h.dof h.small
    (by rw [h.joints, hinv.tree.lq]) (hi.complete s.body.dof)
  obtain ⟨J, x, R, b1, hm', -, hx, hRot⟩ := appMeasure_run (C := C) (E := E) hinv h.dof cfg s.xDes i
  rw [hm] at hm'
  have hm' := Out.ok.inj hm'
  have hV : jacVel s.body.dof J s.body.dqFun = 0 := by
    unfold jacVel
    refine Finset.sum_eq_zero fun j hj => ?_
    have : s.body.dqFun j = 0 := h.rest j (Finset.mem_range.1 hj)
    rw [this, zero_smul]
  rw [hV] at hm'
  have s1 := a1.step hinv
  have s2 := a2.step hinv
  have s3 := a3.step hinv
  have hrot : R.IsRot := by
    have hl : s.body.dof - 1 < s.body.dof := Nat.sub_lt h.dof one_pos
    have := hinv.wf.Tw_valid _ hl
    rw [fresh_Tw hl] at this
    rw [hRot]; exact this
  have z1 : m.1.1.pos.1 = 0 := by
    rw [hm']
    dsimp only
    rw [hL.pd3_acc _ _ _ _ _ _ le_rfl, hx, h.pos]
    ext <;> simp [Vec3.had]
  have z2 : m.1.1.ori.1 = 0 := by
    rw [hm']
    dsimp only
    rw [show i.kpKvOri = (i.kpKvOri.1, i.kpKvOri.2) from rfl, hL.pdQ_acc _ _ _ _ _ _ le_rfl, h.ori,
      ← hRot, hL.ori_zero _ _ _ _ _ (hL.rot_unit R hrot).1 (hL.rot_unit R hrot).1 rfl]
    ext <;> simp
  have q1 : m.2.q = s.body.q := by obtain ⟨c, hc, -⟩ := s1; rw [hc]
  have q2 : m.2.dq = s.body.dq := by obtain ⟨c, hc, -⟩ := s1; rw [hc]
  have tau := appTorque_rest (hinv.step s1) hL (by rw [q1]; exact h.joints) z1 z2
    (by rw [q2, s1.dof_eq]; exact h.rest) ht
  rw [s1.fresh_eq, s1.dof_eq] at tau
  have hf0 : f = (noExt, t.2) := by
    obtain ⟨key', h1, h2⟩ := hi.other
    rw [clickForces_other h1 h2] at hf
    exact (Out.ok.inj hf).symm
  have hf1 : f.1 = noExt := by rw [hf0]
  rw [hf1] at hb
  obtain ⟨d3, r3⟩ := a3.dreach hR
  have e3 := s3.dof_eq
  have p3 : f.2.pos = s.body.pos := by obtain ⟨c, hc, -⟩ := s3; rw [hc]; rfl
  have v3 : f.2.vel = s.body.vel := by obtain ⟨c, hc, -⟩ := s3; rw [hc]; rfl
  have l3 : f.2.q = s.body.q := by obtain ⟨c, hc, -⟩ := s3; rw [hc]
  have m3 : f.2.dq = s.body.dq := by obtain ⟨c, hc, -⟩ := s3; rw [hc]
  have hdef : f.2.Definite := s3.same.stateOnly.definite h.definite
  have hbef : ∀ k < f.2.dof, f.2.before p i.dt k = f.2.pos k := by
    rw [e3, p3]
    have := hp i.dt
    unfold Body.before at this ⊢
    rwa [p3, v3]
  obtain ⟨c1, c2, c3⟩ := C42_rest r3 hdef hdt hbef (by rw [e3, v3]; exact h.rest) (tau := t.1)
    (by
      intro k hk
      rw [(gravity_run r3.reach.inv).2 k hk, s3.fresh_eq]
      exact tau k (by rw [← e3]; exact hk)) rfl (by norm_num [DIntOpts.make])
    (by norm_num [DIntOpts.make]) hb
  have hq : b'.q = s.body.q := by
    rw [← l3]
    exact list_ext_getD c2.lq fun k hk => (c1 k (by rw [c2.lq, r3.reach.inv.tree.lq] at hk; exact hk)).1
  have hdq : b'.dq = s.body.dq := by
    rw [← m3]
    refine list_ext_getD c2.ldq fun k hk => ?_
    have hk : k < f.2.dof := by rw [c2.ldq, r3.reach.inv.tree.ldq] at hk; exact hk
    exact (c1 k hk).2.trans (by
      have := h.rest k (by rw [← e3]; exact hk)
      rw [m3]; exact this.symm)
  have hpos : b'.pos = s.body.pos := by unfold Body.pos; rw [hq]
  have hvel : b'.vel = s.body.vel := by unfold Body.vel; rw [hdq]
  have hso : StateOnly s.body b' := s3.same.stateOnly.trans c2
  have hdof : b'.dof = s.body.dof := by unfold Body.dof; rw [hso.rbs]
  have hfr : b'.fresh = s.body.fresh := by
    rw [hso.fresh, hpos, hvel]
    have := s3.same.stateOnly.fresh
    rw [p3, v3, s3.fresh_eq] at this
    exact this.symm
  have hl : s.body.dof - 1 < s.body.dof := Nat.sub_lt h.dof one_pos
  have hTw : b'.freshTw (b'.dof - 1) = s.body.freshTw (s.body.dof - 1) := by
    rw [hdof, ← fresh_Tw (b := b') (by rw [hdof]; exact hl), hfr, fresh_Tw hl]
  have hxd := hi.adjust hk s.xDes
  refine ⟨_, _, hst, ⟨⟨_, _, c3, ?_⟩, hso.definite h.definite, ?_, ?_, ?_, ?_, ?_, ?_⟩, hxd, hq, hdq, hfr,
    tau, hxd, ?_, hq, hdq⟩
  · intro dt k hk
    show Body.before b' _ dt k = b'.pos k
    unfold Body.before
    dsimp only
    split
    · rw [p3, hpos]
    · have : b'.vel k = 0 := by rw [hvel]; exact h.rest k (by rw [← hdof]; exact hk)
      beta_reduce
      rw [this]; ring
  · show 0 < b'.dof
    rw [hdof]; exact h.dof
  · show b'.dof ≤ _
    rw [hdof]; exact h.small
  · show ∀ k < b'.dof, b'.vel k = 0
    rw [hdof, hvel]; exact h.rest
  · show cfg.qDes = b'.q
    rw [hq]; exact h.joints
  · show adjustPosition key s.xDes = (b'.freshTw (b'.dof - 1)).app appOffset
    rw [hxd, hTw]; exact h.pos
  · show cfg.quatDes = C.ofRot (b'.freshTw (b'.dof - 1)).R
    rw [hTw]; exact h.ori
  · rw [hm']
    exact hx.trans h.pos.symm

theorem App.Still.run {cfg : AppCfg C} (hL : C.Law U) (l : List AppInput) : ∀ {s : App},
    s.Still E cfg → (∀ i ∈ l, i.dt ≠ 0 ∧ i.interaction.Idle cfg.robot) →
    ∃ o s', s.run E C cfg l = .ok (o, s') ∧ s'.xDes = s.xDes ∧ s'.body.q = s.body.q ∧
      s'.body.dq = s.body.dq ∧ o.length = l.length ∧ ∀ a ∈ o,
        (∀ k < s.body.dof, a.tau k = s.body.fresh.gravitySpec k) ∧ a.xDes = s.xDes ∧ a.x = s.xDes ∧
        a.q = s.body.q ∧ a.dq = s.body.dq := by
  induction l with
  | nil => intro s _ _; exact ⟨[], s, rfl, rfl, rfl, rfl, rfl, fun _ h => (nomatch h)⟩
  | cons i l ih =>
    intro s h hl
    obtain ⟨h1, h2⟩ := hl i List.mem_cons_self
    obtain ⟨o, s', hs, hS, e1, e2, e3, e4, ho⟩ := h.step hL h1 h2
    obtain ⟨os, s2, hr, f1, f2, f3, f4, hos⟩ := ih hS fun j hj => hl j (List.mem_cons_of_mem _ hj)
    have hdof : s'.body.dof = s.body.dof := congrArg Sys.n e4
    refine ⟨o :: os, s2, ?_, f1.trans e1, f2.trans e2, f3.trans e3, by simp [f4], ?_⟩
    · unfold App.run
      simp only [hs, hr, Out.bind]
    · intro a ha
      rcases List.mem_cons.1 ha with rfl | ha
      · exact ho
      · have := hos a ha
        rwa [hdof, e4, e1, e2, e3] at this

/-- C92: what the program starts with: the robot is registered under the key `spatial_dyn::model::`
with its name, stands at the home configuration, and the goal is where the point three centimetres along
the z axis of its last link then is. -/
theorem C92_start {n : Named} {home : List ℝ} {cfg : AppCfg C} {s : App} (h : Reach E n.body d)
    (hs : App.start C n home = .ok (cfg, s)) :
    cfg.robot = "spatial_dyn::model::".toList ++ n.name ∧ cfg.qDes = home ∧ s.body.q = home ∧
      s.body.dq = n.body.dq ∧ (s.body.position (-1) ⟨0, 0, 0.03⟩).map Prod.fst = .ok s.xDes := by
  obtain ⟨b1, hb1, hs⟩ := Out.bind_ok hs
  obtain ⟨x, hx, hs⟩ := Out.bind_ok hs
  obtain ⟨o, ho, hs⟩ := Out.bind_ok hs
  cases hs
  obtain ⟨q1, v1⟩ := setQ_pos hb1
  have i1 := (Reach.step (b' := b1) (.setQ home) h trivial (by simp [Op.exec, Op.step, hb1])).inv
  obtain ⟨s2, -, k, hk, -, ex⟩ := position_run i1 hx
  have s3 := s2.trans (orientation_run (i1.step s2) ho).1
  obtain ⟨b4, h4⟩ := position_of_index (i1.step s3) (l := -1) (k := k)
    (by rw [s3.index]; exact hk) ⟨0, 0, 0.03⟩
  refine ⟨rfl, rfl, ?_, ?_, ?_⟩
  · obtain ⟨c, hc, -⟩ := s3
    show o.2.q = home
    rw [hc, ← q1]
  · obtain ⟨c, hc, -⟩ := s3
    show o.2.dq = _
    rw [hc, ← v1]
  · show (o.2.position (-1) ⟨0, 0, 0.03⟩).map Prod.fst = .ok x.1
    rw [h4, ex, s3.freshTw]
    rfl

/-- C92: the program started with a resting robot keeps it at rest at the home configuration for ever:
for every number of cycles, gains and time steps, while nobody drags a link or presses a key, it publishes
the torques of gravity, the unchanged goal and the end effector at the goal. -/
theorem C92_rest {n : Named} {home : List ℝ} (h : DReach E n.body d none) (hD : n.body.Definite)
    (hd : 0 < n.body.dof) (hn : n.body.dof ≤ 2 ^ 31) (hv : ∀ k < n.body.dof, n.body.vel k = 0)
    (hq : home.length = n.body.dof) (hL : C.Law U) : ∃ cfg s, App.start C n home = .ok (cfg, s) ∧
    ∀ l : List AppInput, (∀ i ∈ l, i.dt ≠ 0 ∧ i.interaction.Idle cfg.robot) →
    ∃ o s', s.run E C cfg l = .ok (o, s') ∧ o.length = l.length ∧ s'.xDes = s.xDes ∧
      s'.body.q = home ∧ (∀ k < n.body.dof, s'.body.vel k = 0) ∧ ∀ a ∈ o,
        (∀ k < n.body.dof, a.tau k = s.body.gravity.1 k) ∧ a.xDes = s.xDes ∧ a.x = s.xDes ∧
        a.q = home ∧ ∀ k < n.body.dof, a.dq.getD k 0 = 0 := by
  obtain ⟨b1, hb1, e1⟩ := setQ_total (b := n.body) hq
  obtain ⟨q1, v1⟩ := setQ_pos hb1
  obtain ⟨d1, r1⟩ : ∃ d1, DReach E b1 d1 none := by
    have := DReach.step (b' := b1) (.setQ home) h trivial (by simp [Op.exec, Op.step, hb1]) trivial
    have hp : Op.prev n.body b1 none (.setQ home) = none := by
      simp only [Op.prev, ite_self]
    rw [hp] at this
    exact ⟨_, this⟩
  have i1 := r1.reach.inv
  have hd1 : 0 < b1.dof := by rw [e1]; exact hd
  obtain ⟨b2, hx⟩ := position_of_index i1 (lastLink hd1).index appOffset
  have a2 := (Asked.refl (E := E)).position hx
  have s2 := a2.step i1
  dsimp only at s2 a2
  obtain ⟨b3, ho⟩ := orientation_of_index (i1.step s2) (l := -1) (k := b1.dof - 1)
    (by rw [s2.index]; exact (lastLink hd1).index)
  have a3 := a2.orientation ho
  have s3 := a3.step i1
  dsimp only at s3 a3
  obtain ⟨d3, r3⟩ := a3.dreach r1
  have e3 : b3.dof = b1.dof := s3.dof_eq
  have hq3 : b3.q = home := by
    have : b3.q = b1.q := by obtain ⟨c, hc, -⟩ := s3; rw [hc]
    rw [this, q1]
  have hv3 : b3.dq = n.body.dq := by
    have : b3.dq = b1.dq := by obtain ⟨c, hc, -⟩ := s3; rw [hc]
    rw [this, v1]
  have hvel : ∀ k < n.body.dof, b3.vel k = 0 := by
    unfold Body.vel; rw [hv3]; exact hv
  refine ⟨⟨C.ofRot (b2.freshTw (b1.dof - 1)).R, home, appModels ++ n.name⟩,
    ⟨(b1.freshTw (b1.dof - 1)).app appOffset, b3⟩, ?_, ?_⟩
  · unfold App.start
    simp only [hb1, hx, ho, Out.bind]
  · have hS : App.Still E (⟨C.ofRot (b2.freshTw (b1.dof - 1)).R, home, appModels ++ n.name⟩ : AppCfg C)
        ⟨(b1.freshTw (b1.dof - 1)).app appOffset, b3⟩ := by
      refine ⟨⟨d3, none, r3, ?_⟩, ?_, ?_, ?_, ?_, ?_, ?_, ?_⟩
      · intro dt k hk
        show b3.pos k - dt * b3.vel k = b3.pos k
        rw [hvel k (by rw [← e1, ← e3]; exact hk)]
        ring
      · exact s3.same.stateOnly.definite
          ((setQ_stateOnly h.reach.inv.tree.lq hb1).definite hD)
      · show 0 < b3.dof
        rw [e3]; exact hd1
      · show b3.dof ≤ _
        rw [e3, e1]; exact hn
      · show ∀ k < b3.dof, b3.vel k = 0
        rw [e3, e1]; exact hvel
      · exact hq3.symm
      · show _ = (b3.freshTw (b3.dof - 1)).app appOffset
        rw [e3, s3.freshTw]
      · show _ = C.ofRot (b3.freshTw (b3.dof - 1)).R
        rw [e3, s3.freshTw, s2.freshTw]
    intro l hl
    obtain ⟨o, s', hr, f1, f2, f3, f4, hos⟩ := hS.run hL l hl
    dsimp only at f1 f2 f3 hos
    have hvz : ∀ k < n.body.dof, b3.dq.getD k 0 = 0 := hvel
    refine ⟨o, s', hr, f4, f1, f2.trans hq3, ?_, ?_⟩
    · unfold Body.vel; rw [f3]; exact hvel
    · intro a ha
      obtain ⟨g1, g2, g3, g4, g5⟩ := hos a ha
      refine ⟨fun k hk => ?_, g2, g3, g4.trans hq3, by rw [g5]; exact hvz⟩
      have hk : k < b3.dof := by rw [e3, e1]; exact hk
      exact (g1 k hk).trans ((gravity_run r3.reach.inv).2 k hk).symm

/-! ## Witnesses -/

theorem cart_definite (c : Cache) : (cart c).Definite :=
  have h := solo_definite (t := .px) fun h => by
    have := congrArg (fun m : Motion => m.lin.x) h
    simp [JType.subspace] at this
  ⟨h.mass, h.symm, h.pd, h.load, h.axes⟩

/-- The cart, sent to 2, stays there, for 1000 cycles. -/
example (i : AppInput) (hdt : i.dt = 0.001)
    (hm : i.interaction = ⟨.val [], .missing, .missing, .missing, .val ['x']⟩) :
    ∃ cfg s o s', App.start ctl0 { name := ['c'], body := cart cache0 } [2] = .ok (cfg, s) ∧
      s.run ext0 ctl0 cfg (List.replicate 1000 i) = .ok (o, s') ∧ o.length = 1000 ∧ s'.body.q = [2] := by
  obtain ⟨cfg, s, hs, h⟩ := C92_rest (C := ctl0) (U := Mat3.IsRot) (n := { name := ['c'], body := cart cache0 })
    (home := [2]) (cart_reach ext0 cache0) (cart_definite cache0) (by decide) (by decide)
    (fun k hk => by
      have : k < 1 := hk
      obtain rfl : k = 0 := by omega
      rfl) rfl ctl0_law
  have hr : cfg.robot = appModels ++ ['c'] := by
    obtain ⟨b, -, hs⟩ := Out.bind_ok hs
    obtain ⟨x, -, hs⟩ := Out.bind_ok hs
    obtain ⟨y, -, hs⟩ := Out.bind_ok hs
    have := Out.ok.inj hs
    rw [← (Prod.mk.inj this).1]
  obtain ⟨o, s', h1, h2, -, h3, -⟩ := h (List.replicate 1000 i) fun j hj => by
    obtain ⟨-, rfl⟩ := List.mem_replicate.1 hj
    refine ⟨by rw [hdt]; norm_num, ⟨⟨[], by rw [hm], ?_⟩, ⟨['x'], by rw [hm], ?_⟩⟩⟩
    · rw [hr]
      exact (List.append_ne_nil_of_right_ne_nil _ (by simp)).symm
    · intro c hc
      cases hc
      decide
  exact ⟨cfg, s, o, s', hs, h1, by rw [h2, List.length_replicate], h3⟩

/-- Pulling the cart by its origin, at 0, towards the point one metre along the rail. -/
example : ∃ f b', (cart cache0).clickForces ['c'] ⟨.val ['c'], .val 0, .val ⟨1, 0, 0⟩, .val 0, .missing⟩
    = .ok (f, b') ∧ (b'.externalTorques f).1 0 = -100 := by
  have h := (cart_reach ext0 cache0).reach
  have hi : (cart cache0).LinkIdx ((0 : ℕ) : ℤ) 0 := ⟨by decide, .inl rfl⟩
  have hT : (cart cache0).freshTw 0 = 1 := by
    show (1 : Iso) * ((1 : Iso) * JType.px.Tjoint 0) = 1
    rw [Tjoint_zero]
    ext <;> simp
  obtain ⟨b1, hx⟩ := position_of_index h.inv hi.index 0
  obtain ⟨r, hr⟩ := jacobian_total (cart cache0) hi 0
  obtain ⟨f, b', h1, -, h2⟩ := C89_drag h (k := 0) (b := cart cache0) (x := 0) (J := fun i => (r.1 i).lin)
    (m := ⟨.val ['c'], .val 0, .val ⟨1, 0, 0⟩, .val 0, .missing⟩) (robot := ['c']) (by decide) (by decide)
    rfl rfl rfl rfl (by rw [hx, hT]; simp [Out.map, Out.bind, Iso.app])
    (by unfold linearJacobian; rw [hr]; rfl)
  refine ⟨f, b', h1, ?_⟩
  rw [h2 0 (by decide)]
  have hJ : (r.1 0).lin = ⟨1, 0, 0⟩ := by
    rw [jacobian_val h.inv hi hr 0]
    unfold Sys.Jw Sys.axis
    rw [if_pos .refl, fresh_Tw (by decide), hT]
    show (((1 : Iso).actM JType.px.subspace).atPoint _).lin = _
    ext <;> simp [JType.subspace, Motion.atPoint, Vec3.cross]
  rw [hJ]
  simp [Vec3.dot]

end SpatialDyn
