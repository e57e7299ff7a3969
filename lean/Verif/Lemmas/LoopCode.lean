import Verif.Spec.Loop
import Verif.Lemmas.Loop
import Verif.Lemmas.Flow
import Verif.Props.ControlDefaults

/-!
# The joint-space controller closes the loop of `Verif.Lemmas.Loop`
-/

namespace SpatialDyn
open Set Body OneStep Matrix
open scoped ContDiff

variable {E : Ext} {C : Ctl} {U : C.Quat → Prop} {b : Body} {d : Bool}

namespace Body

theorem AtState.fresh_eq {y : State b.dof} {B : Body} (hA : AtState E b y B) :
    B.fresh = b.sysAt (padFin y.1) (padFin y.2) := by
  have hv : B.vel = padFin y.2 := by unfold Body.vel; rw [hA.dq, getD_ofFn_pad]
  have hp : B.pos = padFin y.1 := by unfold Body.pos; rw [hA.q, getD_ofFn_pad]
  rw [hA.only.fresh, hp, hv]

theorem AtState.step {y : State b.dof} {B B' : Body} (hA : AtState E b y B) (hs : Step E B B') :
    AtState E b y B' := by
  refine ⟨hA.only.trans hs.same.stateOnly, hA.inv.step hs, ?_, ?_⟩
  · obtain ⟨c, rfl, -⟩ := hs; exact hA.q
  · obtain ⟨c, rfl, -⟩ := hs; exact hA.dq

theorem atState_of_set (h : Reach E b d) {q dq : List ℝ} {b1 B : Body} (h1 : b.setQ q = .ok b1)
    (h2 : b1.setDq dq = .ok B) :
    AtState E b (fun i => q.getD i 0, fun i => dq.getD i 0) B := by
  obtain ⟨hs, hd, -, -, -, d', r⟩ := h.after_set ⟨b1, h1, h2⟩
  have hl : q.length = b.dof := by
    have := r.inv.tree.lq; rw [setDq_q h2, setQ_q h1, hd] at this; exact this
  have hl' : dq.length = b.dof := by
    have := r.inv.tree.ldq; rw [setDq_dq h2, hd] at this; exact this
  refine ⟨hs, r.inv, ?_, ?_⟩
  · rw [setDq_q h2, setQ_q h1]; exact (stateOf_ofFn hl).symm
  · rw [setDq_dq h2]; exact (stateOf_ofFn hl').symm

/-- The field under torques is the plant. -/
theorem field_plant (h : Reach E b d) (hd : b.Definite) {c : Cache} (hc : c.Clear) {tau : ℕ → ℝ}
    {o : IntOpts} (ho : o.friction = false) (hg : o.gravity = true)
    (hbase : o.aba = false ∨ b.T0.R.mulVec b.g = b.g) {u : Fin b.dof → ℝ} (hu : vec b.dof tau = u) :
    b.field E c tau noExt o = fun y => b.plant o.cc (u, y) := by
  funext y
  rw [field_val h hd hc tau noExt o ho]
  have e : (if o.aba = true then b.T0.R.mulVec b.g else b.g) = b.g := by
    rcases hbase with h | h
    · simp [h]
    · split
      · exact h
      · rfl
  rw [e, hg]
  unfold plant accAt
  rw [hu, vec_padFin]

/-- What the controller does to a body in some state. -/
theorem AtState.control {y : State b.dof} {B : Body} (hA : AtState E b y B) (h : Reach E b d)
    (hd : b.Definite) (hL : C.Law U) {goal : List ℝ} (hgl : goal.length = b.dof) (kp kv : ℝ)
    {maxAcc : Option ℝ} (ha : maxAcc.getD 0 ≤ 0) (thr : Option (ℝ × ℝ)) (step : Option ℝ) :
    ∃ r, B.jointSpaceControl E C (some goal) (kp, kv) maxAcc thr true step = .ok r ∧
      vec b.dof r.1.1 = b.pdTau (vecOf b.dof goal) kp kv y ∧
      (r.1.2 = true ↔ ∀ t, thr = some t →
        Real.sqrt (∑ i ∈ Finset.range b.dof, (B.q.getD i 0 - goal.getD i 0) ^ 2) < t.1 ∧
        Real.sqrt (∑ i ∈ Finset.range b.dof, B.dq.getD i 0 ^ 2) < t.2) ∧
      (step = none → AtState E b y r.2) ∧
      ∀ dt, step = some dt → AtState E b
        (rk4 (fun z => b.plant true (b.pdTau (vecOf b.dof goal) kp kv y, z)) id dt y) r.2 := by
  have hn : B.dof = b.dof := hA.dof
  have hm := hd.massive h.inv.tree
  have hmB : B.Massive := hA.only.massive hm
  set pd := (C.pdN B.dof (vecOf B.dof B.q) (vecOf B.dof goal) (vecOf B.dof B.dq) (kp, kv)
    (maxAcc.getD 0)) with hpd
  have hacc : padFin pd.1 = padFin (pdLaw (vecOf b.dof goal) kp kv y) := by
    rw [hpd, hL.pdN_acc _ _ _ _ _ _ _ ha]
    funext i
    unfold padFin
    by_cases hi : i < b.dof
    · rw [dif_pos hi, dif_pos (hn.symm ▸ hi)]
      have e1 := hA.qFun ⟨i, hi⟩
      have e2 := hA.dqFun ⟨i, hi⟩
      unfold Body.qFun at e1
      unfold Body.dqFun at e2
      simp only at e1 e2
      simp only [pdLaw, vecOf, Pi.sub_apply, Pi.neg_apply, Pi.smul_apply, smul_eq_mul, e1, e2]
    · rw [dif_neg hi, dif_neg (hn.symm ▸ hi)]
  set t := B.inverseDynamics (padFin pd.1) noExt ⟨true, false, false, 0.01⟩ with ht
  have htau : vec b.dof t.1 = b.pdTau (vecOf b.dof goal) kp kv y := by
    funext i
    show t.1 i = _
    rw [ht, inverseDynamics_val hA.inv hmB.symI (hmB.posMass hA.inv.tree) _ _ _ i
      (by rw [hn]; exact i.2)]
    unfold Sys.addFriction
    simp only [Bool.false_eq_true, if_false]
    rw [hA.fresh_eq, hacc]
    rfl
  have hst : Step E B t.2 := inverseDynamics_step hA.inv _ _ _
  have hconv : jointConverged thr pd.2 (vecOf B.dof B.dq) = true ↔ ∀ t, thr = some t →
      Real.sqrt (∑ i ∈ Finset.range b.dof, (B.q.getD i 0 - goal.getD i 0) ^ 2) < t.1 ∧
      Real.sqrt (∑ i ∈ Finset.range b.dof, B.dq.getD i 0 ^ 2) < t.2 := by
    rw [hpd, hL.pdN_err, ← hn]
    unfold jointConverged
    cases thr with
    | none => simp
    | some t =>
      simp only [decide_eq_true_eq, Option.some.injEq, forall_eq']
      unfold norm2
      rw [Finset.sum_range, Finset.sum_range]
      rfl
  have hlen : ((some goal : Option (List ℝ)).getD B.q).length = B.dof := by
    rw [hn]; exact hgl
  unfold jointSpaceControl
  dsimp only
  rw [if_neg (not_not.2 hlen)]
  cases step with
  | none =>
    exact ⟨_, rfl, htau, hconv, fun _ => hA.step hst, fun _ e => by cases e⟩
  | some dt =>
    obtain ⟨b', hb', hA'⟩ := (hA.step hst).integrate h.inv hm.symI (hm.posMass h.inv.tree)
      (c := cache0) (by constructor <;> rfl) t.1 dt noExt IntOpts.make
    have hf : b.codeFilter (IntOpts.make).jointLimits = id := by
      funext y
      unfold codeFilter
      simp [IntOpts.make]
    rw [hf, field_plant h hd (by constructor <;> rfl) rfl rfl (.inl rfl) htau] at hA'
    refine ⟨((t.1, jointConverged thr pd.2 (vecOf B.dof B.dq)), b'), ?_, htau, hconv,
      fun e => (by cases e), fun _ e => ?_⟩
    · show (t.2.integrate E t.1 dt noExt IntOpts.make).bind _ = _
      rw [hb']
      rfl
    · cases e
      exact hA'

end Body
end SpatialDyn
