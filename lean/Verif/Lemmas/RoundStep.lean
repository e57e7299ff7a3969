import Verif.Lemmas.RoundSolve
import Verif.Lemmas.RungeKutta
import Verif.Lemmas.Field
import Verif.Lemmas.LoopCode
import Verif.Props.Converge

/-!
# Steps of `Integrate` computed with a small error
-/

namespace SpatialDyn
open Finset Body

variable {P : Type*} {E : Ext} {b : Body} {d : Bool}

namespace Body

/-- `ForwardDynamicsAba` answers the same whatever is cached. -/
theorem aba_anew (h : Reach E b d) (hd : b.Definite) (tau : ℕ → ℝ) (fext : FExt) (o : FDOpts)
    (ho : o.friction = false) (c : AbaCache) {i : ℕ} (hi : i < b.dof) :
    (b.forwardDynamicsAba tau fext o).1 i =
      (b.fresh.aba tau fext o false false (fun _ => ⟨0, 0, 0⟩) c).ddq i := by
  have hm := hd.massive h.inv.tree
  have hpd : b.fresh.MassPD := h.inv.wf.massPD hd.physPD hd.axes
  have hD : ∀ i < b.fresh.n, b.fresh.artD i ≠ 0 :=
    fun i hi => (h.inv.wf.artD_pos hm.symI hpd i hi).ne'
  refine Sys.solve_unique (fresh_det h hm (hd.form h)) (fun k hk => ?_) i hi
  have h1 := h.inv.wf.aba_sound_gravity hm.symI hD tau fext o b.c.velDone b.c.abaDone b.vaf b.c.aba
    h.inv.coh.vel h.inv.coh.aba ho ⟨b.T0.R.mulVec b.g, 0⟩
    (fun _ i hi hr => Body.root_gravity h i hi hr) k hk
  have h2 := h.inv.wf.aba_sound_gravity hm.symI hD tau fext o false false (fun _ => ⟨0, 0, 0⟩) c
    (fun h => by cases h) (fun h => by cases h) ho ⟨b.T0.R.mulVec b.g, 0⟩
    (fun _ i hi hr => Body.root_gravity h i hi hr) k hk
  unfold Body.forwardDynamicsAba
  simp only [h.inv.view]
  change (∑ j ∈ range b.dof, b.fresh.massSpec k j * _) + _ + _ + _ = _ at h1
  change (∑ j ∈ range b.dof, b.fresh.massSpec k j * _) + _ + _ + _ = _ at h2
  linarith

/-- Positions and rates of all joints are computed with a small error. -/
structure AccY (b : Body) (y : Fl → P → (ℕ → ℝ) × (ℕ → ℝ)) (z : P → State b.dof) : Prop where
  q : ∀ i : Fin b.dof, Acc (fun F p => (y F p).1 i) fun p => (z p).1 i
  dq : ∀ i : Fin b.dof, Acc (fun F p => (y F p).2 i) fun p => (z p).2 i

variable {y : Fl → P → (ℕ → ℝ) × (ℕ → ℝ)} {z : P → State b.dof}

theorem acc_aba (h : Reach E b d) (hd : b.Definite) (tau : ℕ → ℝ) (fext : FExt) (o : FDOpts)
    (ho : o.friction = false) {q dq : Fl → P → ℕ → ℝ} {x w : P → ℕ → ℝ}
    (hq : ∀ i < b.dof, Acc (fun F p => q F p i) fun p => x p i)
    (hdq : ∀ i < b.dof, Acc (fun F p => dq F p i) fun p => w p i) (c : AbaCache) {i : ℕ} (hi : i < b.dof) :
    Acc (fun F p => F.aba (F.sysAt b (q F p) (dq F p)) tau fext o i)
      fun p => ((b.sysAt (x p) (w p)).aba tau fext o false false (fun _ => ⟨0, 0, 0⟩) c).ddq i := by
  obtain ⟨e, he, hl⟩ := artD_ge h.inv hd
  exact (acc_sys h.inv.tree hq hdq).aba (hd.massive h.inv.tree).loadOK h.inv.tree.parLt tau fext o ho c
    (fun p => sysAt_wf h.inv.tree h.inv.rigid (x p) (w p)) he
    (fun p i hi => (hl (x p) (w p) i hi).trans (le_abs_self _)) hi

theorem acc_field (h : Reach E b d) (hd : b.Definite) (tau : ℕ → ℝ) (fext : FExt) (o : IntOpts)
    (ho : o.friction = false) {q dq : Fl → P → ℕ → ℝ} {z : P → State b.dof}
    (hq : ∀ i : Fin b.dof, Acc (fun F p => q F p i) fun p => (z p).1 i)
    (hdq : ∀ i : Fin b.dof, Acc (fun F p => dq F p i) fun p => (z p).2 i) (i : Fin b.dof) :
    Acc (fun F p => (if o.aba then F.aba (F.sysAt b (q F p) (dq F p)) tau fext o.fd
      else F.fd (F.sysAt b (q F p) (dq F p)) tau fext o.fd) i)
      fun p => (b.field E cache0 tau fext o (z p)).2 i := by
  have hm := hd.massive h.inv.tree
  have pad : ∀ {f : Fl → P → ℕ → ℝ} {x : P → Fin b.dof → ℝ},
      (∀ i : Fin b.dof, Acc (fun F p => f F p i) fun p => x p i) →
      ∀ i < b.dof, Acc (fun F p => f F p i) fun p => padFin (x p) i := fun hf i hi =>
    (hf ⟨i, hi⟩).congr fun p => by simp [padFin, hi]
  cases ha : o.aba with
  | true =>
    simp only [if_true]
    refine (acc_aba h hd tau fext o.fd ho (pad hq) (pad hdq) cache0.aba i.2).congr fun p => ?_
    obtain ⟨B, d', hB, hA, hf⟩ := exists_at h (z p)
    rw [← (hA.accel h.inv hm.symI (hm.posMass h.inv.tree) cache0_clear tau fext o).1 i, ← hf]
    have hn : B.dof = b.dof := hA.dof
    unfold Body.accel
    rw [if_pos ha]
    exact (aba_anew hB (hA.only.definite hd) tau fext o.fd ho cache0.aba (lt_of_lt_of_eq i.2 hn.symm)).symm
  | false =>
    simp only [Bool.false_eq_true, if_false]
    refine (acc_fd h hd tau fext o.fd (pad hq) (pad hdq)
      (a := fun p => padFin (b.field E cache0 tau fext o (z p)).2) (fun p k hk => ?_) i.2).congr
      fun p => by simp [padFin]
    obtain ⟨B, d', hB, hA, hf⟩ := exists_at h (z p)
    have hn : B.dof = b.dof := hA.dof
    have hD := hA.only.definite hd
    have hmB := hD.massive hB.inv.tree
    have e1 := fd_solves hB hmB (hD.form hB) tau fext o.fd k (hn ▸ hk)
    rw [hn, hf] at e1
    unfold Sys.fdRhs at e1
    rw [show o.fd.friction = false from ho] at e1
    refine Eq.trans (sum_congr rfl fun j hj => ?_) e1
    have hj := mem_range.1 hj
    have e2 := (hA.accel h.inv hm.symI (hm.posMass h.inv.tree) cache0_clear tau fext o).1 ⟨j, hj⟩
    unfold Body.accel at e2
    rw [if_neg (by rw [ha]; simp)] at e2
    simp only [padFin, hj, dite_true]
    rw [← e2]

theorem acc_method {f : Fl → (ℕ → ℝ) → (ℕ → ℝ) → ℕ → ℝ} {G : State b.dof → State b.dof}
    (G1 : ∀ s, (G s).1 = s.2) (stage : ∀ (q dq : Fl → P → ℕ → ℝ) (s : P → State b.dof),
      (∀ i : Fin b.dof, Acc (fun F p => q F p i) fun p => (s p).1 i) →
      (∀ i : Fin b.dof, Acc (fun F p => dq F p i) fun p => (s p).2 i) → ∀ i : Fin b.dof,
      Acc (fun F p => f F (q F p) (dq F p) i) fun p => (G (s p)).2 i) {dt : P → ℝ}
    (c0 : Acc (fun _ p => dt p) dt) (m : Method) (hy : b.AccY y z) :
    b.AccY (fun F p => F.integrateWith (f F) (dt p) m (y F p)) fun p => scheme m G id (dt p) (z p) := by
  have c1 : Acc (fun (F : Fl) (p : P) => F.mul 0.5 (dt p)) fun p => 0.5 * dt p := (Acc.const 0.5).mul c0
  have a0 := stage _ _ _ hy.q hy.dq
  unfold Fl.integrateWith
  cases m with
  | euler =>
    refine ⟨fun i => ?_, fun i => ?_⟩
    · refine (((hy.q i).add (c0.mul (hy.dq i))).add ((c1.mul c0).mul (a0 i))).congr fun p => ?_
      simp only [scheme, taylor, id, Pi.add_apply, Pi.smul_apply, smul_eq_mul]
      ring
    · refine ((hy.dq i).add (c0.mul (a0 i))).congr fun p => ?_
      simp only [scheme, taylor, id, Pi.add_apply, Pi.smul_apply, smul_eq_mul]
  | heuns =>
    have d1 : ∀ i : Fin b.dof, Acc _ fun p => (z p + dt p • G (z p)).2 i := fun i =>
      (hy.dq i).add (c0.mul (a0 i))
    have q1 : ∀ i : Fin b.dof, Acc _ fun p => (z p + dt p • G (z p)).1 i := fun i =>
      ((hy.q i).add (c0.mul (hy.dq i))).congr fun p => by simp [G1]
    have a1 := stage (fun F p i => F.add ((y F p).1 i) (F.mul (dt p) ((y F p).2 i)))
      (fun F p i => F.add ((y F p).2 i) (F.mul (dt p) (f F (y F p).1 (y F p).2 i))) _ q1 d1
    have e : ∀ p, scheme .heuns G id (dt p) (z p) = heun G id (dt p) (z p) := fun _ => rfl
    refine ⟨fun i => ?_, fun i => ?_⟩
    · refine ((hy.q i).add (c1.mul ((hy.dq i).add (d1 i)))).congr fun p => ?_
      simp only [e, OneStep.heun_eq, G1, Prod.fst_add, Prod.smul_fst, Prod.snd_add, Prod.smul_snd, Pi.add_apply,
        Pi.smul_apply, smul_eq_mul]
      ring
    · refine ((hy.dq i).add (c1.mul ((a0 i).add (a1 i)))).congr fun p => ?_
      simp only [e, OneStep.heun_eq, Prod.snd_add, Prod.smul_snd, Pi.add_apply, Pi.smul_apply, smul_eq_mul]
      ring
  | rk4 =>
    have two : Acc (fun (_ : Fl) (_ : P) => (2 : ℝ)) fun _ => 2 := .const 2
    have six : Acc (fun (F : Fl) (p : P) => F.div (dt p) 6) fun p => dt p / 6 :=
      c0.div (.const 6) (c := 6) (by norm_num) fun _ => by norm_num
    let D1 : Fl → P → ℕ → ℝ := fun F p i =>
      F.add ((y F p).2 i) (F.mul (F.mul 0.5 (dt p)) (f F (y F p).1 (y F p).2 i))
    let Q1 : Fl → P → ℕ → ℝ := fun F p i => F.add ((y F p).1 i) (F.mul (F.mul 0.5 (dt p)) ((y F p).2 i))
    let D2 : Fl → P → ℕ → ℝ := fun F p i =>
      F.add ((y F p).2 i) (F.mul (F.mul 0.5 (dt p)) (f F (Q1 F p) (D1 F p) i))
    let Q2 : Fl → P → ℕ → ℝ := fun F p i => F.add ((y F p).1 i) (F.mul (F.mul 0.5 (dt p)) (D1 F p i))
    let D3 : Fl → P → ℕ → ℝ := fun F p i =>
      F.add ((y F p).2 i) (F.mul (dt p) (f F (Q2 F p) (D2 F p) i))
    let Q3 : Fl → P → ℕ → ℝ := fun F p i => F.add ((y F p).1 i) (F.mul (dt p) (D2 F p i))
    let z1 : P → State b.dof := fun p => z p + (dt p / 2) • G (z p)
    let z2 : P → State b.dof := fun p => z p + (dt p / 2) • G (z1 p)
    let z3 : P → State b.dof := fun p => z p + dt p • G (z2 p)
    have d1 : ∀ i : Fin b.dof, Acc (fun F p => D1 F p i) fun p => (z1 p).2 i := fun i =>
      ((hy.dq i).add (c1.mul (a0 i))).congr fun p => by
        simp only [z1, Prod.snd_add, Prod.smul_snd, Pi.add_apply, Pi.smul_apply, smul_eq_mul]; ring
    have q1 : ∀ i : Fin b.dof, Acc (fun F p => Q1 F p i) fun p => (z1 p).1 i := fun i =>
      ((hy.q i).add (c1.mul (hy.dq i))).congr fun p => by
        simp only [z1, Prod.fst_add, Prod.smul_fst, Pi.add_apply, Pi.smul_apply, smul_eq_mul, G1]; ring
    have a1 := stage Q1 D1 z1 q1 d1
    have d2 : ∀ i : Fin b.dof, Acc (fun F p => D2 F p i) fun p => (z2 p).2 i := fun i =>
      ((hy.dq i).add (c1.mul (a1 i))).congr fun p => by
        simp only [z2, Prod.snd_add, Prod.smul_snd, Pi.add_apply, Pi.smul_apply, smul_eq_mul]; ring
    have q2 : ∀ i : Fin b.dof, Acc (fun F p => Q2 F p i) fun p => (z2 p).1 i := fun i =>
      ((hy.q i).add (c1.mul (d1 i))).congr fun p => by
        simp only [z2, Prod.fst_add, Prod.smul_fst, Pi.add_apply, Pi.smul_apply, smul_eq_mul, G1]; ring
    have a2 := stage Q2 D2 z2 q2 d2
    have d3 : ∀ i : Fin b.dof, Acc (fun F p => D3 F p i) fun p => (z3 p).2 i := fun i =>
      ((hy.dq i).add (c0.mul (a2 i))).congr fun p => by
        simp only [z3, Prod.snd_add, Prod.smul_snd, Pi.add_apply, Pi.smul_apply, smul_eq_mul]
    have q3 : ∀ i : Fin b.dof, Acc (fun F p => Q3 F p i) fun p => (z3 p).1 i := fun i =>
      ((hy.q i).add (c0.mul (d2 i))).congr fun p => by
        simp only [z3, Prod.fst_add, Prod.smul_fst, Pi.add_apply, Pi.smul_apply, smul_eq_mul, G1]
    have a3 := stage Q3 D3 z3 q3 d3
    have e : ∀ p, scheme .rk4 G id (dt p) (z p) = z p + (dt p / 6) • (G (z p) + (2 : ℝ) • G (z1 p) +
        (2 : ℝ) • G (z2 p) + G (z3 p)) := fun p => OneStep.rk4_eq (dt p) (z p)
    refine ⟨fun i => ?_, fun i => ?_⟩
    · refine ((hy.q i).add (six.mul ((((hy.dq i).add (two.mul (d1 i))).add (two.mul (d2 i))).add
        (d3 i)))).congr fun p => ?_
      simp only [e, Prod.fst_add, Prod.smul_fst, Pi.add_apply, Pi.smul_apply, smul_eq_mul, G1]
    · refine ((hy.dq i).add (six.mul ((((a0 i).add (two.mul (a1 i))).add (two.mul (a2 i))).add
        (a3 i)))).congr fun p => ?_
      simp only [e, Prod.snd_add, Prod.smul_snd, Pi.add_apply, Pi.smul_apply, smul_eq_mul]

theorem acc_step (h : Reach E b d) (hd : b.Definite) (tau : ℕ → ℝ) {dt : P → ℝ}
    (c0 : Acc (fun _ p => dt p) dt) (fext : FExt) (o : IntOpts) (ho : o.friction = false)
    (hy : b.AccY y z) : b.AccY (fun F p => F.integrate b tau (dt p) fext o (y F p))
      fun p => scheme o.method (b.field E cache0 tau fext o) id (dt p) (z p) :=
  acc_method (f := fun F q dq => if o.aba then F.aba (F.sysAt b q dq) tau fext o.fd
    else F.fd (F.sysAt b q dq) tau fext o.fd) (fun _ => rfl)
    (fun _ _ _ h1 h2 => acc_field h hd tau fext o ho h1 h2) c0 o.method hy

theorem acc_steps (h : Reach E b d) (hd : b.Definite) (tau : ℕ → ℝ) (dt : ℝ) (fext : FExt) (o : IntOpts)
    (ho : o.friction = false) (hy : b.AccY y z) (k : ℕ) :
    b.AccY (fun F p => (F.integrate b tau dt fext o)^[k] (y F p))
      fun p => (scheme o.method (b.field E cache0 tau fext o) id dt)^[k] (z p) := by
  induction k with
  | zero => exact hy
  | succ k ih =>
    simp only [Function.iterate_succ_apply']
    exact acc_step h hd tau (.const dt) fext o ho ih

/-- Repeated integration from any state that was set. -/
theorem steps_from (h : Reach E b d) (hm : b.Massive) {c : Cache} (hc : c.Clear) (tau : ℕ → ℝ)
    (dt : ℝ) (fext : FExt) (o : IntOpts) (ho : o.jointLimits = false) {s : State b.dof} {B : Body}
    (hB : AtState E b s B) (n : ℕ) : ∃ b', steps E tau dt fext o n B = .ok b' ∧
      AtState E b ((scheme o.method (b.field E c tau fext o) id dt)^[n] s) b' := by
  have e : b.codeFilter o.jointLimits = id := by
    funext y
    unfold codeFilter
    simp [ho]
  induction n with
  | zero => exact ⟨B, rfl, hB⟩
  | succ n ih =>
    obtain ⟨b1, h1, h2⟩ := ih
    obtain ⟨b2, h3, h4⟩ := h2.integrate h.inv hm.symI (hm.posMass h.inv.tree) hc tau dt fext o
    refine ⟨b2, by simp [steps, h1, h3], ?_⟩
    rw [Function.iterate_succ_apply']
    rw [e] at h4
    exact h4

end Body
end SpatialDyn
