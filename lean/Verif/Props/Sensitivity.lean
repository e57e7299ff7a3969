import Verif.Props.Bounds

/-!
# C152: small errors of the state cause small errors of the answers

For a robot whose joints all turn, the answers change at most by a multiple of the change of the positions
and velocities, the multiple being the same for all positions (and, where velocities take part, for all
velocities up to a given size).
-/

namespace SpatialDyn
open Finset Body OneStep
open scoped ContDiff

variable {E : Ext} {b : Body} {d : Bool}

/-- The sum of the differences of the first `n` entries. -/
noncomputable def apart (n : ℕ) (x y : List ℝ) : ℝ := ∑ j ∈ range n, |x.getD j 0 - y.getD j 0|

theorem apart_nonneg (n : ℕ) (x y : List ℝ) : 0 ≤ apart n x y := sum_nonneg fun _ _ => abs_nonneg _

/-- Smooth functions that repeat with full turns change at most by a multiple of the change of the state. -/
theorem torus_gap {n : ℕ} {G : State n → ℝ} (hG : ContDiff ℝ 1 G)
    (hp : ∀ y (m : Fin n → ℤ), G (y + (fun i => 2 * Real.pi * m i, 0)) = G y) (R : ℝ) :
    ∃ L, 0 ≤ L ∧ ∀ q v q' v' : List ℝ, (∀ j < n, |v.getD j 0| ≤ R) → (∀ j < n, |v'.getD j 0| ≤ R) →
      |G (fun i => q.getD i 0, fun i => v.getD i 0) - G (fun i => q'.getD i 0, fun i => v'.getD i 0)| ≤
        L * (apart n q q' + apart n v v') := by
  obtain ⟨L, L0, hL⟩ := torus_lip hG hp |R|
  have hb : ∀ v : List ℝ, (∀ j < n, |v.getD j 0| ≤ R) → ‖fun i : Fin n => v.getD i 0‖ ≤ |R| := fun v hv =>
    (pi_norm_le_iff_of_nonneg (abs_nonneg _)).2 fun i => (hv i i.2).trans (le_abs_self _)
  have hg : ∀ x y : List ℝ, ‖(fun i : Fin n => x.getD i 0) - fun i : Fin n => y.getD i 0‖ ≤ apart n x y :=
    fun x y => (pi_norm_le_iff_of_nonneg (apart_nonneg n x y)).2 fun i =>
      single_le_sum (f := fun j => |x.getD j 0 - y.getD j 0|) (fun _ _ => abs_nonneg _) (mem_range.2 i.2)
  refine ⟨L, L0, fun q v q' v' h1 h2 => (hL _ _ (hb v h1) (hb v' h2)).trans
    (mul_le_mul_of_nonneg_left ?_ L0)⟩
  rw [Prod.mk_sub_mk]
  refine max_le ((hg q q').trans ?_) ((hg v v').trans ?_)
  · linarith [apart_nonneg n v v']
  · linarith [apart_nonneg n q q']

/-- The same for finitely many functions, with one constant. -/
theorem torus_gaps {n : ℕ} {ι : Type} [Fintype ι] {G : ι → State n → ℝ} (hG : ∀ a, ContDiff ℝ 1 (G a))
    (hp : ∀ a y (m : Fin n → ℤ), G a (y + (fun i => 2 * Real.pi * m i, 0)) = G a y) (R : ℝ) :
    ∃ L, 0 ≤ L ∧ ∀ a, ∀ q v q' v' : List ℝ, (∀ j < n, |v.getD j 0| ≤ R) → (∀ j < n, |v'.getD j 0| ≤ R) →
      |G a (fun i => q.getD i 0, fun i => v.getD i 0) -
          G a (fun i => q'.getD i 0, fun i => v'.getD i 0)| ≤ L * (apart n q q' + apart n v v') := by
  choose L L0 hL using fun a => torus_gap (hG a) (hp a) R
  refine ⟨∑ a, L a, sum_nonneg fun a _ => L0 a, fun a q v q' v' h1 h2 =>
    (hL a q v q' v' h1 h2).trans (mul_le_mul_of_nonneg_right ?_
      (add_nonneg (apart_nonneg _ _ _) (apart_nonneg _ _ _)))⟩
  exact single_le_sum (fun a _ => L0 a) (mem_univ a)

theorem apart_self (n : ℕ) (x : List ℝ) : apart n x x = 0 := sum_eq_zero fun _ _ => by simp

/-- C152: the torques that `Gravity` answers. -/
theorem C152_gravity (h : Reach E b d) (ht : ∀ i < b.dof,
      (b.rb i).joint.type = .rx ∨ (b.rb i).joint.type = .ry ∨ (b.rb i).joint.type = .rz) :
    ∃ L, ∀ q q' B B', b.setQ q = .ok B → b.setQ q' = .ok B' → ∀ i < b.dof,
      |B.gravity.1 i - B'.gravity.1 i| ≤ L * apart b.dof q q' := by
  obtain ⟨L, L0, hL⟩ := torus_gaps (G := fun (i : Fin b.dof) (y : State b.dof) => b.weightAt y.1 i)
    (fun i => weight_smooth h i) (fun i => weight_turns ht i) 0
  refine ⟨L, fun q q' B B' hB hB' i hi => ?_⟩
  have e : ∀ q B, b.setQ q = .ok B → B.gravity.1 i = b.weightAt (fun i : Fin b.dof => q.getD i 0) i := by
    intro q B hB
    obtain ⟨hs, hn, hf, _, r⟩ := h.after_setQ hB
    rw [(gravity_run r.inv).2 i (by rw [hn]; exact hi), hf, pad_getD (setQ_length hB)]
    rfl
  rw [e q B hB, e q' B' hB']
  have := hL ⟨i, hi⟩ q [] q' [] (by simp) (by simp)
  rwa [apart_self, add_zero] at this

/-- The entries of the inertia. -/
theorem mass_gap (h : Reach E b d) (ht : ∀ i < b.dof,
      (b.rb i).joint.type = .rx ∨ (b.rb i).joint.type = .ry ∨ (b.rb i).joint.type = .rz) :
    ∃ L, 0 ≤ L ∧ ∀ q q' : List ℝ, ∀ i j : Fin b.dof,
      |b.massAt (fun i : Fin b.dof => q.getD i 0) i j - b.massAt (fun i : Fin b.dof => q'.getD i 0) i j| ≤
        L * apart b.dof q q' := by
  obtain ⟨L, L0, hL⟩ := torus_gaps
    (G := fun (p : Fin b.dof × Fin b.dof) (y : State b.dof) => b.massAt y.1 p.1 p.2)
    (fun p => (massAt_smooth h.inv p.1 p.2).of_le (by simp)) (fun p y m => by
      unfold massAt
      rw [Prod.fst_add]
      simp only
      rw [sysAt_turns ht]) 0
  refine ⟨L, L0, fun q q' i j => ?_⟩
  have := hL (i, j) q [] q' [] (by simp) (by simp)
  rwa [apart_self, add_zero] at this

/-- C152: the entries of `Inertia`. -/
theorem C152_inertia (h : Reach E b d) (hd : b.Definite) (ht : ∀ i < b.dof,
      (b.rb i).joint.type = .rx ∨ (b.rb i).joint.type = .ry ∨ (b.rb i).joint.type = .rz) :
    ∃ L, ∀ q q' B B', b.setQ q = .ok B → b.setQ q' = .ok B' → ∀ i < b.dof, ∀ j < b.dof,
      |B.inertia.1 i j - B'.inertia.1 i j| ≤ L * apart b.dof q q' := by
  obtain ⟨L, L0, hL⟩ := mass_gap h ht
  refine ⟨L, fun q q' B B' hB hB' i hi j hj => ?_⟩
  have e : ∀ q B, b.setQ q = .ok B →
      B.inertia.1 i j = b.massAt (fun i : Fin b.dof => q.getD i 0) ⟨i, hi⟩ ⟨j, hj⟩ := by
    intro q B hB
    obtain ⟨hs, hn, hf, _, r⟩ := h.after_setQ hB
    rw [inertia_entry r ((hs.definite hd).massive r.inv.tree) i j (by rw [hn]; exact hi)
      (by rw [hn]; exact hj), hf, pad_getD (setQ_length hB)]
    rfl
  rw [e q B hB, e q' B' hB']
  exact hL q q' ⟨i, hi⟩ ⟨j, hj⟩

/-- C152: the torques that `CentrifugalCoriolis` answers, at velocities up to `R`. -/
theorem C152_coriolis (h : Reach E b d) (ht : ∀ i < b.dof,
      (b.rb i).joint.type = .rx ∨ (b.rb i).joint.type = .ry ∨ (b.rb i).joint.type = .rz) (R : ℝ) :
    ∃ L, ∀ q dq b1 B q' dq' b1' B', b.setQ q = .ok b1 → b1.setDq dq = .ok B →
      b.setQ q' = .ok b1' → b1'.setDq dq' = .ok B' →
      (∀ j < b.dof, |dq.getD j 0| ≤ R) → (∀ j < b.dof, |dq'.getD j 0| ≤ R) → ∀ i < b.dof,
      |B.centrifugalCoriolis.1 i - B'.centrifugalCoriolis.1 i| ≤
        L * (apart b.dof q q' + apart b.dof dq dq') := by
  obtain ⟨L, L0, hL⟩ := torus_gaps (G := fun (i : Fin b.dof) (y : State b.dof) =>
      (b.sysAt (padFin y.1) (padFin y.2)).coriolisSpec i)
    (fun i => (coriolisSpec_smooth h.inv.tree (fun i _ => padFin_smooth contDiff_fst i)
      (fun i _ => padFin_smooth contDiff_snd i) i).of_le (by simp)) (fun i y m => by
      rw [Prod.fst_add, Prod.snd_add, add_zero]
      simp only
      rw [sysAt_turns ht]) R
  refine ⟨L, fun q dq b1 B q' dq' b1' B' h1 h2 h1' h2' hv hv' i hi => ?_⟩
  have e : ∀ q dq b1 B, b.setQ q = .ok b1 → b1.setDq dq = .ok B → B.centrifugalCoriolis.1 i =
      (b.sysAt (padFin fun i : Fin b.dof => q.getD i 0)
        (padFin fun i : Fin b.dof => dq.getD i 0)).coriolisSpec i := by
    intro q dq b1 B h1 h2
    have hA := atState_of_set h h1 h2
    obtain ⟨B', d', hB', hA', hf⟩ := exists_at h
      (fun i : Fin b.dof => q.getD i 0, fun i : Fin b.dof => dq.getD i 0)
    rw [(centrifugalCoriolis_run hA.inv).2 i (by rw [hA.dof]; exact hi), ← (hA.obsEq hA').poseEq.fresh, hf]
  rw [e q dq b1 B h1 h2, e q' dq' b1' B' h1' h2']
  exact hL ⟨i, hi⟩ q dq q' dq' hv hv'

/-- The part of the inverse dynamics that does not depend on the accelerations. -/
theorem bias_gap (h : Reach E b d) (ht : ∀ i < b.dof,
      (b.rb i).joint.type = .rx ∨ (b.rb i).joint.type = .ry ∨ (b.rb i).joint.type = .rz) (fext : FExt)
    (R : ℝ) :
    ∃ L, 0 ≤ L ∧ ∀ q dq b1 B q' dq' b1' B', b.setQ q = .ok b1 → b1.setDq dq = .ok B →
      b.setQ q' = .ok b1' → b1'.setDq dq' = .ok B' →
      (∀ j < b.dof, |dq.getD j 0| ≤ R) → (∀ j < b.dof, |dq'.getD j 0| ≤ R) → ∀ cc g : Bool, ∀ i < b.dof,
      |B.fresh.idSpec (fun _ => 0) fext cc g i - B'.fresh.idSpec (fun _ => 0) fext cc g i| ≤
        L * (apart b.dof q q' + apart b.dof dq dq') := by
  obtain ⟨L, L0, hL⟩ := torus_gaps (G := fun (p : Bool × Bool × Fin b.dof) (y : State b.dof) =>
      (b.sysAt (padFin y.1) (padFin y.2)).idSpec (fun _ => 0) fext p.1 p.2.1 p.2.2) (R := R)
    (fun ⟨cc, g, i⟩ => by
      have hq : ∀ i < b.dof, Sm fun y : State b.dof => padFin y.1 i :=
        fun i _ => padFin_smooth contDiff_fst i
      have hw : ∀ i < b.dof, Sm fun y : State b.dof => padFin y.2 i :=
        fun i _ => padFin_smooth contDiff_snd i
      refine ContDiff.of_le (n := ∞) ?_ (by simp)
      unfold Sys.idSpec
      simp only [mul_zero, sum_const_zero, zero_add]
      have a1 := coriolisSpec_smooth h.inv.tree hq hw i
      have a2 := gravitySpec_smooth (w := fun y : State b.dof => padFin y.2) h.inv.tree hq i
      have a3 := extSpec_smooth (w := fun y : State b.dof => padFin y.2) h.inv.tree hq fext i
      cases cc <;> cases g <;> simp only [Bool.false_eq_true, if_false, if_true, zero_add, add_zero]
      · exact a3
      · exact a2.add a3
      · exact a1.add a3
      · exact (a1.add a2).add a3)
    (fun p y m => by
      rw [Prod.fst_add, Prod.snd_add, add_zero]
      simp only
      rw [sysAt_turns ht])
  refine ⟨L, L0, fun q dq b1 B q' dq' b1' B' h1 h2 h1' h2' hv hv' cc g i hi => ?_⟩
  have e : ∀ q dq b1 B, b.setQ q = .ok b1 → b1.setDq dq = .ok B → B.fresh =
      b.sysAt (padFin fun i : Fin b.dof => q.getD i 0) (padFin fun i : Fin b.dof => dq.getD i 0) := by
    intro q dq b1 B h1 h2
    have hA := atState_of_set h h1 h2
    obtain ⟨B', d', hB', hA', hf⟩ := exists_at h
      (fun i : Fin b.dof => q.getD i 0, fun i : Fin b.dof => dq.getD i 0)
    rw [← (hA.obsEq hA').poseEq.fresh, hf]
  rw [e q dq b1 B h1 h2, e q' dq' b1' B' h1' h2']
  exact hL (cc, g, ⟨i, hi⟩) q dq q' dq' hv hv'

/-- C152: the torques that `InverseDynamics` answers (no friction), at velocities up to `R`. -/
theorem C152_inverse (h : Reach E b d) (hd : b.Definite) (ht : ∀ i < b.dof,
      (b.rb i).joint.type = .rx ∨ (b.rb i).joint.type = .ry ∨ (b.rb i).joint.type = .rz) (fext : FExt)
    (R : ℝ) :
    ∃ L, ∀ q dq b1 B q' dq' b1' B', b.setQ q = .ok b1 → b1.setDq dq = .ok B →
      b.setQ q' = .ok b1' → b1'.setDq dq' = .ok B' →
      (∀ j < b.dof, |dq.getD j 0| ≤ R) → (∀ j < b.dof, |dq'.getD j 0| ≤ R) →
      ∀ (a a' : ℕ → ℝ) (o : IDOpts), o.friction = false → ∀ i < b.dof,
      |(B.inverseDynamics a fext o).1 i - (B'.inverseDynamics a' fext o).1 i| ≤
        L * ((1 + ∑ j ∈ range b.dof, |a j|) * (apart b.dof q q' + apart b.dof dq dq') +
          ∑ j ∈ range b.dof, |a j - a' j|) := by
  choose N hN0 hN using fun p : Fin b.dof × Fin b.dof => torus_bound
    (G := fun y : State b.dof => b.massAt y.1 p.1 p.2) (massAt_smooth h.inv p.1 p.2).continuous
    (fun y m => by
      unfold massAt
      rw [Prod.fst_add]
      simp only
      rw [sysAt_turns ht]) 0
  obtain ⟨L1, L10, hL1⟩ := mass_gap h ht
  obtain ⟨L2, L20, hL2⟩ := bias_gap h ht fext R
  refine ⟨L1 + L2 + ∑ p, N p, fun q dq b1 B q' dq' b1' B' h1 h2 h1' h2' hv hv' a a' o ho i hi => ?_⟩
  have hNs : 0 ≤ ∑ p, N p := sum_nonneg fun p _ => hN0 p
  have e : ∀ q dq b1 B, b.setQ q = .ok b1 → b1.setDq dq = .ok B → ∀ a : ℕ → ℝ,
      (B.inverseDynamics a fext o).1 i = ∑ j : Fin b.dof,
        b.massAt (fun i : Fin b.dof => q.getD i 0) ⟨i, hi⟩ j * a j +
        B.fresh.idSpec (fun _ => 0) fext o.cc o.gravity i := by
    intro q dq b1 B h1 h2 a
    obtain ⟨hs, hn, hf, -, -, d', r⟩ := h.after_set ⟨b1, h1, h2⟩
    have hM := (hs.definite hd).massive r.inv.tree
    rw [inverseDynamics_val r.inv hM.symI (hM.posMass r.inv.tree) _ _ _ i (by rw [hn]; exact hi)]
    unfold Sys.addFriction
    simp only [ho, Bool.false_eq_true, if_false]
    rw [idSpec_split, hn, sum_range]
    congr 1
    refine sum_congr rfl fun j _ => ?_
    rw [hf, pad_getD (setQ_length h1)]; rfl
  rw [e q dq b1 B h1 h2, e q' dq' b1' B' h1' h2']
  have hg1 := apart_nonneg b.dof q q'
  have hg2 := apart_nonneg b.dof dq dq'
  have hS : 0 ≤ ∑ j ∈ range b.dof, |a j| := sum_nonneg fun _ _ => abs_nonneg _
  have hD : 0 ≤ ∑ j ∈ range b.dof, |a j - a' j| := sum_nonneg fun _ _ => abs_nonneg _
  have u1 : |∑ j : Fin b.dof, b.massAt (fun i : Fin b.dof => q.getD i 0) ⟨i, hi⟩ j * a j -
      ∑ j : Fin b.dof, b.massAt (fun i : Fin b.dof => q'.getD i 0) ⟨i, hi⟩ j * a' j| ≤
      L1 * apart b.dof q q' * ∑ j ∈ range b.dof, |a j| + (∑ p, N p) * ∑ j ∈ range b.dof, |a j - a' j| := by
    rw [← sum_sub_distrib, sum_range, sum_range, mul_sum, mul_sum, ← sum_add_distrib]
    refine (abs_sum_le_sum_abs _ _).trans (sum_le_sum fun j _ => ?_)
    rw [show b.massAt (fun i : Fin b.dof => q.getD i 0) ⟨i, hi⟩ j * a j -
        b.massAt (fun i : Fin b.dof => q'.getD i 0) ⟨i, hi⟩ j * a' j =
        (b.massAt (fun i : Fin b.dof => q.getD i 0) ⟨i, hi⟩ j -
          b.massAt (fun i : Fin b.dof => q'.getD i 0) ⟨i, hi⟩ j) * a j +
        b.massAt (fun i : Fin b.dof => q'.getD i 0) ⟨i, hi⟩ j * (a j - a' j) by ring]
    refine (abs_add_le _ _).trans (add_le_add ?_ ?_)
    · rw [abs_mul]
      exact mul_le_mul_of_nonneg_right (hL1 q q' _ _) (abs_nonneg _)
    · rw [abs_mul]
      refine mul_le_mul_of_nonneg_right ?_ (abs_nonneg _)
      exact (hN (⟨i, hi⟩, j) (fun i : Fin b.dof => q'.getD i 0, 0) (by simp)).trans
        (single_le_sum (fun p _ => hN0 p) (mem_univ _))
  have u2 := hL2 q dq b1 B q' dq' b1' B' h1 h2 h1' h2' hv hv' o.cc o.gravity i hi
  rw [add_sub_add_comm]
  refine (abs_add_le _ _).trans ((add_le_add u1 u2).trans ?_)
  set g1 := apart b.dof q q'
  set g2 := apart b.dof dq dq'
  set S := ∑ j ∈ range b.dof, |a j|
  set D := ∑ j ∈ range b.dof, |a j - a' j|
  set NN := ∑ p, N p
  have p1 : 0 ≤ L1 * (g1 + g2 + S * g2) := by positivity
  have p2 : 0 ≤ L2 * (S * (g1 + g2)) := by positivity
  have p3 : 0 ≤ NN * ((1 + S) * (g1 + g2)) := by positivity
  have p4 : 0 ≤ (L1 + L2) * D := by positivity
  nlinarith

/-- C152: the accelerations that `ForwardDynamics` answers (no friction), at velocities up to `R`. -/
theorem C152_forward (h : Reach E b d) (hd : b.Definite) (ht : ∀ i < b.dof,
      (b.rb i).joint.type = .rx ∨ (b.rb i).joint.type = .ry ∨ (b.rb i).joint.type = .rz) (fext : FExt)
    (R : ℝ) :
    ∃ L, ∀ q dq b1 B q' dq' b1' B', b.setQ q = .ok b1 → b1.setDq dq = .ok B →
      b.setQ q' = .ok b1' → b1'.setDq dq' = .ok B' →
      (∀ j < b.dof, |dq.getD j 0| ≤ R) → (∀ j < b.dof, |dq'.getD j 0| ≤ R) →
      ∀ (tau tau' : ℕ → ℝ) (o : FDOpts), o.friction = false → ∀ i < b.dof,
      |(B.fd E tau fext o).1 i - (B'.fd E tau' fext o).1 i| ≤
        L * ((1 + ∑ j ∈ range b.dof, |tau' j|) * (apart b.dof q q' + apart b.dof dq dq') +
          ∑ j ∈ range b.dof, |tau j - tau' j|) := by
  obtain ⟨m, m0, M, hm⟩ := C149_inertia h hd ht
  obtain ⟨C, hC⟩ := C149_forward h hd ht fext
  obtain ⟨L1, L10, hL1⟩ := mass_gap h ht
  obtain ⟨L2, L20, hL2⟩ := bias_gap h ht fext R
  set n := b.dof with hnd
  -- the largest acceleration at the second state
  set K := |C| * (1 + n * R ^ 2) with hK
  have K0 : 0 ≤ K := by positivity
  refine ⟨(1 + n * L2 + n * n * (L1 * K)) / m,
    fun q dq b1 B q' dq' b1' B' h1 h2 h1' h2' hv hv' tau tau' o ho i hi => ?_⟩
  set a := (B.fd E tau fext o).1 with ha
  set a' := (B'.fd E tau' fext o).1 with ha'
  set S := ∑ j ∈ range n, |tau' j| with hS
  have S0 : 0 ≤ S := sum_nonneg fun _ _ => abs_nonneg _
  have hg1 := apart_nonneg n q q'
  have hg2 := apart_nonneg n dq dq'
  have hb : ∀ j < n, |a' j| ≤ K * (1 + S) := fun j hj => by
    refine (hC q' dq' b1' B' h1' h2' tau' o ho j hj).trans ?_
    have h0 : 0 ≤ ∑ j ∈ range n, dq'.getD j 0 ^ 2 := sum_nonneg fun _ _ => sq_nonneg _
    have h3 : ∑ j ∈ range n, dq'.getD j 0 ^ 2 ≤ n * R ^ 2 := by
      refine (sum_le_sum fun j hj => sq_le_sq' (neg_le_of_abs_le (hv' j (mem_range.1 hj)))
        (le_of_abs_le (hv' j (mem_range.1 hj)))).trans ?_
      simp
    have h4 : C * (1 + S + ∑ j ∈ range n, dq'.getD j 0 ^ 2) ≤
        |C| * (1 + S + ∑ j ∈ range n, dq'.getD j 0 ^ 2) :=
      mul_le_mul_of_nonneg_right (le_abs_self C) (by positivity)
    refine h4.trans ?_
    rw [hK, mul_assoc]
    refine mul_le_mul_of_nonneg_left ?_ (abs_nonneg C)
    have : 0 ≤ (n : ℝ) * R ^ 2 * S := by positivity
    nlinarith
  have e : ∀ q dq b1 B tau, b.setQ q = .ok b1 → b1.setDq dq = .ok B → ∀ k (hk : k < n),
      ∑ j : Fin n, b.massAt (fun i : Fin n => q.getD i 0) ⟨k, hk⟩ j * (B.fd E tau fext o).1 j =
        tau k - B.fresh.idSpec (fun _ => 0) fext o.cc o.gravity k := by
    intro q dq b1 B tau h1 h2 k hk
    obtain ⟨hs, hn, hf, -, -, d', r⟩ := h.after_set ⟨b1, h1, h2⟩
    have hD := hs.definite hd
    have := fd_solves r (hD.massive r.inv.tree) (hD.form r) tau fext o k (by rw [hn]; exact hk)
    unfold Sys.fdRhs at this
    simp only [ho, Bool.false_eq_true, if_false, hn] at this
    rw [← this, sum_range]
    refine sum_congr rfl fun j _ => ?_
    rw [hf, pad_getD (setQ_length h1)]; rfl
  have eb : ∀ k (hk : k < n) j (hj : j < n),
      b1.inertia.1 k j = b.massAt (fun i : Fin n => q.getD i 0) ⟨k, hk⟩ ⟨j, hj⟩ := by
    intro k hk j hj
    obtain ⟨hs, hn, hf, _, r⟩ := h.after_setQ h1
    rw [inertia_entry r ((hs.definite hd).massive r.inv.tree) k j (by rw [hn]; exact hk)
      (by rw [hn]; exact hj), hf, pad_getD (setQ_length h1)]
    rfl
  -- the difference solves the equations of the first state
  set x : ℕ → ℝ := fun j => a j - a' j with hx
  set ρ : ℕ → ℝ := fun k => ∑ j ∈ range n, b1.inertia.1 k j * x j with hρ
  set T := ∑ j ∈ range n, |tau j - tau' j| with hT
  have T0 : 0 ≤ T := sum_nonneg fun _ _ => abs_nonneg _
  set D := apart n q q' + apart n dq dq' with hD
  have D0 : 0 ≤ D := add_nonneg hg1 hg2
  have hr : ∀ k < n, |ρ k| ≤ |tau k - tau' k| + L2 * D + n * (L1 * D * (K * (1 + S))) := by
    intro k hk
    have e1 : ρ k = (tau k - tau' k) - (B.fresh.idSpec (fun _ => 0) fext o.cc o.gravity k -
        B'.fresh.idSpec (fun _ => 0) fext o.cc o.gravity k) -
        ∑ j : Fin n, (b.massAt (fun i : Fin n => q.getD i 0) ⟨k, hk⟩ j -
          b.massAt (fun i : Fin n => q'.getD i 0) ⟨k, hk⟩ j) * a' j := by
      have e2 := e q dq b1 B tau h1 h2 k hk
      have e3 := e q' dq' b1' B' tau' h1' h2' k hk
      have e4 : ρ k = ∑ j : Fin n, (b.massAt (fun i : Fin n => q.getD i 0) ⟨k, hk⟩ j * a j -
          b.massAt (fun i : Fin n => q.getD i 0) ⟨k, hk⟩ j * a' j) := by
        rw [hρ]
        simp only
        rw [sum_range]
        refine sum_congr rfl fun j _ => ?_
        rw [eb k hk j j.2, hx]
        simp only
        ring
      rw [e4, sum_sub_distrib, e2]
      simp only [sub_mul, sum_sub_distrib]
      rw [e3]
      ring
    rw [e1]
    refine (abs_sub _ _).trans (add_le_add ((abs_sub _ _).trans (add_le_add le_rfl ?_)) ?_)
    · exact hL2 q dq b1 B q' dq' b1' B' h1 h2 h1' h2' hv hv' o.cc o.gravity k hk
    · refine (abs_sum_le_sum_abs _ _).trans ((sum_le_card_nsmul univ _ (L1 * D * (K * (1 + S))) ?_).trans ?_)
      · intro j _
        rw [abs_mul]
        refine mul_le_mul ((hL1 q q' _ _).trans (mul_le_mul_of_nonneg_left ?_ L10)) (hb j j.2)
          (abs_nonneg _) (by positivity)
        rw [hD]; linarith
      · simp
  have hform := (hm q b1 h1 x).1
  set P := ∑ k ∈ range n, |ρ k| with hP
  have hP0 : 0 ≤ P := sum_nonneg fun _ _ => abs_nonneg _
  obtain ⟨l, hl, hmx⟩ : ∃ l ∈ range n, ∀ k ∈ range n, |x k| ≤ |x l| :=
    exists_max_image _ _ ⟨i, mem_range.2 hi⟩
  have u1 : ∑ k ∈ range n, x k * ρ k ≤ |x l| * P := by
    rw [hP, mul_sum]
    refine sum_le_sum fun k hk => (le_abs_self _).trans ?_
    rw [abs_mul]
    exact mul_le_mul_of_nonneg_right (hmx k hk) (abs_nonneg _)
  have u2 : |x l| ^ 2 ≤ ∑ k ∈ range n, x k ^ 2 := by
    rw [sq_abs]
    exact single_le_sum (f := fun k => x k ^ 2) (fun k _ => sq_nonneg _) hl
  have u3 : m * |x l| ≤ P := by
    by_contra hlt
    rw [not_le] at hlt
    have hpos : 0 < |x l| := by
      by_contra h0
      have : |x l| = 0 := le_antisymm (not_lt.1 h0) (abs_nonneg _)
      rw [this, mul_zero] at hlt
      linarith
    nlinarith [mul_lt_mul_of_pos_right hlt hpos, mul_le_mul_of_nonneg_left u2 m0.le]
  have u4 : P ≤ T + n * (L2 * D + n * (L1 * D * (K * (1 + S)))) := by
    refine (sum_le_sum fun k hk => hr k (mem_range.1 hk)).trans ?_
    simp only [add_assoc]
    rw [sum_add_distrib, sum_const, card_range, nsmul_eq_mul]
  have u5 := hmx i (mem_range.2 hi)
  show |x i| ≤ _
  rw [div_mul_eq_mul_div, le_div_iff₀ m0]
  have u6 := mul_le_mul_of_nonneg_left u5 m0.le
  have p1 : 0 ≤ (1 + S) * D := by positivity
  have p2 : 0 ≤ n * L2 * (S * D) := by positivity
  have p3 : 0 ≤ (n * L2 + n * n * (L1 * K)) * T := by positivity
  calc |x i| * m ≤ T + n * (L2 * D + n * (L1 * D * (K * (1 + S)))) := by linarith
    _ ≤ (1 + n * L2 + n * n * (L1 * K)) * ((1 + S) * D + T) := by
      have : (1 + n * L2 + n * n * (L1 * K)) * ((1 + S) * D + T) =
          T + n * (L2 * D + n * (L1 * D * (K * (1 + S)))) + (1 + S) * D + n * L2 * (S * D) +
            (n * L2 + n * n * (L1 * K)) * T := by ring
      linarith

/-- C152: the accelerations that `ForwardDynamicsAba` answers (no friction), wherever the base is. -/
theorem C152_aba (h : Reach E b d) (hd : b.Definite) (ht : ∀ i < b.dof,
      (b.rb i).joint.type = .rx ∨ (b.rb i).joint.type = .ry ∨ (b.rb i).joint.type = .rz) (fext : FExt)
    (R : ℝ) :
    ∃ L, ∀ q dq b1 B q' dq' b1' B', b.setQ q = .ok b1 → b1.setDq dq = .ok B →
      b.setQ q' = .ok b1' → b1'.setDq dq' = .ok B' →
      (∀ j < b.dof, |dq.getD j 0| ≤ R) → (∀ j < b.dof, |dq'.getD j 0| ≤ R) →
      ∀ (tau tau' : ℕ → ℝ) (o : FDOpts), o.friction = false → ∀ i < b.dof,
      |(B.forwardDynamicsAba tau fext o).1 i - (B'.forwardDynamicsAba tau' fext o).1 i| ≤
        L * ((1 + ∑ j ∈ range b.dof, |tau' j|) * (apart b.dof q q' + apart b.dof dq dq') +
          ∑ j ∈ range b.dof, |tau j - tau' j|) := by
  have hk : Reach E (b.setG (b.T0.R.mulVec b.g)) _ := h.step (.setG _) trivial rfl
  have hdg : (b.setG (b.T0.R.mulVec b.g)).Definite := ⟨hd.mass, hd.symm, hd.pd, hd.load, hd.axes⟩
  obtain ⟨L, hL⟩ := C152_forward hk hdg ht fext R
  refine ⟨L, fun q dq b1 B q' dq' b1' B' h1 h2 h1' h2' hv hv' tau tau' o ho i hi => ?_⟩
  obtain ⟨hs, hn, -, -, -, d1, r⟩ := h.after_set ⟨b1, h1, h2⟩
  obtain ⟨hs', hn', -, -, -, d1', r'⟩ := h.after_set ⟨b1', h1', h2'⟩
  have hD := hs.definite hd
  have hD' := hs'.definite hd
  rw [C30_aba_base r (hD.massive r.inv.tree) (hD.form r) tau fext o ho i (by rw [hn]; exact hi), hs.T0, hs.g,
    C30_aba_base r' (hD'.massive r'.inv.tree) (hD'.form r') tau' fext o ho i (by rw [hn']; exact hi),
    hs'.T0, hs'.g]
  exact hL q dq _ _ q' dq' _ _ (setQ_setG _ h1) (setDq_setG _ h2) (setQ_setG _ h1') (setDq_setG _ h2')
    hv hv' tau tau' o ho i hi

/-- C152: with a joint that slides, positions as near as one likes have inertias as far apart as one
likes. -/
theorem C152_slides (E : Ext) : ∃ (b : Body) (d : Bool), Reach E b d ∧ b.Definite ∧ b.dof = 2 ∧
    (b.rb 0).joint.type = .rz ∧ (b.rb 1).joint.type = .px ∧
    ∀ ε > 0, ∀ M : ℝ, ∃ q q' B B', b.setQ q = .ok B ∧ b.setQ q' = .ok B' ∧ apart 2 q q' ≤ ε ∧
      M < |B.inertia.1 0 0 - B'.inertia.1 0 0| := by
  obtain ⟨d, h⟩ := polar_reach E
  refine ⟨polar, d, h, polar_definite, rfl, rfl, rfl, fun ε hε M => ?_⟩
  have e : ∀ r B, polar.setQ [0, r] = .ok B → B.inertia.1 0 0 = 2 + r ^ 2 := by
    intro r B hB
    obtain ⟨hs, hn, hf, _, r⟩ := h.after_setQ hB
    rw [inertia_entry r ((hs.definite polar_definite).massive r.inv.tree) 0 0 (by rw [hn]; decide)
      (by rw [hn]; decide), hf, polar_out]
  obtain ⟨B, hB, -⟩ := setQ_total (b := polar) (q := [0, (|M| + 1) / ε + ε]) rfl
  obtain ⟨B', hB', -⟩ := setQ_total (b := polar) (q := [0, (|M| + 1) / ε]) rfl
  refine ⟨_, _, B, B', hB, hB', ?_, ?_⟩
  · simp [apart, sum_range_succ, abs_of_pos hε]
  · rw [e _ B hB, e _ B' hB']
    refine lt_of_lt_of_le ?_ (le_abs_self _)
    have : (2 + ((|M| + 1) / ε + ε) ^ 2) - (2 + ((|M| + 1) / ε) ^ 2) = 2 * (|M| + 1) + ε ^ 2 := by
      field_simp; ring
    rw [this]
    nlinarith [le_abs_self M, abs_nonneg M, sq_nonneg ε]

/-- The hypotheses hold for a body with one turning joint; any two lists of one number are positions and
velocities of it. -/
example (E : Ext) : ∃ d, Reach E creak d ∧ creak.Definite ∧ (∀ i < creak.dof,
      (creak.rb i).joint.type = .rx ∨ (creak.rb i).joint.type = .ry ∨ (creak.rb i).joint.type = .rz) ∧
    ∀ x v : ℝ, ∃ b1 B, creak.setQ [x] = .ok b1 ∧ b1.setDq [v] = .ok B := by
  obtain ⟨d, h⟩ := creak_reach E
  have h0 : ∀ k < creak.dof, k = 0 := fun k hk => Nat.lt_one_iff.1 hk
  refine ⟨d, h, creak_definite, fun i hi => .inl (by rw [h0 i hi]; rfl), fun x v => ?_⟩
  obtain ⟨b1, h1, e1⟩ := setQ_total (b := creak) (q := [x]) rfl
  obtain ⟨B, h2, -⟩ := setDq_total (b := b1) (q := [v]) (by rw [e1]; rfl)
  exact ⟨b1, B, h1, h2⟩

end SpatialDyn
