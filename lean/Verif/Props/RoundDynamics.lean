import Verif.Lemmas.RoundNear
import Verif.Props.Rounding
import Verif.Props.ClosedLoop

/-!
# C144: dynamics computed with rounded arithmetic
-/

namespace SpatialDyn
open Finset Body

variable {E : Ext} {b : Body} {d : Bool}

/-! ## From relations to bounds -/

/-- States within `R`. -/
def Box (n : ℕ) (R : ℝ) : Type := {p : (ℕ → ℝ) × (ℕ → ℝ) // ∀ i < n, |p.1 i| ≤ R ∧ |p.2 i| ≤ R}

namespace Body

theorem fl_only {B : Body} (h : StateOnly b B) (F : Fl) (q dq : ℕ → ℝ) :
    F.sysAt B q dq = F.sysAt b q dq := by
  cases b
  cases B
  obtain ⟨h1, h2, h3, h4, h5, h6, h7, -, -⟩ := h
  simp only at h1 h2 h3 h4
  subst h1 h2 h3 h4
  rfl

/-- What is known of a robot after its state was set. -/
theorem set_facts (h : Reach E b d) {q dq : List ℝ} {b1 B : Body} (h1 : b.setQ q = .ok b1)
    (h2 : b1.setDq dq = .ok B) : StateOnly b B ∧ B.dof = b.dof ∧ (∃ d', Reach E B d') ∧
      B.fresh = b.sysAt B.qFun B.dqFun ∧ (∀ F : Fl, F.sysAt B B.qFun B.dqFun =
        F.sysAt b B.qFun B.dqFun) := by
  obtain ⟨hs, hd, hf, -, -, d', hr⟩ := h.after_set ⟨b1, h1, h2⟩
  refine ⟨hs, hd, ⟨d', hr⟩, ?_, fun F => fl_only hs F _ _⟩
  rw [hf]
  unfold qFun dqFun
  rw [setDq_q h2, setQ_q h1, setDq_dq h2]

theorem box_q {R : ℝ} {n i : ℕ} (hi : i < n) : Acc (fun (_ : Fl) (p : Box n R) => p.1.1 i) fun p => p.1.1 i :=
  .data (B := R) fun p => (p.2 i hi).1

theorem box_dq {R : ℝ} {n i : ℕ} (hi : i < n) : Acc (fun (_ : Fl) (p : Box n R) => p.1.2 i) fun p => p.1.2 i :=
  .data (B := R) fun p => (p.2 i hi).2

theorem box_sys (h : Inv E b) (R : ℝ) : AccSys b.still (fun F (p : Box b.dof R) => b.flTp F p.1.1)
    (fun F p => b.flTw F p.1.1) (fun _ p => p.1.2) (fun p => b.exTp p.1.1) (fun p => b.exTw p.1.1)
    fun p => p.1.2 :=
  acc_sys h.tree (fun _ => box_q) fun _ => box_dq

end Body

/-! ## Torques -/

/-- C144: for all states and accelerations within `R` and every arithmetic whose operations are right up
to `u`, `InverseDynamics` without friction answers the exact torques up to a constant times `u`. -/
theorem C144_inverse_dynamics (h : Reach E b d) (hm : b.Massive) (fext : FExt) (o : IDOpts)
    (ho : o.friction = false) (R : ℝ) : ∃ K u0 : ℝ, 0 < u0 ∧ ∀ (q dq : List ℝ) (b1 B : Body),
      b.setQ q = .ok b1 → b1.setDq dq = .ok B →
      (∀ i < b.dof, |q.getD i 0| ≤ R ∧ |dq.getD i 0| ≤ R) → ∀ ddq : ℕ → ℝ, (∀ i < b.dof, |ddq i| ≤ R) →
      ∀ (F : Fl) (u l : ℝ), F.Within u l → u ≤ u0 → ∀ i < b.dof,
        |F.rnea (F.sysAt B B.qFun B.dqFun) ddq fext o i - (B.inverseDynamics ddq fext o).1 i| ≤ K * u := by
  have key := fun i (hi : i < b.dof) => AccSys.rnea
    (P := Box b.dof R × {a : ℕ → ℝ // ∀ i < b.dof, |a i| ≤ R}) hm.loadOK h.inv.tree.parLt
    (acc_sys h.inv.tree (q := fun _ p => p.1.1.1) (dq := fun _ p => p.1.1.2) (x := fun p => p.1.1.1)
      (w := fun p => p.1.1.2) (fun i hi => .data (B := R) fun p => (p.1.2 i hi).1)
      (fun i hi => .data (B := R) fun p => (p.1.2 i hi).2))
    (dd := fun _ p => p.2.1) (e := fun p => p.2.1) (fun i hi => .data (B := R) fun p => p.2.2 i hi)
    fext o ho hi
  obtain ⟨K, u0, -, h0, hb⟩ := Acc.all b.dof (f := fun i F p => _) (x := fun i p => _) key
  refine ⟨K, u0, h0, fun q dq b1 B h1 h2 hR ddq hdd F u l hF hu i hi => ?_⟩
  obtain ⟨hs, hn, ⟨d', hB⟩, hf, hfl⟩ := set_facts h h1 h2
  have hmB := hs.massive hm
  have := hb ⟨⟨(B.qFun, B.dqFun), fun i hi => by
    unfold qFun dqFun; rw [setDq_q h2, setQ_q h1, setDq_dq h2]; exact hR i hi⟩, ddq, hdd⟩ F u l hF hu i hi
  rw [hfl, inverseDynamics_val hB.inv hmB.symI (hmB.posMass hB.inv.tree) ddq fext o i (hn ▸ hi), hf]
  have hw := sysAt_wf h.inv.tree h.inv.rigid B.qFun B.dqFun
  have e := hw.rnea_spec (ddq := ddq) (fext := fext) (o := o) (vd := false)
    (arr0 := fun _ => ⟨0, 0, 0⟩) (fun h => by cases h) ho i hi
  unfold Sys.addFriction
  rw [ho]
  simp only [Bool.false_eq_true, if_false]
  rw [← e]
  exact this

/-- C144: the same of `CentrifugalCoriolis`, `Gravity` and `ExternalTorques`. -/
theorem C144_torques (h : Reach E b d) (hm : b.Massive) (fext : FExt) (R : ℝ) : ∃ K u0 : ℝ, 0 < u0 ∧
    ∀ (q dq : List ℝ) (b1 B : Body), b.setQ q = .ok b1 → b1.setDq dq = .ok B →
      (∀ i < b.dof, |q.getD i 0| ≤ R ∧ |dq.getD i 0| ≤ R) → ∀ (F : Fl) (u l : ℝ), F.Within u l → u ≤ u0 →
      ∀ i < b.dof,
        |F.coriolis (F.sysAt B B.qFun B.dqFun) i - B.centrifugalCoriolis.1 i| ≤ K * u ∧
        |F.gravity (F.sysAt B B.qFun B.dqFun) i - B.gravity.1 i| ≤ K * u ∧
        |F.extTorques (F.sysAt B B.qFun B.dqFun) fext i - (B.externalTorques fext).1 i| ≤ K * u := by
  have hS := box_sys h.inv R
  have hp := h.inv.tree.parLt
  obtain ⟨K1, u1, -, h1, hb1⟩ := Acc.all b.dof (f := fun i F p => _) (x := fun i p => _)
    fun i (hi : i < b.dof) => hS.coriolis hm.loadOK hp hi
  obtain ⟨K2, u2, -, h2, hb2⟩ := Acc.all b.dof (f := fun i F p => _) (x := fun i p => _)
    fun i (hi : i < b.dof) => hS.gravity hm.loadOK hp hi
  obtain ⟨K3, u3, -, h3, hb3⟩ := Acc.all b.dof (f := fun i F p => _) (x := fun i p => _)
    fun i (hi : i < b.dof) => hS.extTorques hp fext hi
  refine ⟨max K1 (max K2 K3), min u1 (min u2 u3), lt_min h1 (lt_min h2 h3),
    fun q dq b1 B e1 e2 hR F u l hF hu i hi => ?_⟩
  obtain ⟨hs, hn, ⟨d', hB⟩, hf, hfl⟩ := set_facts h e1 e2
  have hw := sysAt_wf h.inv.tree h.inv.rigid B.qFun B.dqFun
  let p : Box b.dof R := ⟨(B.qFun, B.dqFun), fun i hi => by
    unfold qFun dqFun; rw [setDq_q e2, setQ_q e1, setDq_dq e2]; exact hR i hi⟩
  have k1 := hb1 p F u l hF (hu.trans (min_le_left _ _)) i hi
  have k2 := hb2 p F u l hF (hu.trans ((min_le_right _ _).trans (min_le_left _ _))) i hi
  have k3 := hb3 p F u l hF (hu.trans ((min_le_right _ _).trans (min_le_right _ _))) i hi
  have hu0 := hF.nonneg.1
  rw [hfl, (centrifugalCoriolis_run hB.inv).2 i (hn ▸ hi), (gravity_run hB.inv).2 i (hn ▸ hi),
    (externalTorques_run hB.inv fext).2 i (hn ▸ hi), hf,
    ← hw.coriolis_spec (vd := false) (arr0 := fun _ => ⟨0, 0, 0⟩) (fun h => by cases h) (fun _ => 0) i hi,
    ← hw.gravity_spec (fun _ => 0) (fun _ => 0) i hi, ← hw.ext_spec fext (fun _ => 0) i hi]
  exact ⟨le_trans k1 (mul_le_mul_of_nonneg_right (le_max_left _ _) hu0),
    le_trans k2 (mul_le_mul_of_nonneg_right ((le_max_left _ _).trans (le_max_right _ _)) hu0),
    le_trans k3 (mul_le_mul_of_nonneg_right ((le_max_right _ _).trans (le_max_right _ _)) hu0)⟩

/-! ## Inertia and Jacobian -/

/-- C144: the same of the entries of `Inertia`. -/
theorem C144_inertia (h : Reach E b d) (hd : b.Definite) (R : ℝ) : ∃ K u0 : ℝ, 0 < u0 ∧
    ∀ (q dq : List ℝ) (b1 B : Body), b.setQ q = .ok b1 → b1.setDq dq = .ok B →
      (∀ i < b.dof, |q.getD i 0| ≤ R ∧ |dq.getD i 0| ≤ R) → ∀ (F : Fl) (u l : ℝ), F.Within u l → u ≤ u0 →
      ∀ i < b.dof, ∀ j < b.dof,
        |F.crba (F.sysAt B B.qFun B.dqFun) i j - B.inertia.1 i j| ≤ K * u := by
  have hm := hd.massive h.inv.tree
  have hS := box_sys h.inv R
  have hp := h.inv.tree.parLt
  obtain ⟨K, u0, -, h0, hb⟩ := Acc.all (b.dof * b.dof)
    (f := fun k (F : Fl) (p : Box b.dof R) =>
      F.crba (b.still.moved (b.flTp F p.1.1) (b.flTw F p.1.1) p.1.2) (k / b.dof) (k % b.dof))
    (x := fun k p => ((b.still.moved (b.exTp p.1.1) (b.exTw p.1.1) p.1.2).crba
      fun i => b.still.Itot i).2 (k / b.dof) (k % b.dof))
    fun k _ => hS.crba hm.loadOK hp (fun _ hi => hd.heavy hi) _ _
  refine ⟨K, u0, h0, fun q dq b1 B e1 e2 hR F u l hF hu i hi j hj => ?_⟩
  obtain ⟨hs, hn, ⟨d', hB⟩, hf, hfl⟩ := set_facts h e1 e2
  have hmB := hs.massive hm
  have hw := sysAt_wf h.inv.tree h.inv.rigid B.qFun B.dqFun
  have hpm : (b.sysAt B.qFun B.dqFun).PosMass := by rw [← hf]; exact hmB.posMass hB.inv.tree
  have hsy : (b.sysAt B.qFun B.dqFun).SymI := by rw [← hf]; exact hmB.symI
  let p : Box b.dof R := ⟨(B.qFun, B.dqFun), fun i hi => by
    unfold qFun dqFun; rw [setDq_q e2, setQ_q e1, setDq_dq e2]; exact hR i hi⟩
  have k := hb p F u l hF hu (i * b.dof + j) (by nlinarith)
  have hpos : 0 < b.dof := by omega
  rw [show (i * b.dof + j) / b.dof = i by
      rw [mul_comm, Nat.mul_add_div hpos, Nat.div_eq_of_lt hj, add_zero],
    show (i * b.dof + j) % b.dof = j by
      rw [mul_comm, Nat.mul_add_mod, Nat.mod_eq_of_lt hj]] at k
  rw [hfl, inertia_entry hB hmB i j (hn ▸ hi) (hn ▸ hj), hf,
    ← hw.crba_spec hsy hpm (fun i => b.still.Itot i) i j hi hj]
  exact k

/-- Columns of a rounded Jacobian. -/
theorem Fl.jacobian_apply (F : Fl) (σ : Sys) (ancs : List ℕ) (k : ℕ) (x : Vec3) (j : ℕ) :
    F.jacobian σ ancs k x j = if j ∈ ancs then
      F.actM ⟨(σ.Tw j).R, F.subVec (σ.Tw j).t (F.app (σ.Tw k) x)⟩ (σ.S j) else 0 := by
  unfold Fl.jacobian
  have key : ∀ (g : ℕ → Motion) (l : List ℕ) (J0 : ℕ → Motion),
      l.foldl (fun J i => Function.update J i (g i)) J0 j = if j ∈ l then g j else J0 j := by
    intro g l
    induction l with
    | nil => intro J0; simp
    | cons a l ih =>
      intro J0
      rw [List.foldl_cons, ih]
      by_cases h1 : j ∈ l
      · simp [h1]
      · by_cases h2 : j = a
        · subst h2; simp [h1]
        · simp [h1, h2]
  exact key _ ancs _

theorem AccM.near {P : Type*} {m : ℕ → Fl → P → Motion} {x : ℕ → P → Motion} (n : ℕ)
    (h : ∀ i < n, AccM (m i) (x i)) : ∃ K u0 : ℝ, 0 < u0 ∧ ∀ p (F : Fl) (u l : ℝ), F.Within u l →
      u ≤ u0 → ∀ i < n, (m i F p).Near (x i p) (K * u) := by
  obtain ⟨K1, u1, -, h1, b1⟩ := Acc.all n fun i hi => (h i hi).lin.x
  obtain ⟨K2, u2, -, h2, b2⟩ := Acc.all n fun i hi => (h i hi).lin.y
  obtain ⟨K3, u3, -, h3, b3⟩ := Acc.all n fun i hi => (h i hi).lin.z
  obtain ⟨K4, u4, -, h4, b4⟩ := Acc.all n fun i hi => (h i hi).ang.x
  obtain ⟨K5, u5, -, h5, b5⟩ := Acc.all n fun i hi => (h i hi).ang.y
  obtain ⟨K6, u6, -, h6, b6⟩ := Acc.all n fun i hi => (h i hi).ang.z
  refine ⟨max (max K1 K2) (max (max K3 K4) (max K5 K6)), min (min u1 u2) (min (min u3 u4) (min u5 u6)),
    by simp [*], fun p F u l hF hu i hi => ?_⟩
  simp only [le_min_iff] at hu
  have up : ∀ {K e : ℝ}, e ≤ K * u → K ≤ max (max K1 K2) (max (max K3 K4) (max K5 K6)) →
      e ≤ max (max K1 K2) (max (max K3 K4) (max K5 K6)) * u := fun h hK =>
    h.trans (mul_le_mul_of_nonneg_right hK hF.nonneg.1)
  exact ⟨up (b1 p F u l hF hu.1.1 i hi) (by simp), up (b2 p F u l hF hu.1.2 i hi) (by simp),
    up (b3 p F u l hF hu.2.1.1 i hi) (by simp), up (b4 p F u l hF hu.2.1.2 i hi) (by simp),
    up (b5 p F u l hF hu.2.2.1 i hi) (by simp), up (b6 p F u l hF hu.2.2.2 i hi) (by simp)⟩

/-- C144: the same of every entry of the `Jacobian` of a point of a link. -/
theorem C144_jacobian (h : Reach E b d) (link : ℤ) (x : Vec3) {k : ℕ} (hk : b.index link = .ok k) (R : ℝ) :
    ∃ K u0 : ℝ, 0 < u0 ∧ ∀ (q dq : List ℝ) (b1 B : Body), b.setQ q = .ok b1 → b1.setDq dq = .ok B →
      (∀ i < b.dof, |q.getD i 0| ≤ R ∧ |dq.getD i 0| ≤ R) → ∀ r, B.jacobian link x = .ok r →
      ∀ (F : Fl) (u l : ℝ), F.Within u l → u ≤ u0 → ∀ i < b.dof,
        (F.jacobian (F.sysAt B B.qFun B.dqFun) (B.anc.getD k []) k x i).Near (r.1 i) (K * u) := by
  have hS := box_sys h.inv R
  have hkl := index_lt hk
  obtain ⟨K, u0, h0, hb⟩ := AccM.near b.dof
    (m := fun i (F : Fl) (p : Box b.dof R) => if i ∈ b.anc.getD k [] then
      F.actM ⟨(b.flTw F p.1.1 i).R, F.subVec (b.flTw F p.1.1 i).t (F.app (b.flTw F p.1.1 k) x)⟩
        (b.still.S i) else 0)
    (x := fun i p => if i ∈ b.anc.getD k [] then
      (⟨(b.exTw p.1.1 i).R, (b.exTw p.1.1 i).t - (b.exTw p.1.1 k).app x⟩ : Iso).actM (b.still.S i) else 0)
    fun i hi => by
      by_cases hm : i ∈ b.anc.getD k []
      · simp only [hm, if_true]
        exact AccT.actM ⟨(hS.Tw i hi).R, (hS.Tw i hi).t.sub ((hS.Tw k hkl).app (.const x))⟩ (.const _)
      · simp only [hm, if_false]
        exact .const 0
  refine ⟨K, u0, h0, fun q dq b1 B e1 e2 hR r hr F u l hF hu i hi => ?_⟩
  obtain ⟨hs, hn, ⟨d', hB⟩, hf, hfl⟩ := set_facts h e1 e2
  obtain ⟨-, k', hk', hr⟩ := jacobian_run hB.inv hr
  have hkk : k' = k := by
    have : B.index link = b.index link := by unfold index resolve; rw [hn]
    rw [this, hk] at hk'
    exact (Out.ok.inj hk').symm
  subst hkk
  let p : Box b.dof R := ⟨(B.qFun, B.dqFun), fun i hi => by
    unfold qFun dqFun; rw [setDq_q e2, setQ_q e1, setDq_dq e2]; exact hR i hi⟩
  have := hb p F u l hF hu i hi
  have tw : ∀ j < b.dof, B.freshTw j = b.exTw B.qFun j := by
    intro j hj
    have e : B.fresh.Tw j = (b.sysAt B.qFun B.dqFun).Tw j := by rw [hf]
    have e3 : B.fresh.Tw j = B.freshTw j := if_pos (hn ▸ hj)
    rw [← e3, e]
    rfl
  have e4 : r.1 i = if i ∈ b.anc.getD k' [] then (⟨(b.exTw B.qFun i).R, (b.exTw B.qFun i).t -
      (b.exTw B.qFun k').app x⟩ : Iso).actM (b.still.S i) else 0 := by
    rw [hr, jacLoop_apply, hs.anc, tw k' hkl, tw i hi]
    have e5 : (B.rb i).joint.subspace = b.still.S i := by
      show (B.rb i).joint.subspace = (b.rb i).joint.subspace
      unfold Body.rb
      rw [hs.rbs]
    rw [e5]
    congr 1
    unfold Motion.atPoint Iso.actM
    ext <;> simp [Vec3.cross] <;> ring
  rw [hfl, Fl.jacobian_apply, e4, hs.anc]
  exact this

/-! ## Forward dynamics -/

/-- C144: the same of the accelerations that `ForwardDynamicsAba` answers without friction. -/
theorem C144_forward_dynamics (h : Reach E b d) (hd : b.Definite) (tau : ℕ → ℝ) (fext : FExt) (o : FDOpts)
    (ho : o.friction = false) (R : ℝ) : ∃ K u0 : ℝ, 0 < u0 ∧
    ∀ (q dq : List ℝ) (b1 B : Body), b.setQ q = .ok b1 → b1.setDq dq = .ok B →
      (∀ i < b.dof, |q.getD i 0| ≤ R ∧ |dq.getD i 0| ≤ R) → ∀ (F : Fl) (u l : ℝ), F.Within u l → u ≤ u0 →
      ∀ i < b.dof, |F.aba (F.sysAt B B.qFun B.dqFun) tau fext o i -
        (B.forwardDynamicsAba tau fext o).1 i| ≤ K * u := by
  obtain ⟨K, u0, -, h0, hb⟩ := Acc.all b.dof (f := fun i F p => _) (x := fun i p => _)
    fun i (hi : i < b.dof) => acc_aba (P := Box b.dof R) h hd tau fext o ho
      (q := fun _ p => p.1.1) (dq := fun _ p => p.1.2) (x := fun p => p.1.1) (w := fun p => p.1.2)
      (fun _ => box_q) (fun _ => box_dq) cache0.aba hi
  refine ⟨K, u0, h0, fun q dq b1 B e1 e2 hR F u l hF hu i hi => ?_⟩
  obtain ⟨hs, hn, ⟨d', hB⟩, hf, hfl⟩ := set_facts h e1 e2
  let p : Box b.dof R := ⟨(B.qFun, B.dqFun), fun i hi => by
    unfold qFun dqFun; rw [setDq_q e2, setQ_q e1, setDq_dq e2]; exact hR i hi⟩
  rw [hfl, aba_anew hB (hs.definite hd) tau fext o ho cache0.aba (hn ▸ hi), hf]
  exact hb p F u l hF hu i hi

/-- C144: the same of `ForwardDynamics` without friction, which factorises the mass matrix. -/
theorem C144_forward_dense (h : Reach E b d) (hd : b.Definite) (tau : ℕ → ℝ) (fext : FExt) (o : FDOpts)
    (ho : o.friction = false) (R : ℝ) : ∃ K u0 : ℝ, 0 < u0 ∧
    ∀ (q dq : List ℝ) (b1 B : Body), b.setQ q = .ok b1 → b1.setDq dq = .ok B →
      (∀ i < b.dof, |q.getD i 0| ≤ R ∧ |dq.getD i 0| ≤ R) → ∀ (F : Fl) (u l : ℝ), F.Within u l → u ≤ u0 →
      ∀ i < b.dof, |F.fd (F.sysAt B B.qFun B.dqFun) tau fext o i - (B.fd E tau fext o).1 i| ≤ K * u := by
  let P := {B : Body // ∃ q dq b1, b.setQ q = .ok b1 ∧ b1.setDq dq = .ok B ∧
    ∀ i < b.dof, |q.getD i 0| ≤ R ∧ |dq.getD i 0| ≤ R}
  have bd : ∀ (p : P), ∀ i < b.dof, |p.1.qFun i| ≤ R ∧ |p.1.dqFun i| ≤ R := by
    rintro ⟨B, q, dq, b1, e1, e2, hR⟩ i hi
    unfold qFun dqFun
    rw [setDq_q e2, setQ_q e1, setDq_dq e2]
    exact hR i hi
  obtain ⟨K, u0, -, h0, hb⟩ := Acc.all b.dof (f := fun i F p => _) (x := fun i p => _)
    fun i (hi : i < b.dof) => acc_fd (P := P) h hd tau fext o
      (q := fun _ p => p.1.qFun) (dq := fun _ p => p.1.dqFun) (x := fun p => p.1.qFun)
      (w := fun p => p.1.dqFun) (fun i hi => .data (B := R) fun p => (bd p i hi).1)
      (fun i hi => .data (B := R) fun p => (bd p i hi).2) (a := fun p => (p.1.fd E tau fext o).1)
      (fun p k hk => by
        obtain ⟨B, q, dq, b1, e1, e2, -⟩ := p
        obtain ⟨hs, hn, ⟨d', hB⟩, hf, -⟩ := set_facts h e1 e2
        have hD := hs.definite hd
        have e3 := fd_solves hB (hD.massive hB.inv.tree) (hD.form hB) tau fext o k (hn ▸ hk)
        rw [hn, hf] at e3
        unfold Sys.fdRhs at e3
        rw [ho] at e3
        exact e3) hi
  refine ⟨K, u0, h0, fun q dq b1 B e1 e2 hR F u l hF hu i hi => ?_⟩
  obtain ⟨-, -, -, -, hfl⟩ := set_facts h e1 e2
  rw [hfl]
  exact hb ⟨B, q, dq, b1, e1, e2, hR⟩ F u l hF hu i hi

/-! ## Simulation -/

theorem integrate_bound (h : Reach E b d) (hd : b.Definite) (tau : ℕ → ℝ) (dt : ℝ) (fext : FExt)
    (o : IntOpts) (ho : o.friction = false) (R : ℝ) (N : ℕ) :
    ∃ K u0 : ℝ, 0 ≤ K ∧ 0 < u0 ∧ ∀ (p : Box b.dof R) (F : Fl) (u l : ℝ), F.Within u l → u ≤ u0 →
      ∀ k ≤ N, ∀ i < b.dof,
        |((F.integrate b tau dt fext o)^[k] p.1).1 i -
          padFin ((scheme o.method (b.field E cache0 tau fext o) id dt)^[k]
            (fun i => p.1.1 i, fun i => p.1.2 i)).1 i| ≤ K * u ∧
        |((F.integrate b tau dt fext o)^[k] p.1).2 i -
          padFin ((scheme o.method (b.field E cache0 tau fext o) id dt)^[k]
            (fun i => p.1.1 i, fun i => p.1.2 i)).2 i| ≤ K * u := by
  have hy : b.AccY (P := Box b.dof R) (fun _ p => p.1) fun p => (fun i => p.1.1 i, fun i => p.1.2 i) :=
    ⟨fun i => box_q i.2, fun i => box_dq i.2⟩
  have one : ∀ k, ∃ K u0 : ℝ, 0 ≤ K ∧ 0 < u0 ∧ ∀ (p : Box b.dof R) (F : Fl) (u l : ℝ), F.Within u l →
      u ≤ u0 → ∀ i < b.dof,
        |((F.integrate b tau dt fext o)^[k] p.1).1 i -
          padFin ((scheme o.method (b.field E cache0 tau fext o) id dt)^[k]
            (fun i => p.1.1 i, fun i => p.1.2 i)).1 i| ≤ K * u ∧
        |((F.integrate b tau dt fext o)^[k] p.1).2 i -
          padFin ((scheme o.method (b.field E cache0 tau fext o) id dt)^[k]
            (fun i => p.1.1 i, fun i => p.1.2 i)).2 i| ≤ K * u := by
    intro k
    have hk := acc_steps h hd tau dt fext o ho hy k
    obtain ⟨K1, u1, hK1, h1, hb1⟩ := Acc.all b.dof
      (f := fun i F (p : Box b.dof R) => ((F.integrate b tau dt fext o)^[k] p.1).1 i)
      (x := fun i p => padFin ((scheme o.method (b.field E cache0 tau fext o) id dt)^[k]
        (fun i => p.1.1 i, fun i => p.1.2 i)).1 i)
      fun i hi => (hk.q ⟨i, hi⟩).congr fun p => by simp [padFin, hi]
    obtain ⟨K2, u2, hK2, h2, hb2⟩ := Acc.all b.dof
      (f := fun i F (p : Box b.dof R) => ((F.integrate b tau dt fext o)^[k] p.1).2 i)
      (x := fun i p => padFin ((scheme o.method (b.field E cache0 tau fext o) id dt)^[k]
        (fun i => p.1.1 i, fun i => p.1.2 i)).2 i)
      fun i hi => (hk.dq ⟨i, hi⟩).congr fun p => by simp [padFin, hi]
    refine ⟨max K1 K2, min u1 u2, hK1.trans (le_max_left _ _), lt_min h1 h2, fun p F u l hF hu i hi => ?_⟩
    have hu0 := hF.nonneg.1
    exact ⟨(hb1 p F u l hF (hu.trans (min_le_left _ _)) i hi).trans
        (mul_le_mul_of_nonneg_right (le_max_left _ _) hu0),
      (hb2 p F u l hF (hu.trans (min_le_right _ _)) i hi).trans
        (mul_le_mul_of_nonneg_right (le_max_right _ _) hu0)⟩
  induction N with
  | zero =>
    obtain ⟨K, u0, hK, h0, hb⟩ := one 0
    refine ⟨K, u0, hK, h0, fun p F u l hF hu k hk => ?_⟩
    obtain rfl : k = 0 := by omega
    exact hb p F u l hF hu
  | succ N ih =>
    obtain ⟨K, u0, hK, h0, ih⟩ := ih
    obtain ⟨K', u0', hK', h0', hb⟩ := one (N + 1)
    refine ⟨max K K', min u0 u0', hK.trans (le_max_left _ _), lt_min h0 h0',
      fun p F u l hF hu k hk i hi => ?_⟩
    have hu0 := hF.nonneg.1
    rcases Nat.le_succ_iff.1 hk with hk | rfl
    · have := ih p F u l hF (hu.trans (min_le_left _ _)) k hk i hi
      exact ⟨this.1.trans (mul_le_mul_of_nonneg_right (le_max_left _ _) hu0),
        this.2.trans (mul_le_mul_of_nonneg_right (le_max_left _ _) hu0)⟩
    · have := hb p F u l hF (hu.trans (min_le_right _ _)) i hi
      exact ⟨this.1.trans (mul_le_mul_of_nonneg_right (le_max_right _ _) hu0),
        this.2.trans (mul_le_mul_of_nonneg_right (le_max_right _ _) hu0)⟩

/-- C144: the same of up to `N` calls of `Integrate` without friction and joint limits, with
`ForwardDynamics` or with the articulated body algorithm. -/
theorem C144_integrate (h : Reach E b d) (hd : b.Definite) (tau : ℕ → ℝ) (dt : ℝ) (fext : FExt) (o : IntOpts)
    (ho : o.friction = false) (hl : o.jointLimits = false) (R : ℝ) (N : ℕ) :
    ∃ K u0 : ℝ, 0 < u0 ∧
    ∀ (q dq : List ℝ) (b1 B : Body), b.setQ q = .ok b1 → b1.setDq dq = .ok B →
      (∀ i < b.dof, |q.getD i 0| ≤ R ∧ |dq.getD i 0| ≤ R) → ∀ k ≤ N,
      ∃ B', steps E tau dt fext o k B = .ok B' ∧ ∀ (F : Fl) (u l : ℝ), F.Within u l → u ≤ u0 →
      ∀ i < b.dof,
        |((F.integrate B tau dt fext o)^[k] (B.qFun, B.dqFun)).1 i - B'.q.getD i 0| ≤ K * u ∧
        |((F.integrate B tau dt fext o)^[k] (B.qFun, B.dqFun)).2 i - B'.dq.getD i 0| ≤
          K * u := by
  have hm := hd.massive h.inv.tree
  obtain ⟨K, u0, -, h0, hb⟩ := integrate_bound h hd tau dt fext o ho R N
  refine ⟨K, u0, h0, fun q dq b1 B e1 e2 hR k hk => ?_⟩
  obtain ⟨hs, hn, ⟨d', hB⟩, hf, hfl⟩ := set_facts h e1 e2
  obtain ⟨B', hB', hA⟩ := steps_from h hm cache0_clear tau dt fext o hl (atState_of_set h e1 e2) k
  refine ⟨B', hB', fun F u l hF hu i hi => ?_⟩
  have eq : B.qFun = fun i => q.getD i 0 := by unfold qFun; rw [setDq_q e2, setQ_q e1]
  have edq : B.dqFun = fun i => dq.getD i 0 := by unfold dqFun; rw [setDq_dq e2]
  have := hb ⟨(fun i => q.getD i 0, fun i => dq.getD i 0), hR⟩ F u l hF hu k hk i hi
  have eI : F.integrate B tau dt fext o = F.integrate b tau dt fext o := by
    unfold Fl.integrate
    simp only [fl_only hs]
  rw [eI, hA.q, hA.dq, congrFun (getD_ofFn_pad _) i, congrFun (getD_ofFn_pad _) i, eq, edq]
  exact this

/-- C144: a simulation with rounded arithmetic follows the motion of the robot: up to `C dt^p` from the
method, with `p` = 1, 2, 4 for `kEuler`, `kHeuns`, `kRk4`, and up to `C u / dt` from the rounding. -/
theorem C144_motion (h : Reach E b d) (hd : b.Definite) (tau : ℕ → ℝ) (fext : FExt) (o : IntOpts)
    (ho : o.friction = false) {T : ℝ}
    {q dq : ℝ → List ℝ} (hM : b.Moves E tau fext o T q dq) (hq : q 0 = b.q) (hdq : dq 0 = b.dq) :
    ∃ C h0 : ℝ, 0 < h0 ∧ ∀ dt, 0 < dt → dt ≤ h0 → ∀ (F : Fl) (u l : ℝ),
      F.Within u l → u ≤ h0 * dt → ∀ k : ℕ, k * dt ≤ T → ∀ i < b.dof,
        |((F.integrate b tau dt fext o)^[k] (b.qFun, b.dqFun)).1 i - (q (k * dt)).getD i 0| ≤
          C * (dt ^ o.method.order + u / dt) ∧
        |((F.integrate b tau dt fext o)^[k] (b.qFun, b.dqFun)).2 i - (dq (k * dt)).getD i 0| ≤
          C * (dt ^ o.method.order + u / dt) := by
  have hm := hd.massive h.inv.tree
  obtain ⟨-, hS⟩ := (moves_iff h hm cache0_clear tau fext o).1 hM
  obtain ⟨C, h0, hC, hpos, -, hb⟩ := rounded_near h hd tau fext o ho hS
  refine ⟨C, h0, hpos, fun dt h1 h2 F u l hF hu k hk i hi => ?_⟩
  have e0 : cut b.dof (b.qFun, b.dqFun) = stateOf b q dq 0 := by
    unfold cut stateOf qFun dqFun
    rw [hq, hdq]
  have hu0 := hF.nonneg.1
  have g := hb dt h1 h2 F u l 0 hF le_rfl (by rw [zero_add, div_le_iff₀ h1]; exact hu) (b.qFun, b.dqFun) 0
    le_rfl (by rw [e0, sub_self, norm_zero]) k (by rwa [zero_add])
  rw [add_zero, zero_add] at g
  exact (cut_near (by positivity)).1 g ⟨i, hi⟩

/-! ## Arithmetics -/

/-- C144: solving with a factorisation is right up to a constant times the error of one operation, for all
matrices that are positive definite by a margin at once, whatever the order in which rows are taken. -/
theorem C144_solve (n : ℕ) (R : ℝ) {c : ℝ} (hc : 0 < c) :
    ∃ K u0 : ℝ, 0 < u0 ∧ ∀ (A : ℕ → ℕ → ℝ) (r x : ℕ → ℝ), (∀ i < n, ∀ j < n, A i j = A j i ∧ |A i j| ≤ R) →
      (∀ v : ℕ → ℝ, c * ∑ i ∈ range n, v i ^ 2 ≤ ∑ i ∈ range n, v i * ∑ j ∈ range n, A i j * v j) →
      (∀ i < n, |r i| ≤ R ∧ ∑ j ∈ range n, A i j * x j = r i) →
      ∀ (F : Fl) (u l : ℝ), F.Within u l → u ≤ u0 → ∀ i < n, |F.solve n A r i - x i| ≤ K * u := by
  let P := {p : (ℕ → ℕ → ℝ) × (ℕ → ℝ) × (ℕ → ℝ) // (∀ i < n, ∀ j < n, p.1 i j = p.1 j i ∧ |p.1 i j| ≤ R) ∧
    (∀ v : ℕ → ℝ, c * ∑ i ∈ range n, v i ^ 2 ≤ ∑ i ∈ range n, v i * ∑ j ∈ range n, p.1 i j * v j) ∧
    ∀ i < n, |p.2.1 i| ≤ R ∧ ∑ j ∈ range n, p.1 i j * p.2.2 j = p.2.1 i}
  have h : ∀ i < n, Acc (fun F (p : P) => F.solve n p.1.1 p.1.2.1 i) fun p => p.1.2.2 i := fun i hi =>
    Acc.solve hc (fun i hi j hj => .data fun p => (p.2.1 i hi j hj).2) (fun i hi => .data fun p => (p.2.2.2 i hi).1)
      (fun p i hi j hj => (p.2.1 i hi j hj).1) (fun p => p.2.2.1) (fun p i hi => (p.2.2.2 i hi).2) hi
  obtain ⟨K, u0, -, h0, hb⟩ := Acc.all n h
  exact ⟨K, u0, h0, fun A r x h1 h2 h3 F u l hF hu i hi => hb ⟨(A, r, x), h1, h2, h3⟩ F u l hF hu i hi⟩

/-- The hypotheses of `C144_solve` are met by a matrix that is not diagonal. -/
example : ∃ (A : ℕ → ℕ → ℝ) (r x : ℕ → ℝ), (∀ i < 2, ∀ j < 2, A i j = A j i ∧ |A i j| ≤ 3) ∧
    (∀ v : ℕ → ℝ, 1 * ∑ i ∈ range 2, v i ^ 2 ≤ ∑ i ∈ range 2, v i * ∑ j ∈ range 2, A i j * v j) ∧
    (∀ i < 2, |r i| ≤ 3 ∧ ∑ j ∈ range 2, A i j * x j = r i) ∧ A 0 1 ≠ 0 ∧ x 0 ≠ 0 := by
  refine ⟨fun i j => if i = j then 2 else 1, fun _ => 3, fun _ => 1, ?_, fun v => ?_, ?_, by norm_num,
    by norm_num⟩
  · intro i hi j hj
    interval_cases i <;> interval_cases j <;> norm_num
  · simp only [sum_range_succ, sum_range_zero]
    norm_num
    nlinarith [sq_nonneg (v 0 + v 1)]
  · intro i hi
    interval_cases i <;> norm_num [sum_range_succ]

/-- C144: the margin is needed: in exact arithmetic too, Eigen's factorisation does not solve systems whose
matrix is nonsingular but not definite. -/
theorem C144_indefinite (b : ℕ → ℝ) (i : ℕ) :
    Fl.exact.solve 2 (fun i j => if i = j then 0 else 1) b i = 0 := by
  have h1 := (exact_cols 2 (fun i j => if i = j then 0 else 1)).1
  have d0 : (Fl.exact.ldltCols 2 (fun i j => if i = j then (0 : ℝ) else 1) 0).1 = 0 := by
    rw [h1 0 (by norm_num)]; simp
  have d1 : (Fl.exact.ldltCols 2 (fun i j => if i = j then (0 : ℝ) else 1) 1).1 = 0 := by
    rw [h1 1 (by norm_num)]; simp [sum_range_succ, d0]
  have hp : Fl.exact.pivot 2 (fun i j => if i = j then (0 : ℝ) else 1) = 1 := rfl
  have hA : (fun i j => (fun i j => if i = j then (0 : ℝ) else 1) (Fl.place (1 : Equiv.Perm (Fin 2)) i)
      (Fl.place (1 : Equiv.Perm (Fin 2)) j)) = fun i j => if i = j then (0 : ℝ) else 1 := by
    have : ∀ i, Fl.place (1 : Equiv.Perm (Fin 2)) i = i := fun i => by unfold Fl.place; split <;> rfl
    simp only [this]
  unfold Fl.solve Fl.solveBy
  rw [hp, hA]
  unfold Fl.solveOrdered
  have hz : ∀ y : ℕ → ℝ, ∀ k < 2, Fl.exact.diagSolve
      (fun i => (Fl.exact.ldltCols 2 (fun i j => if i = j then (0 : ℝ) else 1) i).1) y k = 0 := by
    intro y k hk
    have : Fl.exact.least = 0 := rfl
    interval_cases k <;> simp [Fl.diagSolve, d0, d1, this]
  have hu : ∀ (L : ℕ → ℕ → ℝ) (z : ℕ → ℝ) k, z 0 = 0 → z 1 = 0 → Fl.exact.upperSolve 2 L z k = 0 := by
    intro L z k z0 z1
    have e : 2 - 1 - k = 0 ∨ 2 - 1 - k = 1 := by omega
    unfold Fl.upperSolve
    rcases e with e | e <;> rw [e] <;> simp [fwdLoop, List.range_succ, Function.update, Fl.exact, z0, z1]
  exact hu _ _ _ (hz _ 0 (by norm_num)) (hz _ 1 (by norm_num))

/-- C144: with exact arithmetic the computations above answer what the rest of the model answers. -/
theorem C144_exact (h : Reach E b d) (hd : b.Definite) (tau : ℕ → ℝ) (fext : FExt) (o : FDOpts)
    (ho : o.friction = false) : Fl.exact.Within 0 0 ∧ ∀ (q dq : List ℝ) (b1 B : Body),
      b.setQ q = .ok b1 → b1.setDq dq = .ok B → ∀ i < b.dof,
        Fl.exact.aba (Fl.exact.sysAt B B.qFun B.dqFun) tau fext o i = (B.forwardDynamicsAba tau fext o).1 i ∧
        Fl.exact.fd (Fl.exact.sysAt B B.qFun B.dqFun) tau fext o i = (B.fd E tau fext o).1 i ∧
        ∀ j < b.dof, Fl.exact.crba (Fl.exact.sysAt B B.qFun B.dqFun) i j = B.inertia.1 i j := by
  have hE : Fl.exact.Within 0 0 :=
    ⟨⟨⟨le_rfl, by norm_num⟩, ⟨le_rfl, by norm_num⟩, by simp [Fl.exact, Arith.exact],
      by simp [Fl.exact, Arith.exact], by simp [Fl.exact, Arith.exact], by simp [Fl.exact, Arith.exact],
      by simp [Fl.exact, Arith.exact]⟩, by simp [Fl.exact], by simp [Fl.exact], fun m f => by
        simp only [Fl.exact, Motion.dot, Vec3.dot, zero_mul, abs_nonpos_iff]; ring,
      by simp [Fl.exact], by simp [Fl.exact]⟩
  refine ⟨hE, fun q dq b1 B h1 h2 i hi => ?_⟩
  set R := ∑ i ∈ range b.dof, (|q.getD i 0| + |dq.getD i 0|) with hRd
  have hR : ∀ i < b.dof, |q.getD i 0| ≤ R ∧ |dq.getD i 0| ≤ R := by
    intro i hi
    have := single_le_sum (f := fun i => |q.getD i 0| + |dq.getD i 0|) (fun _ _ => by positivity)
      (mem_range.2 hi)
    have h1 := abs_nonneg (q.getD i 0)
    have h2 := abs_nonneg (dq.getD i 0)
    exact ⟨by linarith, by linarith⟩
  obtain ⟨K, u0, hu, hb⟩ := C144_forward_dynamics h hd tau fext o ho R
  obtain ⟨K', u0', hu', hb'⟩ := C144_inertia h hd R
  obtain ⟨K2, u2, hu2, hb2⟩ := C144_forward_dense h hd tau fext o ho R
  have e2 := hb2 q dq b1 B h1 h2 hR Fl.exact 0 0 hE hu2.le i hi
  rw [mul_zero, abs_nonpos_iff, sub_eq_zero] at e2
  have e := hb q dq b1 B h1 h2 hR Fl.exact 0 0 hE hu.le i hi
  rw [mul_zero, abs_nonpos_iff, sub_eq_zero] at e
  refine ⟨e, e2, fun j hj => ?_⟩
  have e := hb' q dq b1 B h1 h2 hR Fl.exact 0 0 hE hu'.le i hi j hj
  rwa [mul_zero, abs_nonpos_iff, sub_eq_zero] at e

theorem Arith.Within.mono {A : Arith} {u w l : ℝ} (h : A.Within u l) (huw : u ≤ w) (hw : w ≤ 1 / 4) :
    A.Within w l := by
  have hl := h.tiny.1
  exact ⟨⟨h.nonneg.1.trans huw, hw⟩, h.tiny, fun x y => (h.add x y).trans (by gcongr),
    fun x y => (h.sub x y).trans (by gcongr), fun x => (h.sin x).trans (by gcongr),
    fun x => (h.cos x).trans (by gcongr), fun a b => (h.dot a b).trans (by gcongr)⟩

/-- C144: rounding every operation to the nearest number with `n` digits is such an arithmetic. -/
theorem C144_digits (left : Bool) (order : (n : ℕ) → (ℕ → ℕ → ℝ) → Equiv.Perm (Fin n)) {n : ℕ}
    (hn : 5 ≤ n) : (Fl.digits left order n).Within ((1 + (1 / 2) ^ n) ^ 6 - 1) 0 := by
  have h0 : (0 : ℝ) ≤ (1 / 2) ^ n := by positivity
  have hle : ((1 : ℝ) / 2) ^ n ≤ 1 / 32 :=
    (pow_le_pow_of_le_one (by norm_num) (by norm_num) hn).trans (by norm_num)
  have h36 : (1 + ((1 : ℝ) / 2) ^ n) ^ 3 - 1 ≤ (1 + (1 / 2) ^ n) ^ 6 - 1 := by
    have := pow_le_pow_right₀ (a := 1 + ((1 : ℝ) / 2) ^ n) (by linarith) (show 3 ≤ 6 by norm_num)
    linarith
  have h16 : ((1 : ℝ) / 2) ^ n ≤ (1 + (1 / 2) ^ n) ^ 6 - 1 := by
    have := pow_le_pow_right₀ (a := 1 + ((1 : ℝ) / 2) ^ n) (by linarith) (show 1 ≤ 6 by norm_num)
    linarith
  have hq : (1 + ((1 : ℝ) / 2) ^ n) ^ 6 - 1 ≤ 1 / 4 := by
    have := pow_le_pow_left₀ (by linarith) (show 1 + ((1 : ℝ) / 2) ^ n ≤ 1 + 1 / 32 by linarith) 6
    have : ((1 : ℝ) + 1 / 32) ^ 6 ≤ 5 / 4 := by norm_num
    linarith
  refine ⟨(C138_digits left (by omega)).mono h36 hq, fun x y => ?_, fun x y _ => ?_, fun m f => ?_,
    fun x k a b => ?_, by linarith [h0.trans h16, show (Fl.digits left order n).least = 0 from rfl]⟩
  · rw [add_zero]
    exact (nearest_err n _).trans (mul_le_mul_of_nonneg_right h16 (abs_nonneg _))
  · rw [add_zero]
    exact (nearest_err n _).trans (mul_le_mul_of_nonneg_right h16 (abs_nonneg _))
  · generalize he : ((1 : ℝ) / 2) ^ n = e at *
    have ha : ∀ x y, |(fun x y => nearest n (x + y)) x y - (x + y)| ≤ e * |x + y| := fun x y => by
      rw [← he]; exact nearest_err n _
    have hm : ∀ (K : ℝ), 1 + e ≤ K → ∀ x y, |nearest n (x * y) - x * y| ≤ (K - 1) * |x * y| := by
      intro K hK x y
      refine (nearest_err n _).trans (mul_le_mul_of_nonneg_right ?_ (abs_nonneg _))
      rw [he]; linarith
    have up : ∀ j : ℕ, 1 + e ≤ (1 + e) ^ (j + 1) := fun j => by
      have := pow_le_pow_right₀ (a := 1 + e) (by linarith) (show 1 ≤ j + 1 by omega)
      linarith
    have one : ∀ j : ℕ, 1 ≤ (1 + e) ^ j := fun j => one_le_pow₀ (by linarith)
    have step : ∀ (j : ℕ) {x x0 p : ℝ} (y z : ℝ), |x0| ≤ p → |x - x0| ≤ ((1 + e) ^ (j + 1) - 1) * p →
        |nearest n (x + nearest n (y * z)) - (x0 + y * z)| ≤ ((1 + e) ^ (j + 2) - 1) * (p + |y * z|) := by
      intro j x x0 p y z h1 h2
      have := sum_err h0 ha (one (j + 1)) h1 le_rfl h2 (hm _ (up j) y z)
      rwa [← pow_succ'] at this
    have abs2 : ∀ {x p : ℝ} (y : ℝ), |x| ≤ p → |x + y| ≤ p + |y| := fun {x _} y h => by
      have := abs_add_le x y
      exact this.trans (by linarith)
    have b1 := hm ((1 + e) ^ (0 + 1)) (up 0) m.lin.x f.lin.x
    have a1 := le_refl |m.lin.x * f.lin.x|
    have b2 := step 0 m.lin.y f.lin.y a1 b1
    have a2 := abs2 (m.lin.y * f.lin.y) a1
    have b3 := step 1 m.lin.z f.lin.z a2 b2
    have a3 := abs2 (m.lin.z * f.lin.z) a2
    have b4 := step 2 m.ang.x f.ang.x a3 b3
    have a4 := abs2 (m.ang.x * f.ang.x) a3
    have b5 := step 3 m.ang.y f.ang.y a4 b4
    have a5 := abs2 (m.ang.y * f.ang.y) a4
    have b6 := step 4 m.ang.z f.ang.z a5 b5
    simp only [Vec3.dot, add_zero]
    show |nearest n (nearest n (nearest n (nearest n (nearest n (nearest n (m.lin.x * f.lin.x) +
      nearest n (m.lin.y * f.lin.y)) + nearest n (m.lin.z * f.lin.z)) + nearest n (m.ang.x * f.ang.x)) +
      nearest n (m.ang.y * f.ang.y)) + nearest n (m.ang.z * f.ang.z)) - _| ≤ _
    convert b6 using 2
    ring
  · generalize he : ((1 : ℝ) / 2) ^ n = e at *
    have ha : ∀ x y, |(fun x y => nearest n (x + y)) x y - (x + y)| ≤ e * |x + y| := fun x y => by
      rw [← he]; exact nearest_err n _
    have one : ∀ j : ℕ, 1 ≤ (1 + e) ^ j := fun j => one_le_pow₀ (by linarith)
    have hS : ∀ k : ℕ, |(List.range k).foldl (fun s j => nearest n (s + nearest n (a j * b j))) 0 -
        ∑ j ∈ range k, a j * b j| ≤ ((1 + e) ^ (k + 1) - 1) * ∑ j ∈ range k, |a j * b j| := by
      intro k
      induction k with
      | zero => simp
      | succ k ih =>
        rw [List.range_succ, List.foldl_append, sum_range_succ, sum_range_succ]
        have hm : |nearest n (a k * b k) - a k * b k| ≤ ((1 + e) ^ (k + 1) - 1) * |a k * b k| := by
          refine (nearest_err n _).trans (mul_le_mul_of_nonneg_right ?_ (abs_nonneg _))
          have := pow_le_pow_right₀ (a := 1 + e) (by linarith) (show 1 ≤ k + 1 by omega)
          rw [he]; linarith
        have := sum_err h0 ha (one (k + 1)) (abs_sum_le_sum_abs (fun j => a j * b j) (range k)) le_rfl ih hm
        rwa [← pow_succ'] at this
    have hS := hS k
    have hp := abs_sum_le_sum_abs (fun j => a j * b j) (range k)
    have hx : |(-x) - (-x)| ≤ ((1 + e) ^ (k + 1) - 1) * |x| := by
      rw [sub_self, abs_zero]
      exact mul_nonneg (by linarith [one (k + 1)]) (abs_nonneg _)
    have key := sum_err (add := fun x y => -nearest n (-(x + y))) h0 (fun x y => by
      have := nearest_err n (-(x + y))
      rw [he, abs_neg] at this
      rw [show -nearest n (-(x + y)) - (x + y) = -(nearest n (-(x + y)) - -(x + y)) by ring, abs_neg]
      exact this) (one (k + 1)) hp (abs_neg x).le hS hx
    have up : (1 + e) * (1 + e) ^ (k + 1) ≤ (1 + ((1 + e) ^ 6 - 1)) ^ (k + 1) := by
      rw [add_sub_cancel, ← pow_mul, ← pow_succ']
      exact pow_le_pow_right₀ (by linarith) (by omega)
    simp only [add_zero]
    have e1 : (0 : ℝ) ≤ |x| + ∑ j ∈ range k, |a j * b j| :=
      add_nonneg (abs_nonneg _) (sum_nonneg fun _ _ => abs_nonneg _)
    refine le_trans (Eq.le ?_) (key.trans ?_)
    · show |nearest n (x - _) - _| = _
      rw [← abs_neg]
      congr 1
      ring_nf
    · rw [add_comm (∑ j ∈ range k, |a j * b j|)]
      exact mul_le_mul_of_nonneg_right (by linarith) e1

/-- C144: a simulation follows the motion of the robot as closely as wanted, once the time step is short
enough and the numbers have digits enough. -/
theorem C144_enough (h : Reach E b d) (hd : b.Definite) (tau : ℕ → ℝ) (fext : FExt) (o : IntOpts)
    (ho : o.friction = false) {T : ℝ}
    {q dq : ℝ → List ℝ} (hM : b.Moves E tau fext o T q dq) (hq : q 0 = b.q) (hdq : dq 0 = b.dq)
    {ε : ℝ} (hε : 0 < ε) :
    ∃ h0 : ℝ, 0 < h0 ∧ ∀ dt, 0 < dt → dt ≤ h0 → ∃ n0 : ℕ, ∀ n ≥ n0, ∀ left order, ∀ k : ℕ, k * dt ≤ T →
      ∀ i < b.dof,
        |(((Fl.digits left order n).integrate b tau dt fext o)^[k] (b.qFun, b.dqFun)).1 i -
          (q (k * dt)).getD i 0| ≤ ε ∧
        |(((Fl.digits left order n).integrate b tau dt fext o)^[k] (b.qFun, b.dqFun)).2 i -
          (dq (k * dt)).getD i 0| ≤ ε := by
  obtain ⟨C, h0, hpos, hC⟩ := C144_motion h hd tau fext o ho hM hq hdq
  refine ⟨min h0 (min 1 (ε / (2 * (|C| + 1)))), lt_min hpos (lt_min one_pos (by positivity)),
    fun dt hdt hle => ?_⟩
  simp only [le_min_iff] at hle
  obtain ⟨K, u0, hu0, hK⟩ : ∃ K u0 : ℝ, 0 < u0 ∧ ∀ (F : Fl) (u l : ℝ), F.Within u l → u ≤ u0 →
      ∀ k : ℕ, k * dt ≤ T → ∀ i < b.dof,
        |((F.integrate b tau dt fext o)^[k] (b.qFun, b.dqFun)).1 i - (q (k * dt)).getD i 0| ≤
          C * dt ^ o.method.order + K * u ∧
        |((F.integrate b tau dt fext o)^[k] (b.qFun, b.dqFun)).2 i - (dq (k * dt)).getD i 0| ≤
          C * dt ^ o.method.order + K * u := by
    refine ⟨C / dt, h0 * dt, mul_pos hpos hdt, fun F u l hF hu k hk i hi => ?_⟩
    rw [show C * dt ^ o.method.order + C / dt * u = C * (dt ^ o.method.order + u / dt) by ring]
    exact hC dt hdt hle.1 F u l hF hu k hk i hi
  have e1 : C * dt ^ o.method.order ≤ ε / 2 := by
    have h1 : dt ^ o.method.order ≤ dt := by
      have : 1 ≤ o.method.order := by cases o.method <;> simp [Method.order]
      simpa using pow_le_pow_of_le_one hdt.le hle.2.1 this
    have h2 : dt ^ o.method.order ≤ ε / (2 * (|C| + 1)) := h1.trans hle.2.2
    calc C * dt ^ o.method.order ≤ (|C| + 1) * dt ^ o.method.order := by
          gcongr; linarith [le_abs_self C]
      _ ≤ (|C| + 1) * (ε / (2 * (|C| + 1))) := by gcongr
      _ = ε / 2 := by field_simp
  have lim : Filter.Tendsto (fun n : ℕ => (1 + ((1 : ℝ) / 2) ^ n) ^ 6 - 1) Filter.atTop (nhds 0) := by
    have h1 : Filter.Tendsto (fun n : ℕ => ((1 : ℝ) / 2) ^ n) Filter.atTop (nhds 0) :=
      tendsto_pow_atTop_nhds_zero_of_lt_one (by norm_num) (by norm_num)
    have := ((h1.const_add 1).pow 6).sub_const 1
    simpa using this
  have small : (0 : ℝ) < min u0 (ε / (2 * (|K| + 1))) := lt_min hu0 (by positivity)
  obtain ⟨n1, hn1⟩ := Filter.eventually_atTop.1 (lim.eventually (gt_mem_nhds small))
  refine ⟨max n1 5, fun n hn left order k hk i hi => ?_⟩
  have hu := (hn1 n ((le_max_left _ _).trans hn)).le
  simp only [le_min_iff] at hu
  have hW := C144_digits left order ((le_max_right _ _).trans hn)
  have g := hK _ _ _ hW hu.1 k hk i hi
  have hw := hW.nonneg.1
  have e2 : K * ((1 + (1 / 2) ^ n) ^ 6 - 1) ≤ ε / 2 := by
    calc K * ((1 + (1 / 2) ^ n) ^ 6 - 1) ≤ (|K| + 1) * ((1 + (1 / 2) ^ n) ^ 6 - 1) := by
          gcongr; linarith [le_abs_self K]
      _ ≤ (|K| + 1) * (ε / (2 * (|K| + 1))) := by gcongr; exact hu.2
      _ = ε / 2 := by field_simp
  exact ⟨g.1.trans (by linarith), g.2.trans (by linarith)⟩

/-- The hypotheses of C144 are met by the loaded demo robot, states set in it, and an arithmetic that is
not exact. -/
example (E : Ext) : ∃ d b1 B, Reach E demoLoaded d ∧ demoLoaded.Definite ∧
    demoLoaded.setQ [1, 2, 3] = .ok b1 ∧ b1.setDq [3, 0, -1] = .ok B ∧
    (∀ i < demoLoaded.dof, |([1, 2, 3] : List ℝ).getD i 0| ≤ 3 ∧ |([3, 0, -1] : List ℝ).getD i 0| ≤ 3) ∧
    demoLoaded.index (-1) = .ok 2 ∧
    (∃ q dq : ℝ → List ℝ, q 0 = demoLoaded.q ∧ dq 0 = demoLoaded.dq ∧ ∀ T, demoLoaded.Moves E (fun _ => 1)
      (fun _ => none) ⟨true, true, false, false, .rk4, false, 0⟩ T q dq) ∧
    (Fl.digits true (fun _ _ => Fin.revPerm) 5).Within ((1 + (1 / 2) ^ 5) ^ 6 - 1) 0 ∧ (Fl.digits true (fun _ _ => 1) 4).add 16 1 = 18 := by
  obtain ⟨d, h⟩ := demoLoaded_reach E
  obtain ⟨b1, h1, e1⟩ := setQ_total (b := demoLoaded) (q := [1, 2, 3]) rfl
  obtain ⟨B, h2, e2⟩ := setDq_total (b := b1) (q := [3, 0, -1]) (by rw [e1]; rfl)
  refine ⟨d, b1, B, h, demoLoaded_definite, h1, h2, fun i hi => ?_, rfl,
    C78_exists h demoLoaded_definite demo_axesOK _ _ _ rfl rfl h.inv.tree.lq h.inv.tree.ldq,
    C144_digits true _ le_rfl, ?_⟩
  · have hi : i < 3 := hi
    interval_cases i <;> norm_num
  · show nearest 4 (16 + 1) = 18
    norm_num [nearest_17]

end SpatialDyn
