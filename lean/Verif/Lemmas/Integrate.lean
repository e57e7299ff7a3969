import Verif.Spec.Scheme
import Verif.Lemmas.Transparent
import Verif.Lemmas.Same

/-! One step of `Integrate` in terms of states. -/

namespace SpatialDyn
namespace Body
variable {b b1 : Body} {E : Ext}

theorem toVec_ofFn (n : ℕ) (f : ℕ → ℝ) : toVec n f = List.ofFn fun i : Fin n => f i := by
  apply List.ext_getElem
  · simp [toVec]
  · intro i h1 h2
    simp [toVec]

theorem getD_ofFn {n : ℕ} (f : Fin n → ℝ) (i : Fin n) : (List.ofFn f).getD i 0 = f i := by
  simp [List.getD_eq_getElem?_getD, List.getElem?_ofFn]

theorem setQ_q {q : List ℝ} (hs : b.setQ q = .ok b1) : b1.q = q := by
  unfold setQ at hs
  split at hs
  · cases hs
  · split at hs
    · next h => cases hs; exact h
    · cases hs; rfl

theorem setQ_dq {q : List ℝ} (hs : b.setQ q = .ok b1) : b1.dq = b.dq := by
  unfold setQ at hs
  split at hs
  · cases hs
  · split at hs <;> cases hs <;> rfl

theorem setDq_dq {q : List ℝ} (hs : b.setDq q = .ok b1) : b1.dq = q := by
  unfold setDq at hs
  split at hs
  · cases hs
  · split at hs
    · next h => cases hs; exact h
    · cases hs; rfl

theorem setDq_q {q : List ℝ} (hs : b.setDq q = .ok b1) : b1.q = b.q := by
  unfold setDq at hs
  split at hs
  · cases hs
  · split at hs <;> cases hs <;> rfl

theorem setQ_defined {q : List ℝ} (hq : q.length = b.dof) : ∃ b1, b.setQ q = .ok b1 := by
  unfold Body.setQ
  rw [if_neg (not_not.2 hq)]
  split <;> exact ⟨_, rfl⟩

theorem setDq_defined {q : List ℝ} (hq : q.length = b.dof) : ∃ b1, b.setDq q = .ok b1 := by
  unfold Body.setDq
  rw [if_neg (not_not.2 hq)]
  split <;> exact ⟨_, rfl⟩

/-- The filter `Integrate` applies. -/
noncomputable def codeFilter (b : Body) (lim : Bool) (y : State b.dof) : State b.dof :=
  (fun i => if lim then clipQ1 (b.rb i).joint (y.1 i) else y.1 i,
   fun i => if lim then clipDq1 (b.rb i).joint (clipQ1 (b.rb i).joint (y.1 i)) (y.2 i) else y.2 i)

/-- `b1` is `b` in state `y`, up to the cache, which is sound. -/
structure AtState (E : Ext) (b : Body) (y : State b.dof) (b1 : Body) : Prop where
  only : StateOnly b b1
  inv : Inv E b1
  q : b1.q = List.ofFn y.1
  dq : b1.dq = List.ofFn y.2

theorem atState_self (h : Inv E b) : AtState E b b.state b := by
  refine ⟨(Same.refl b).stateOnly, h, ?_, ?_⟩
  · apply List.ext_getElem
    · simp [h.tree.lq]
    · intro i h1 h2; simp [state, h1]
  · apply List.ext_getElem
    · simp [h.tree.ldq]
    · intro i h1 h2; simp [state, h1]

theorem AtState.dof {y : State b.dof} (h : AtState E b y b1) : b1.dof = b.dof := by
  unfold Body.dof; rw [h.only.rbs]

theorem AtState.rb {y : State b.dof} (h : AtState E b y b1) : b1.rb = b.rb := by
  unfold Body.rb; rw [h.only.rbs]

theorem inState_inv (h : Inv E b) {c : Cache} (hc : c.Clear) (y : State b.dof) :
    Inv E (b.inState c y) := by
  refine ⟨⟨?_, ?_, h.tree.lanc, h.tree.lsub, h.tree.ids, h.tree.anc_mem,
    h.tree.anc_sorted, h.tree.sub_mem, h.tree.sub_sorted⟩, ⟨h.rigid.base, h.rigid.link⟩,
    CohC.of_clear hc _⟩
  · simp [inState, Body.dof]
  · simp [inState, Body.dof]

theorem symI_congr {b b' : Body} (h1 : b'.rbs = b.rbs) (h2 : b'.load = b.load)
    (h : b.fresh.SymI) : b'.fresh.SymI := by
  have hI : b'.fresh.Itot = b.fresh.Itot := by
    funext i
    unfold Sys.Itot Body.fresh sysWith Body.rb
    simp only [h1, h2]
  intro i hi
  rw [hI]
  exact h i (by rw [show b.fresh.n = b'.fresh.n from (congrArg List.length h1).symm]; exact hi)

theorem posMass_congr {b b' : Body} (h1 : b'.rbs = b.rbs) (h2 : b'.load = b.load)
    (h : b.fresh.PosMass) : b'.fresh.PosMass := by
  have hI : b'.fresh.Itot = b.fresh.Itot := by
    funext i
    unfold Sys.Itot Body.fresh sysWith Body.rb
    simp only [h1, h2]
  have hn : b'.fresh.n = b.fresh.n := congrArg List.length h1
  have hp : b'.fresh.par = b.fresh.par := by
    show b'.par = b.par
    unfold Body.par Body.rb; rw [h1]
  have hM : b'.fresh.subMass = b.fresh.subMass := by
    funext i
    unfold Sys.subMass
    rw [hI, hn, hp]
  refine ⟨fun i hi => ?_, fun i hi hp' => ?_⟩
  · rw [hI]; exact h.nonneg i (hn ▸ hi)
  · rw [hM]; exact h.sub_pos i (hn ▸ hi) (hp ▸ hp')

theorem AtState.accel {y : State b.dof} (h : AtState E b y b1) (h0 : Inv E b) (hs : b.fresh.SymI)
    (hm : b.fresh.PosMass) {c : Cache} (hc : c.Clear) (tau : ℕ → ℝ) (fext : FExt) (o : IntOpts) :
    (∀ i : Fin b.dof, (b1.accel E tau fext o).1 i = (b.field E c tau fext o y).2 i) ∧
      AtState E b y (b1.accel E tau fext o).2 := by
  constructor
  · intro i
    have ho : b1.ObsEq (b.inState c y) :=
      ⟨h.only.rbs, h.q, h.dq, h.only.g, h.only.load, h.only.T0, h.only.anc, h.only.sub⟩
    have hs1 := symI_congr h.only.rbs h.only.load hs
    have hm1 := posMass_congr h.only.rbs h.only.load hm
    have hi : (i : ℕ) < b1.dof := by rw [h.dof]; exact i.2
    have hi' : (i : ℕ) < (b.inState c y).dof := i.2
    have hd : (b.inState c y).dof = b1.dof := by rw [h.dof]; rfl
    unfold Body.accel field IntOpts.fd
    split
    · have h2 := Query.core_ans h.inv (inState_inv h0 hc y) ho hs1 hm1
        (.forwardDynamicsAba tau fext ⟨o.gravity, o.cc, o.friction, o.eps⟩) trivial
      simp only [Query.run, Out.map, Out.bind, Out.ok.injEq, Ans.vec.injEq, hd] at h2
      exact take_inj h2 i hi
    · have h2 := Query.core_ans h.inv (inState_inv h0 hc y) ho hs1 hm1
        (.forwardDynamics tau fext ⟨o.gravity, o.cc, o.friction, o.eps⟩) trivial
      simp only [Query.run, Out.map, Out.bind, Out.ok.injEq, Ans.vec.injEq, hd] at h2
      exact take_inj h2 i hi
  · have h1 := accel_step h.inv tau fext o
    have h2 := accel_same (b := b1) (E := E) tau fext o
    exact ⟨h.only.trans h2.stateOnly, h.inv.step h1, by rw [h2]; exact h.q, by rw [h2]; exact h.dq⟩

theorem AtState.qFun {y : State b.dof} (h : AtState E b y b1) (i : Fin b.dof) :
    b1.qFun i = y.1 i := by
  unfold Body.qFun; rw [h.q, getD_ofFn]

theorem AtState.dqFun {y : State b.dof} (h : AtState E b y b1) (i : Fin b.dof) :
    b1.dqFun i = y.2 i := by
  unfold Body.dqFun; rw [h.dq, getD_ofFn]

theorem AtState.setState {y : State b.dof} (h : AtState E b y b1) (lim : Bool) {q dq : ℕ → ℝ}
    (z : State b.dof) (hq : ∀ i : Fin b.dof, q i = z.1 i) (hdq : ∀ i : Fin b.dof, dq i = z.2 i) :
    ∃ b2, b1.setState lim q dq = .ok b2 ∧ AtState E b (b.codeFilter lim z) b2 := by
  unfold Body.setState
  obtain ⟨b', h1⟩ := setQ_defined (b := b1)
    (q := toVec b1.dof fun i => if lim then clipQ1 (b1.rb i).joint (q i) else q i)
    (by simp [toVec])
  have k1 := setQ_stateOnly h.inv.tree.lq h1
  have hd' : b'.dof = b1.dof := by unfold Body.dof; rw [k1.rbs]
  have hr' : b'.rb = b1.rb := by unfold Body.rb; rw [k1.rbs]
  obtain ⟨b2, h2⟩ := setDq_defined (b := b') (q := toVec b'.dof fun i =>
      if lim then clipDq1 (b'.rb i).joint (b'.q.getD i 0) (dq i) else dq i) (by simp [toVec])
  have i1 := (setQ_inv h.inv h1).1
  have k2 := setDq_stateOnly i1.tree.ldq h2
  have hq1 : b'.q = List.ofFn (b.codeFilter lim z).1 := by
    rw [setQ_q h1, h.dof, h.rb, toVec_ofFn]
    congr 1
    funext i
    unfold codeFilter
    simp only [hq i]
  refine ⟨b2, ?_, (h.only.trans k1).trans k2, (setDq_inv i1 h2).1, ?_, ?_⟩
  · rw [h1]; exact h2
  · rw [setDq_q h2, hq1]
  · rw [setDq_dq h2, hd', h.dof, hr', h.rb, toVec_ofFn]
    congr 1
    funext i
    rw [hq1, getD_ofFn]
    unfold codeFilter
    simp only [hdq i]
    split <;> rfl

/-- The methods of `Integrate` are the textbook schemes, for any source of accelerations that depends
on the state only. -/
theorem AtState.integrateWith {y : State b.dof} {b0 : Body} (g0 : AtState E b y b0)
    {f : Body → (ℕ → ℝ) × Body} {F : State b.dof → State b.dof} (hF1 : ∀ y, (F y).1 = y.2)
    (hstage : ∀ {y : State b.dof} {b1 : Body}, AtState E b y b1 →
      (∀ i : Fin b.dof, (f b1).1 i = (F y).2 i) ∧ AtState E b y (f b1).2)
    (dt : ℝ) (lim : Bool) (m : Method) :
    ∃ b', b0.integrateWith f dt lim m = .ok b' ∧ AtState E b
      (scheme m F (b.codeFilter lim) dt y) b' := by
  obtain ⟨a0, s0⟩ := hstage g0
  have hq0 := g0.qFun
  have hd0 := g0.dqFun
  unfold Body.integrateWith
  simp only
  cases m with
  | euler =>
    simp only
    obtain ⟨b1, h1, h2⟩ := s0.setState lim
      (y.1 + dt • y.2 + (dt ^ 2 / 2) • (F y).2, y.2 + dt • (F y).2)
      (q := fun i => b0.qFun i + dt * b0.dqFun i + 0.5 * dt * dt * (f b0).1 i)
      (dq := fun i => b0.dqFun i + dt * (f b0).1 i)
      (fun i => by
        simp only [hq0, hd0, a0, Pi.add_apply, Pi.smul_apply, smul_eq_mul]
        ring)
      (fun i => by simp only [hd0, a0, Pi.add_apply, Pi.smul_apply, smul_eq_mul])
    exact ⟨b1, h1, h2⟩
  | heuns =>
    simp only
    obtain ⟨b1, h1, g1⟩ := s0.setState lim (y + dt • F y)
      (q := fun i => b0.qFun i + dt * b0.dqFun i)
      (dq := fun i => b0.dqFun i + dt * (f b0).1 i)
      (fun i => by simp [hq0, hd0, hF1])
      (fun i => by simp [hd0, a0])
    rw [h1]
    simp only [Out.bind]
    obtain ⟨a1, s1⟩ := hstage g1
    have hd1 := g1.dqFun
    obtain ⟨b2, h2, g2⟩ := s1.setState lim
      (y + dt • ((1 / 2 : ℝ) • F y + (1 / 2 : ℝ) • F (b.codeFilter lim
        (y + dt • F y))))
      (q := fun i => b0.qFun i + 0.5 * dt * (b0.dqFun i + b1.dqFun i))
      (dq := fun i => b0.dqFun i + 0.5 * dt * ((f b0).1 i +
        (f b1).1 i))
      (fun i => by
        simp only [hq0, hd0, hd1, hF1, Prod.fst_add, Prod.smul_fst, Pi.add_apply, Pi.smul_apply,
          smul_eq_mul]
        ring)
      (fun i => by
        simp only [hd0, a0, a1, Prod.snd_add, Prod.smul_snd, Pi.add_apply, Pi.smul_apply,
          smul_eq_mul]
        ring)
    refine ⟨b2, h2, ?_⟩
    have e : scheme .heuns F (b.codeFilter lim) dt y = b.codeFilter lim
      (y + dt • ((1 / 2 : ℝ) • F y + (1 / 2 : ℝ) • F (b.codeFilter lim
        (y + dt • F y)))) := by
      simp [scheme, heun, rkStep, rkSlopes, lin]
    rw [e]
    exact g2
  | rk4 =>
    simp only
    obtain ⟨b1, h1, g1⟩ := s0.setState lim (y + dt • (1 / 2 : ℝ) • F y)
      (q := fun i => b0.qFun i + 0.5 * dt * b0.dqFun i)
      (dq := fun i => b0.dqFun i + 0.5 * dt * (f b0).1 i)
      (fun i => by
        simp only [hq0, hd0, hF1, Prod.fst_add, Prod.smul_fst, Pi.add_apply, Pi.smul_apply,
          smul_eq_mul]
        ring)
      (fun i => by
        simp only [hd0, a0, Prod.snd_add, Prod.smul_snd, Pi.add_apply, Pi.smul_apply, smul_eq_mul]
        ring)
    rw [h1]
    simp only [Out.bind]
    obtain ⟨a1, s1⟩ := hstage g1
    have hd1 := g1.dqFun
    set y1 := b.codeFilter lim (y + dt • (1 / 2 : ℝ) • F y) with hy1
    obtain ⟨b2, h2, g2⟩ := s1.setState lim (y + dt • (1 / 2 : ℝ) • F y1)
      (q := fun i => b0.qFun i + 0.5 * dt * b1.dqFun i)
      (dq := fun i => b0.dqFun i + 0.5 * dt * (f b1).1 i)
      (fun i => by
        simp only [hq0, hd1, hF1, Prod.fst_add, Prod.smul_fst, Pi.add_apply, Pi.smul_apply,
          smul_eq_mul]
        ring)
      (fun i => by
        simp only [hd0, a1, Prod.snd_add, Prod.smul_snd, Pi.add_apply, Pi.smul_apply, smul_eq_mul]
        ring)
    rw [h2]
    simp only
    obtain ⟨a2, s2⟩ := hstage g2
    have hd2 := g2.dqFun
    set y2 := b.codeFilter lim (y + dt • (1 / 2 : ℝ) • F y1) with hy2
    obtain ⟨b3, h3, g3⟩ := s2.setState lim (y + dt • F y2)
      (q := fun i => b0.qFun i + dt * b2.dqFun i)
      (dq := fun i => b0.dqFun i + dt * (f b2).1 i)
      (fun i => by simp [hq0, hd2, hF1])
      (fun i => by simp [hd0, a2])
    rw [h3]
    simp only
    obtain ⟨a3, s3⟩ := hstage g3
    have hd3 := g3.dqFun
    set y3 := b.codeFilter lim (y + dt • F y2) with hy3
    obtain ⟨b4, h4, g4⟩ := s3.setState lim
      (y + dt • ((1 / 6 : ℝ) • F y + ((1 / 3 : ℝ) • F y1 + ((1 / 3 : ℝ) • F y2 +
        (1 / 6 : ℝ) • F y3))))
      (q := fun i => b0.qFun i + dt / 6 * (b0.dqFun i + 2 * b1.dqFun i + 2 * b2.dqFun i + b3.dqFun i))
      (dq := fun i => b0.dqFun i + dt / 6 * ((f b0).1 i +
        2 * (f b1).1 i + 2 * (f b2).1 i +
          (f b3).1 i))
      (fun i => by
        simp only [hq0, hd0, hd1, hd2, hd3, hF1, Prod.fst_add, Prod.smul_fst, Pi.add_apply,
          Pi.smul_apply, smul_eq_mul]
        ring)
      (fun i => by
        simp only [hd0, a0, a1, a2, a3, Prod.snd_add, Prod.smul_snd, Pi.add_apply, Pi.smul_apply,
          smul_eq_mul]
        ring)
    refine ⟨b4, h4, ?_⟩
    have e : scheme .rk4 F (b.codeFilter lim) dt y = b.codeFilter lim
      (y + dt • ((1 / 6 : ℝ) • F y + ((1 / 3 : ℝ) • F y1 + ((1 / 3 : ℝ) • F y2 +
        (1 / 6 : ℝ) • F y3)))) := by
      simp only [scheme, SpatialDyn.rk4, rkStep, rkSlopes, lin, List.nil_append, List.cons_append,
        add_zero, zero_smul, zero_add, one_smul, ← hy1, ← hy2, ← hy3]
    rw [e]
    exact g4

/-- `Integrate` is the textbook scheme, with the filter of the code. -/
theorem AtState.integrate {y : State b.dof} {b0 : Body} (g0 : AtState E b y b0) (h : Inv E b)
    (hs : b.fresh.SymI) (hm : b.fresh.PosMass) {c : Cache}
    (hc : c.Clear) (tau : ℕ → ℝ) (dt : ℝ) (fext : FExt) (o : IntOpts) :
    ∃ b', b0.integrate E tau dt fext o = .ok b' ∧ AtState E b
      (scheme o.method (b.field E c tau fext o) (b.codeFilter o.jointLimits) dt y) b' :=
  g0.integrateWith (f := fun b => b.accel E tau fext o) (F := b.field E c tau fext o) (fun _ => rfl)
    (fun h1 => h1.accel h hs hm hc tau fext o) dt o.jointLimits o.method

/-- `Integrate` is the textbook scheme, with the filter of the code. -/
theorem integrate_scheme (h : Inv E b) (hs : b.fresh.SymI) (hm : b.fresh.PosMass) {c : Cache}
    (hc : c.Clear) (tau : ℕ → ℝ) (dt : ℝ) (fext : FExt) (o : IntOpts) :
    ∃ b', b.integrate E tau dt fext o = .ok b' ∧ AtState E b
      (scheme o.method (b.field E c tau fext o) (b.codeFilter o.jointLimits) dt b.state) b' :=
  (atState_self h).integrate h hs hm hc tau dt fext o

end Body
end SpatialDyn
