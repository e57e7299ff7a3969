import Verif.Lemmas.Matlab
import Verif.Props.Kinematics
import Verif.Props.Energy
import Verif.Props.OpsCache
import Verif.Props.OpsAbaFlyer

/-!
# C83 – C87: the MATLAB functions

`Mex.ByColumn` and the indexing of arrays are in `Verif.Spec.Matlab`.
-/

namespace SpatialDyn
namespace Mex
open Body

variable {E : Ext} {b : Body} {d : Bool}

/-! ## One pass -/

/-- What stays during a loop that only sets the state. -/
structure Kept (E : Ext) (b b1 : Body) : Prop where
  reach : ∃ d, Reach E b1 d
  so : StateOnly b b1

theorem Kept.dof (k : Kept E b b1) : b1.dof = b.dof := by unfold Body.dof; rw [k.so.rbs]

theorem Kept.same {b2 : Body} (k : Kept E b b1) {x : Query} (hx : x.Core) {a : Ans}
    (hr : x.run E b1 = .ok (a, b2)) : Kept E b b2 := by
  obtain ⟨d, hd⟩ := k.reach
  refine ⟨⟨_, hd.step (b' := b2) (.query x) ?_ (by simp [Op.exec, Op.step, hr, Out.map, Out.bind])⟩,
    k.so.trans (Query.run_same x hr).stateOnly⟩
  cases x <;> first | trivial | exact hx.elim

theorem Kept.setQ (k : Kept E b b1) {q : List ℝ} {B : Body} (hB : b1.setQ q = .ok B) : Kept E b B := by
  obtain ⟨d, hd⟩ := k.reach
  exact ⟨⟨_, hd.step (b' := B) (.setQ q) trivial (by simp [Op.exec, Op.step, hB])⟩,
    k.so.trans (setQ_stateOnly hd.inv.tree.lq hB)⟩

theorem Kept.setDq (k : Kept E b b1) {q : List ℝ} {B : Body} (hB : b1.setDq q = .ok B) :
    Kept E b B := by
  obtain ⟨d, hd⟩ := k.reach
  exact ⟨⟨_, hd.step (b' := B) (.setDq q) trivial (by simp [Op.exec, Op.step, hB])⟩,
    k.so.trans (setDq_stateOnly hd.inv.tree.ldq hB)⟩

theorem Kept.obs {B B1 : Body} (k : Kept E b B) (k1 : Kept E b B1) (hq : B1.q = B.q)
    (hdq : B1.dq = B.dq) : B1.ObsEq B :=
  ⟨k1.so.rbs.trans k.so.rbs.symm, hq, hdq, k1.so.g.trans k.so.g.symm, k1.so.load.trans k.so.load.symm,
    k1.so.T0.trans k.so.T0.symm, k1.so.anc.trans k.so.anc.symm, k1.so.sub.trans k.so.sub.symm⟩

theorem Kept.refl (h : Reach E b d) : Kept E b b := ⟨⟨d, h⟩, (Same.refl b).stateOnly⟩

theorem Kept.answer {B B1 : Body} (hm : b.Massive) (k : Kept E b B) (k1 : Kept E b B1)
    (ho : B1.ObsEq B) (x : Query) (hx : x.Core) :
    (x.run E B1).map Prod.fst = (x.run E B).map Prod.fst := by
  obtain ⟨d, hd⟩ := k.reach
  obtain ⟨d1, hd1⟩ := k1.reach
  have hm1 := k1.so.massive hm
  exact C14_history_independent hd1 hd ho hm1.symI (hm1.posMass hd1.inv.tree) x hx

theorem Same.state {b b' : Body} (h : b.Same b') : b'.q = b.q ∧ b'.dq = b.dq := by
  unfold Body.Same at h
  constructor <;> rw [h]

theorem column_length (Q : Arr) (n : ℕ) (is : List ℕ) : (Q.column n is).length = n := by
  simp [Arr.column]

/-- The state in which the loop over `q` leaves the body. -/
def LeftQ (b b' : Body) (Q : Arr) : Prop :=
  (Q.dims.tail.prod = 0 → b' = b) ∧
  (Q.dims.tail.prod ≠ 0 → ∃ B, b.setQ (Q.column b.dof (lastOf Q.dims.tail)) = .ok B ∧ B.ObsEq b')

/-- The state in which the loop over `q` and `dq` leaves the body. -/
def LeftQDq (b b' : Body) (Q dQ : Arr) : Prop :=
  (Q.dims.tail.prod = 0 → b' = b) ∧
  (Q.dims.tail.prod ≠ 0 → ∃ B1 B, b.setQ (Q.column b.dof (lastOf Q.dims.tail)) = .ok B1 ∧
    B1.setDq (dQ.column b.dof (lastOf Q.dims.tail)) = .ok B ∧ B.ObsEq b')

/-- What a function of the body gives at column `i`. -/
noncomputable def valQ (b : Body) (Q : Arr) (g : Body → ℕ → ℝ) (i k : ℕ) : ℝ :=
  match (Q.col b.dof i).bind b.setQ with
  | .ok B => g B k
  | _ => 0

theorem rows_of {Q : Arr} {n : ℕ} {ds : List ℕ} (h : Q.dims = n :: ds) : Q.rows n = true := by
  unfold Arr.rows; rw [h]; simp

/-- A loop that sets `q` and asks one query. -/
theorem fillQ (h : Reach E b d) (hm : b.Massive) {Q : Arr} {ds : List ℕ} (hQ : Q.dims = b.dof :: ds)
    {pre : List ℕ} (x : Query) (hx : x.Core) (g : Body → ℕ → ℝ)
    {f : Body → ℕ → Out ((ℕ → ℝ) × Body)}
    (hg : ∀ B B1 : Body, B1.dof = B.dof → B.dof = b.dof →
      (x.run E B1).map Prod.fst = (x.run E B).map Prod.fst →
      ∀ k < pre.prod, g B1 k = g B k)
    (hf : ∀ b1 i q B1, b1.dof = b.dof → B1.dof = b.dof → Q.col b.dof i = .ok q → b1.setQ q = .ok B1 →
      ∃ a b2, x.run E B1 = .ok (a, b2) ∧ f b1 i = .ok (g B1, b2)) :
    ∃ A b', fill (pre ++ ds) pre.prod ds.prod b f = .ok (some A, b') ∧
      LeftQ b b' Q ∧ ByColumn Q A pre fun is v => ∃ B, b.setQ (Q.column b.dof is) = .ok B ∧
        ∀ js, Inside pre js → v js = g B (place pre js) := by
  have hds : Q.dims.tail = ds := by rw [hQ]; rfl
  obtain ⟨A, b', h1, -, h3, h4, h5, h6⟩ := fill_spec (pre := pre) (ds := ds) (f := f)
    (fun _ b1 => Kept E b b1 ∧ b1.dq = b.dq)
    (fun i b' => ∀ q, Q.col b.dof i = .ok q → ∃ B, b.setQ q = .ok B ∧ B.ObsEq b')
    (valQ b Q g) (b := b) ⟨Kept.refl h, rfl⟩ (fun is hi b1 p1 => by
      have hc := col_eq (rows_of hQ) (by rw [hds]; exact hi)
      rw [hds] at hc
      obtain ⟨B, hB, hd⟩ := setQ_total (b := b) (column_length Q b.dof is)
      obtain ⟨B1, hB1, hd1⟩ := setQ_total (b := b1) (q := Q.column b.dof is)
        (by rw [p1.1.dof]; exact column_length Q b.dof is)
      rw [p1.1.dof] at hd1
      obtain ⟨a, b2, hr, hfr⟩ := hf b1 _ _ B1 p1.1.dof hd1 hc hB1
      have kB := (Kept.refl h).setQ hB
      have kB1 := p1.1.setQ hB1
      have ho : B1.ObsEq B := kB.obs kB1 (by rw [(setQ_pos hB1).1, (setQ_pos hB).1])
        (by rw [(setQ_pos hB1).2, (setQ_pos hB).2, p1.2])
      have hs := Same.state (Query.run_same x hr)
      refine ⟨_, b2, hfr, ⟨kB1.same hx hr, by rw [hs.2, (setQ_pos hB1).2, p1.2]⟩,
        fun q hq => ?_, fun k hk => ?_⟩
      · rw [hc] at hq
        cases hq
        exact ⟨B, hB, (kB1.same hx hr).obs kB (by rw [hs.1, ho.q]) (by rw [hs.2, ho.dq])⟩
      · unfold valQ
        rw [hc]
        simp only [Out.bind, hB]
        exact hg B B1 (by rw [hd1, hd]) hd (Kept.answer hm kB kB1 ho x hx) k hk)
  refine ⟨A, b', h1, ⟨by rw [hds]; exact h3, fun hne => ?_⟩, by rw [hds]; exact h5, fun is hi => ?_⟩
  · rw [hds] at hne
    refine h4 hne _ ?_
    have := col_eq (rows_of hQ) (is := lastOf ds) (by rw [hds]; exact inside_last hne)
    rw [hds] at *
    exact this
  · have hc := col_eq (rows_of hQ) hi
    rw [hds] at hi hc
    obtain ⟨B, hB, -⟩ := setQ_total (b := b) (column_length Q b.dof is)
    refine ⟨B, hB, fun js hj => ?_⟩
    show A.at (js ++ is) = _
    rw [h6 is hi js hj]
    unfold valQ
    rw [hc]
    simp only [Out.bind, hB]

/-- What a function of the body gives at column `i` of two arrays. -/
noncomputable def valQDq (b : Body) (Q dQ : Arr) (g : ℕ → Body → ℕ → ℝ) (i k : ℕ) : ℝ :=
  match ((Q.col b.dof i).bind b.setQ).bind fun B => (dQ.col b.dof i).bind B.setDq with
  | .ok B => g i B k
  | _ => 0

/-- A loop that sets `q` and `dq` and asks one query. -/
theorem fillQDq (h : Reach E b d) (hm : b.Massive) {Q dQ : Arr} {ds : List ℕ}
    (hQ : Q.dims = b.dof :: ds) (hdQ : dQ.dims = b.dof :: ds)
    {pre : List ℕ} (x : ℕ → Query) (hx : ∀ i, (x i).Core) (g : ℕ → Body → ℕ → ℝ)
    {f : Body → ℕ → Out ((ℕ → ℝ) × Body)}
    (hg : ∀ i, ∀ B B1 : Body, B1.dof = B.dof → B.dof = b.dof → Kept E b B → Kept E b B1 →
      ((x i).run E B1).map Prod.fst = ((x i).run E B).map Prod.fst →
      ∀ k < pre.prod, g i B1 k = g i B k)
    (hf : ∀ b1 is q dq B0 B1, Inside ds is → b1.dof = b.dof → B0.dof = b.dof → B1.dof = b.dof →
      Q.col b.dof (place ds is) = .ok q → dQ.col b.dof (place ds is) = .ok dq →
      b1.setQ q = .ok B0 → B0.setDq dq = .ok B1 → Kept E b B1 →
      ∃ a b2, (x (place ds is)).run E B1 = .ok (a, b2) ∧
        f b1 (place ds is) = .ok (g (place ds is) B1, b2)) :
    ∃ A b', fill (pre ++ ds) pre.prod ds.prod b f = .ok (some A, b') ∧
      LeftQDq b b' Q dQ ∧ ByColumn Q A pre fun is v => ∃ B0 B, b.setQ (Q.column b.dof is) = .ok B0 ∧
        B0.setDq (dQ.column b.dof is) = .ok B ∧
        ∀ js, Inside pre js → v js = g (place ds is) B (place pre js) := by
  have hds : Q.dims.tail = ds := by rw [hQ]; rfl
  have hdds : dQ.dims.tail = ds := by rw [hdQ]; rfl
  have colQ : ∀ {is}, Inside ds is → Q.col b.dof (place ds is) = .ok (Q.column b.dof is) :=
    fun {is} hi => by
      have := col_eq (rows_of hQ) (is := is) (by rw [hds]; exact hi)
      rw [hds] at this; exact this
  have colD : ∀ {is}, Inside ds is → dQ.col b.dof (place ds is) = .ok (dQ.column b.dof is) :=
    fun {is} hi => by
      have := col_eq (rows_of hdQ) (is := is) (by rw [hdds]; exact hi)
      rw [hdds] at this; exact this
  have two : ∀ {b1 : Body}, b1.dof = b.dof → ∀ is, ∃ B0 B, b1.setQ (Q.column b.dof is) = .ok B0 ∧
      B0.setDq (dQ.column b.dof is) = .ok B ∧ B0.dof = b.dof ∧ B.dof = b.dof := fun {b1} e is => by
    obtain ⟨B0, h0, e0⟩ := setQ_total (b := b1) (q := Q.column b.dof is)
      (by rw [e]; exact column_length Q b.dof is)
    obtain ⟨B, h1, e1⟩ := setDq_total (b := B0) (q := dQ.column b.dof is)
      (by rw [e0, e]; exact column_length dQ b.dof is)
    exact ⟨B0, B, h0, h1, by rw [e0, e], by rw [e1, e0, e]⟩
  obtain ⟨A, b', h1, -, h3, h4, h5, h6⟩ := fill_spec (pre := pre) (ds := ds) (f := f)
    (fun _ b1 => Kept E b b1)
    (fun i b' => ∀ q dq, Q.col b.dof i = .ok q → dQ.col b.dof i = .ok dq →
      ∃ B0 B, b.setQ q = .ok B0 ∧ B0.setDq dq = .ok B ∧ B.ObsEq b')
    (valQDq b Q dQ g) (b := b) (Kept.refl h) (fun is hi b1 p1 => by
      obtain ⟨B0, B, hB0, hB, -, hd⟩ := two (b1 := b) rfl is
      obtain ⟨C0, C, hC0, hC, hd0, hd1⟩ := two p1.dof is
      have kB := ((Kept.refl h).setQ hB0).setDq hB
      have kC := (p1.setQ hC0).setDq hC
      obtain ⟨a, b2, hr, hfr⟩ := hf b1 is _ _ C0 C hi p1.dof hd0 hd1 (colQ hi) (colD hi) hC0 hC kC
      have ho : C.ObsEq B := kB.obs kC
        (by rw [(setDq_vel hC).2, (setDq_vel hB).2, (setQ_pos hC0).1, (setQ_pos hB0).1])
        (by rw [(setDq_vel hC).1, (setDq_vel hB).1])
      have hs := Same.state (Query.run_same _ hr)
      have k2 := kC.same (hx _) hr
      refine ⟨_, b2, hfr, k2, fun q dq hq hdq => ?_, fun k hk => ?_⟩
      · rw [colQ hi] at hq
        rw [colD hi] at hdq
        cases hq
        cases hdq
        exact ⟨B0, B, hB0, hB, k2.obs kB (by rw [hs.1, ho.q]) (by rw [hs.2, ho.dq])⟩
      · unfold valQDq
        rw [colQ hi, colD hi]
        simp only [Out.bind, hB0, hB]
        exact hg _ B C (by rw [hd1, hd]) hd kB kC (Kept.answer hm kB kC ho _ (hx _)) k hk)
  refine ⟨A, b', h1, ⟨by rw [hds]; exact h3, fun hne => ?_⟩, by rw [hds]; exact h5, fun is hi => ?_⟩
  · rw [hds] at hne ⊢
    exact h4 hne _ _ (colQ (inside_last hne)) (colD (inside_last hne))
  · rw [hds] at hi
    obtain ⟨B0, B, hB0, hB, -, -⟩ := two (b1 := b) rfl is
    refine ⟨B0, B, hB0, hB, fun js hj => ?_⟩
    show A.at (js ++ is) = _
    rw [h6 is hi js hj]
    unfold valQDq
    rw [colQ hi, colD hi]
    simp only [Out.bind, hB0, hB]

/-! ## C83 -/

theorem inside2 {m n i j : ℕ} (hi : i < m) (hj : j < n) : Inside [m, n] [i, j] := ⟨hi, hj, trivial⟩

theorem lt_prod2 {m n k : ℕ} (h : k < [m, n].prod) : k % m < m ∧ k / m < n := by
  simp only [List.prod_cons, List.prod_nil, mul_one] at h
  have hm : 0 < m := by
    rcases Nat.eq_zero_or_pos m with h0 | h0
    · simp [h0] at h
    · exact h0
  exact ⟨Nat.mod_lt _ hm, Nat.div_lt_of_lt_mul h⟩

theorem place2 (m n i j : ℕ) : place [m, n] [i, j] = i + m * j := by simp [place]

/-- C83: `inertia(ab, Q)` is the joint space inertia at each column of `Q`. -/
theorem C83_inertia (h : Reach E b d) (hm : b.Massive) {Q : Arr} {ds : List ℕ}
    (hQ : Q.dims = b.dof :: ds) (rest : List Val) : ∃ A b',
    Mex.inertia b (.num Q :: rest) = .ok (some A, b') ∧ LeftQ b b' Q ∧
      ByColumn Q A [b.dof, b.dof] fun is v => ∃ B, b.setQ (Q.column b.dof is) = .ok B ∧
        ∀ i < b.dof, ∀ j < b.dof, v [i, j] = B.inertia.1 i j := by
  obtain ⟨A, b', h1, h2, h3, h4⟩ := fillQ (E := E) h hm hQ (pre := [b.dof, b.dof]) .inertia trivial
    (fun B => byCols b.dof B.inertia.1)
    (f := fun b i => (Q.col b.dof i).bind fun q => (b.setQ q).bind fun b =>
      let r := b.inertia; .ok (byCols b.dof r.1, r.2))
    (fun B B1 e e' ha k hk => by
      simp only [Query.run, Out.map, Out.bind, Out.ok.injEq, Ans.mat.injEq] at ha
      obtain ⟨hk1, hk2⟩ := lt_prod2 hk
      rw [e, e'] at ha
      exact take_inj (take_inj ha _ hk1) _ hk2)
    (fun b1 i q B1 e e1 hc hs => ⟨_, _, rfl, by rw [e, hc]; simp only [Out.bind, hs, e1]⟩)
  refine ⟨A, b', ?_, h2, h3, fun is hi => ?_⟩
  · rw [← h1]
    simp only [Mex.inertia, Val.toNum, Out.bind, rows_of hQ, Bool.not_true, Bool.false_eq_true,
      if_false, hQ, List.tail_cons]
    simp
  · obtain ⟨B, hB, hv⟩ := h4 is hi
    exact ⟨B, hB, fun i hi j hj => by rw [hv _ (inside2 hi hj), place2, byCols_at hi]⟩

theorem inside1 {m i : ℕ} (hi : i < m) : Inside [m] [i] := ⟨hi, trivial⟩

theorem place1 (m i : ℕ) : place [m] [i] = i := by simp [place]

theorem lt_prod1 {m k : ℕ} (h : k < [m].prod) : k < m := by simpa using h

/-- C83: `gravity(ab, Q)` is the gravity torque at each column of `Q`. -/
theorem C83_gravity (h : Reach E b d) (hm : b.Massive) {Q : Arr} {ds : List ℕ}
    (hQ : Q.dims = b.dof :: ds) (rest : List Val) : ∃ A b',
    Mex.gravity b (.num Q :: rest) = .ok (some A, b') ∧ LeftQ b b' Q ∧
      ByColumn Q A [b.dof] fun is v => ∃ B, b.setQ (Q.column b.dof is) = .ok B ∧
        ∀ i < b.dof, v [i] = B.gravity.1 i := by
  obtain ⟨A, b', h1, h2, h3, h4⟩ := fillQ (E := E) h hm hQ (pre := [b.dof]) .gravity trivial
    (fun B => B.gravity.1)
    (f := fun b i => (Q.col b.dof i).bind fun q => (b.setQ q).bind fun b =>
      let r := b.gravity; .ok (r.1, r.2))
    (fun B B1 e e' ha k hk => by
      simp only [Query.run, Out.map, Out.bind, Out.ok.injEq, Ans.vec.injEq] at ha
      rw [e, e'] at ha
      exact take_inj ha _ (lt_prod1 hk))
    (fun b1 i q B1 e e1 hc hs => ⟨_, _, rfl, by rw [e, hc]; simp only [Out.bind, hs]⟩)
  refine ⟨A, b', ?_, h2, h3, fun is hi => ?_⟩
  · rw [← h1]
    simp only [Mex.gravity, Val.toNum, Out.bind, rows_of hQ, Bool.not_true, Bool.false_eq_true,
      if_false, hQ, List.tail_cons]
    simp
  · obtain ⟨B, hB, hv⟩ := h4 is hi
    exact ⟨B, hB, fun i hi => by rw [hv _ (inside1 hi), place1]⟩

/-- The Hessian a body answers with. -/
noncomputable def hessOf (B : Body) : ℕ → ℕ → Motion :=
  match B.hessian (-1) 0 with
  | .ok r => r.1
  | _ => fun _ _ => 0

theorem hessian_some {B : Body} (hd : 0 < B.dof) : ∃ B', B.hessian (-1) 0 = .ok (hessOf B, B') := by
  have hk : B.LinkIdx (-1) (B.dof - 1) := by
    refine ⟨by omega, ?_⟩
    right
    omega
  obtain ⟨r, hr⟩ := jacobian_total B (l := ((B.dof - 1 : ℕ) : ℤ)) (k := B.dof - 1)
    ⟨by omega, .inl rfl⟩ 0
  unfold hessOf
  unfold Body.hessian
  rw [hk.index]
  simp only [Out.bind, hr]
  exact ⟨_, rfl⟩

/-- C83: `hessian(ab, Q)` is the Hessian of the last link at each column of `Q`. -/
theorem C83_hessian (h : Reach E b d) (hm : b.Massive) (hd : 0 < b.dof) {Q : Arr} {ds : List ℕ}
    (hQ : Q.dims = b.dof :: ds) (rest : List Val) : ∃ A b',
    Mex.hessian b (.num Q :: rest) = .ok (some A, b') ∧ LeftQ b b' Q ∧
      ByColumn Q A [b.dof, b.dof, 6] fun is v => ∃ B H B', b.setQ (Q.column b.dof is) = .ok B ∧
        B.hessian (-1) 0 = .ok (H, B') ∧
        ∀ i < b.dof, ∀ j < b.dof, ∀ k < 6, v [i, j, k] = (H i j).entry k := by
  obtain ⟨A, b', h1, h2, h3, h4⟩ := fillQ (E := E) h hm hQ (pre := [b.dof, b.dof, 6])
    (.hessian (-1) 0) trivial (fun B => byCols3 b.dof (hessOf B))
    (f := fun b i => (Q.col b.dof i).bind fun q => (b.setQ q).bind fun b =>
      (b.hessian (-1) 0).bind fun r => .ok (byCols3 b.dof r.1, r.2))
    (fun B B1 e e' ha k hk => by
      obtain ⟨B', hB'⟩ := hessian_some (B := B) (by rw [e']; exact hd)
      obtain ⟨B1', hB1'⟩ := hessian_some (B := B1) (by rw [e, e']; exact hd)
      simp only [Query.run, hB', hB1', Out.map, Out.bind, Out.ok.injEq, Ans.hess.injEq] at ha
      rw [e, e'] at ha
      unfold byCols3
      rw [take_inj (take_inj ha (k % b.dof) (Nat.mod_lt _ hd)) (k / b.dof % b.dof)
        (Nat.mod_lt _ hd)])
    (fun b1 i q B1 e e1 hc hs => by
      obtain ⟨B', hB'⟩ := hessian_some (B := B1) (by rw [e1]; exact hd)
      exact ⟨_, _, by simp only [Query.run, hB', Out.map, Out.bind]; rfl,
        by rw [e, hc]; simp only [Out.bind, hs, hB', e1]⟩)
  refine ⟨A, b', ?_, h2, h3, fun is hi => ?_⟩
  · rw [← h1]
    simp only [Mex.hessian, Val.toNum, Out.bind, rows_of hQ, Bool.not_true, Bool.false_eq_true,
      if_false, hQ, List.tail_cons]
    simp [mul_assoc]
  · obtain ⟨B, hB, hv⟩ := h4 is hi
    obtain ⟨B', hB'⟩ := hessian_some (B := B)
      (by rw [((Kept.refl h).setQ hB).dof]; exact hd)
    refine ⟨B, _, B', hB, hB', fun i hi j hj k hk => ?_⟩
    rw [hv [i, j, k] ⟨hi, hj, hk, trivial⟩]
    have : place [b.dof, b.dof, 6] [i, j, k] = i + b.dof * (j + b.dof * k) := by simp [place]
    rw [this, byCols3_at hi hj]

/-- C83: `centrifugal_coriolis(ab, Q, dQ)` for arrays of the same dimensions. -/
theorem C83_centrifugal_coriolis (h : Reach E b d) (hm : b.Massive) {Q dQ : Arr} {ds : List ℕ}
    (hQ : Q.dims = b.dof :: ds) (hdQ : dQ.dims = b.dof :: ds) (rest : List Val) : ∃ A b',
    Mex.centrifugalCoriolis b (.num Q :: .num dQ :: rest) = .ok (some A, b') ∧ LeftQDq b b' Q dQ ∧
      ByColumn Q A [b.dof] fun is v => ∃ B0 B, b.setQ (Q.column b.dof is) = .ok B0 ∧
        B0.setDq (dQ.column b.dof is) = .ok B ∧ ∀ i < b.dof, v [i] = B.centrifugalCoriolis.1 i := by
  obtain ⟨A, b', h1, h2, h3, h4⟩ := fillQDq (E := E) h hm hQ hdQ (pre := [b.dof])
    (fun _ => .centrifugalCoriolis) (fun _ => trivial) (fun _ B => B.centrifugalCoriolis.1)
    (f := fun b i => (Q.col b.dof i).bind fun q => (b.setQ q).bind fun b =>
      (dQ.col b.dof i).bind fun dq => (b.setDq dq).bind fun b =>
      let r := b.centrifugalCoriolis; .ok (r.1, r.2))
    (fun _ B B1 e e' _ _ ha k hk => by
      simp only [Query.run, Out.map, Out.bind, Out.ok.injEq, Ans.vec.injEq] at ha
      rw [e, e'] at ha
      exact take_inj ha _ (lt_prod1 hk))
    (fun b1 is q dq B0 B1 _ e e0 e1 hc hcd hs hsd _ =>
      ⟨_, _, rfl, by rw [e, hc]; simp only [Out.bind, hs, e0, hcd, hsd]⟩)
  refine ⟨A, b', ?_, h2, h3, fun is hi => ?_⟩
  · rw [← h1]
    simp only [Mex.centrifugalCoriolis, Val.toNum, Out.bind, rows_of hQ, rows_of hdQ, Bool.not_true,
      Bool.false_eq_true, if_false, hQ, List.tail_cons]
    simp
  · obtain ⟨B0, B, hB0, hB, hv⟩ := h4 is hi
    exact ⟨B0, B, hB0, hB, fun i hi => by rw [hv _ (inside1 hi), place1]⟩

theorem motion3_ok {Q dQ ddQ : Arr} {n : ℕ} (hQ : Q.dims = [b.dof, n]) (hdQ : dQ.dims = [b.dof, n])
    (hddQ : ddQ.dims = [b.dof, n]) (k : Arr → Arr → Arr → Res) :
    motion3 b (.num Q) (.num dQ) (.num ddQ) k = k Q dQ ddQ := by
  simp [motion3, Val.toNum, Out.bind, rows_of hQ, rows_of hdQ, rows_of hddQ, hQ, hdQ, hddQ]

/-- Column `i` in memory, as a function. -/
noncomputable def colFn (a : Arr) (n i : ℕ) : ℕ → ℝ :=
  match a.col n i with
  | .ok l => fun j => l.getD j 0
  | _ => fun _ => 0

/-- One of the three functions of `q`, `dq` and `ddq`. -/
theorem fill3 (h : Reach E b d) (hm : b.Massive) {Q dQ ddQ : Arr} {n : ℕ}
    (hQ : Q.dims = [b.dof, n]) (hdQ : dQ.dims = [b.dof, n]) (hddQ : ddQ.dims = [b.dof, n])
    {pre : List ℕ} (x : (ℕ → ℝ) → Query) (hx : ∀ a, (x a).Core) (g : (ℕ → ℝ) → Body → ℕ → ℝ)
    {G : Body → (ℕ → ℝ) → Out ((ℕ → ℝ) × Body)}
    (hg : ∀ a, ∀ B B1 : Body, B1.dof = B.dof → B.dof = b.dof → Kept E b B → Kept E b B1 →
      ((x a).run E B1).map Prod.fst = ((x a).run E B).map Prod.fst →
      ∀ k < pre.prod, g a B1 k = g a B k)
    (hf : ∀ a B, B.dof = b.dof → Kept E b B → ∃ r b2, (x a).run E B = .ok (r, b2) ∧
      G B a = .ok (g a B, b2)) :
    ∃ A b', fill (pre ++ [n]) pre.prod [n].prod b (motionStep Q dQ ddQ G) = .ok (some A, b') ∧
      LeftQDq b b' Q dQ ∧ ByColumn Q A pre fun is v => ∃ B0 B, b.setQ (Q.column b.dof is) = .ok B0 ∧
        B0.setDq (dQ.column b.dof is) = .ok B ∧
        ∀ js, Inside pre js → v js =
          g (fun j => (ddQ.column b.dof is).getD j 0) B (place pre js) := by
  have colD : ∀ {is}, Inside [n] is → ddQ.col b.dof (place [n] is) = .ok (ddQ.column b.dof is) :=
    fun {is} hi => by
      have := col_eq (rows_of hddQ) (is := is) (by rw [hddQ]; exact hi)
      rw [hddQ] at this; exact this
  obtain ⟨A, b', h1, h2, h3, h4⟩ := fillQDq (E := E) h hm hQ hdQ (pre := pre)
    (fun i => x (colFn ddQ b.dof i)) (fun _ => hx _) (fun i => g (colFn ddQ b.dof i))
    (f := motionStep Q dQ ddQ G) (fun i B B1 e e' k k1 ha => hg _ B B1 e e' k k1 ha)
    (fun b1 is q dq B0 B1 hi e e0 e1 hc hcd hs hsd k1 => by
      obtain ⟨r, b2, hr, hG⟩ := hf (colFn ddQ b.dof (place [n] is)) B1 e1 k1
      refine ⟨r, b2, hr, ?_⟩
      rw [← hG]
      unfold motionStep
      rw [e, hc]
      simp only [Out.bind, hs, e0, hcd, hsd, e1, colD hi, colFn])
  refine ⟨A, b', h1, h2, h3, fun is hi => ?_⟩
  obtain ⟨B0, B, hB0, hB, hv⟩ := h4 is hi
  refine ⟨B0, B, hB0, hB, fun js hj => ?_⟩
  rw [hv js hj]
  rw [hQ] at hi
  simp only [colFn, colD hi]

/-- C83: `inverse_dynamics(ab, Q, dQ, ddQ)` is the torque of `InverseDynamics` with gravity and velocity
products, for each column. -/
theorem C83_inverse_dynamics (h : Reach E b d) (hm : b.Massive) {Q dQ ddQ : Arr} {n : ℕ}
    (hQ : Q.dims = [b.dof, n]) (hdQ : dQ.dims = [b.dof, n]) (hddQ : ddQ.dims = [b.dof, n])
    (rest : List Val) : ∃ A b',
    Mex.inverseDynamics b (.num Q :: .num dQ :: .num ddQ :: rest) = .ok (some A, b') ∧
      LeftQDq b b' Q dQ ∧
      ByColumn Q A [b.dof] fun is v => ∃ B0 B, b.setQ (Q.column b.dof is) = .ok B0 ∧
        B0.setDq (dQ.column b.dof is) = .ok B ∧ ∀ i < b.dof, v [i] =
          (B.inverseDynamics (fun j => (ddQ.column b.dof is).getD j 0) noExt
            (IDOpts.make true true)).1 i := by
  obtain ⟨A, b', h1, h2, h3, h4⟩ := fill3 (E := E) h hm hQ hdQ hddQ (pre := [b.dof])
    (fun a => .inverseDynamics a noExt idOpts) (fun _ => trivial)
    (fun a B => (B.inverseDynamics a noExt idOpts).1)
    (G := fun b ddq => let r := b.inverseDynamics ddq noExt idOpts; .ok (r.1, r.2))
    (fun _ B B1 e e' _ _ ha k hk => by
      simp only [Query.run, Out.map, Out.bind, Out.ok.injEq, Ans.vec.injEq] at ha
      rw [e, e'] at ha
      exact take_inj ha _ (lt_prod1 hk))
    (fun _ B _ _ => ⟨_, _, rfl, rfl⟩)
  refine ⟨A, b', ?_, h2, h3, fun is hi => ?_⟩
  · rw [← h1]
    simp only [Mex.inverseDynamics, motion3_ok hQ hdQ hddQ]
    simp [hQ]
  · obtain ⟨B0, B, hB0, hB, hv⟩ := h4 is hi
    exact ⟨B0, B, hB0, hB, fun i hi => by rw [hv _ (inside1 hi), place1]; rfl⟩

/-- C83: `inverse_dynamics_velocity_derivative(ab, Q, dQ, ddQ)`. -/
theorem C83_velocity_derivative (h : Reach E b d) (hm : b.Massive) {Q dQ ddQ : Arr} {n : ℕ}
    (hQ : Q.dims = [b.dof, n]) (hdQ : dQ.dims = [b.dof, n]) (hddQ : ddQ.dims = [b.dof, n])
    (rest : List Val) : ∃ A b',
    Mex.velocityDerivative b (.num Q :: .num dQ :: .num ddQ :: rest) = .ok (some A, b') ∧
      LeftQDq b b' Q dQ ∧
      ByColumn Q A [b.dof, b.dof] fun is v => ∃ B0 B, b.setQ (Q.column b.dof is) = .ok B0 ∧
        B0.setDq (dQ.column b.dof is) = .ok B ∧ ∀ i < b.dof, ∀ j < b.dof, v [i, j] =
          (B.velocityDerivative (fun j => (ddQ.column b.dof is).getD j 0) noExt
            (IDOpts.make true true)).1 i j := by
  obtain ⟨A, b', h1, h2, h3, h4⟩ := fill3 (E := E) h hm hQ hdQ hddQ (pre := [b.dof, b.dof])
    (fun a => .velocityDerivative a noExt idOpts) (fun _ => trivial)
    (fun a B => byCols b.dof (B.velocityDerivative a noExt idOpts).1)
    (G := fun b ddq => let r := b.velocityDerivative ddq noExt idOpts; .ok (byCols b.dof r.1, r.2))
    (fun _ B B1 e e' _ _ ha k hk => by
      simp only [Query.run, Out.map, Out.bind, Out.ok.injEq, Ans.mat.injEq] at ha
      rw [e, e'] at ha
      obtain ⟨hk1, hk2⟩ := lt_prod2 hk
      exact take_inj (take_inj ha _ hk1) _ hk2)
    (fun _ B e _ => ⟨_, _, rfl, by rw [e]⟩)
  refine ⟨A, b', ?_, h2, h3, fun is hi => ?_⟩
  · rw [← h1]
    simp only [Mex.velocityDerivative, motion3_ok hQ hdQ hddQ]
    simp [hQ]
  · obtain ⟨B0, B, hB0, hB, hv⟩ := h4 is hi
    exact ⟨B0, B, hB0, hB, fun i hi j hj => by
      rw [hv _ (inside2 hi hj), place2, byCols_at hi]; rfl⟩

/-- The derivative a body answers with. -/
noncomputable def dposOf (a : ℕ → ℝ) (B : Body) : ℕ → ℕ → ℝ :=
  match B.positionDerivative a noExt idOpts with
  | .ok r => r.1
  | _ => fun _ _ => 0

theorem dpos_some {B : Body} (hc : B.hasChild = false) (a : ℕ → ℝ) :
    ∃ B', B.positionDerivative a noExt idOpts = .ok (dposOf a B, B') := by
  unfold dposOf
  unfold Body.positionDerivative
  rw [if_neg (by simp [hc])]
  exact ⟨_, rfl⟩

theorem Kept.hasChild {B : Body} (k : Kept E b B) : B.hasChild = b.hasChild := by
  unfold Body.hasChild Body.dof Body.par Body.rb
  rw [k.so.rbs]

/-- C83: `inverse_dynamics_position_derivative(ab, Q, dQ, ddQ)`, for bodies on which the library function
is defined (C41: no link on another link). -/
theorem C83_position_derivative (h : Reach E b d) (hm : b.Massive) (hch : b.hasChild = false)
    {Q dQ ddQ : Arr} {n : ℕ} (hQ : Q.dims = [b.dof, n]) (hdQ : dQ.dims = [b.dof, n])
    (hddQ : ddQ.dims = [b.dof, n]) (rest : List Val) : ∃ A b',
    Mex.positionDerivative b (.num Q :: .num dQ :: .num ddQ :: rest) = .ok (some A, b') ∧
      LeftQDq b b' Q dQ ∧
      ByColumn Q A [b.dof, b.dof] fun is v => ∃ B0 B D B', b.setQ (Q.column b.dof is) = .ok B0 ∧
        B0.setDq (dQ.column b.dof is) = .ok B ∧
        B.positionDerivative (fun j => (ddQ.column b.dof is).getD j 0) noExt
          (IDOpts.make true true) = .ok (D, B') ∧
        ∀ i < b.dof, ∀ j < b.dof, v [i, j] = D i j := by
  obtain ⟨A, b', h1, h2, h3, h4⟩ := fill3 (E := E) h hm hQ hdQ hddQ (pre := [b.dof, b.dof])
    (fun a => .positionDerivative a noExt idOpts) (fun _ => trivial)
    (fun a B => byCols b.dof (dposOf a B))
    (G := fun b ddq => (b.positionDerivative ddq noExt idOpts).bind fun r =>
      .ok (byCols b.dof r.1, r.2))
    (fun a B B1 e e' kB kB1 ha k hk => by
      obtain ⟨B', hB'⟩ := dpos_some (B := B) (by rw [kB.hasChild, hch]) a
      obtain ⟨B1', hB1'⟩ := dpos_some (B := B1) (by rw [kB1.hasChild, hch]) a
      simp only [Query.run, hB', hB1', Out.map, Out.bind, Out.ok.injEq, Ans.mat.injEq] at ha
      rw [e, e'] at ha
      obtain ⟨hk1, hk2⟩ := lt_prod2 hk
      exact take_inj (take_inj ha _ hk1) _ hk2)
    (fun a B e kB => by
      obtain ⟨B', hB'⟩ := dpos_some (B := B) (by rw [kB.hasChild, hch]) a
      exact ⟨_, _, by simp only [Query.run, hB', Out.map, Out.bind]; rfl,
        by simp only [hB', Out.bind, e]⟩)
  refine ⟨A, b', ?_, h2, h3, fun is hi => ?_⟩
  · rw [← h1]
    simp only [Mex.positionDerivative, motion3_ok hQ hdQ hddQ]
    simp [hQ]
  · obtain ⟨B0, B, hB0, hB, hv⟩ := h4 is hi
    obtain ⟨B', hB'⟩ := dpos_some (B := B)
      (by rw [(((Kept.refl h).setQ hB0).setDq hB).hasChild, hch])
      (fun j => (ddQ.column b.dof is).getD j 0)
    exact ⟨B0, B, _, B', hB0, hB, hB', fun i hi j hj => by
      rw [hv _ (inside2 hi hj), place2, byCols_at hi]⟩

/-- The Jacobian of the last link and its dynamically consistent inverse a body answers with. -/
noncomputable def jbarOf (E : Ext) (B : Body) : ℕ → ℕ → ℝ :=
  match (B.jacobian (-1) 0).bind fun J => J.2.opsJbar E (jac6 B.dof J.1) 0 with
  | .ok r => r.1.e
  | _ => fun _ _ => 0

theorem last_idx {B : Body} (hd : 0 < B.dof) : B.LinkIdx (-1) (B.dof - 1) := by
  refine ⟨by omega, ?_⟩
  right
  omega

theorem careful_query {B B' : Body} {T : Set ℝ} {d : Bool} (h : Careful E T B d) {x : Query}
    (hs : (Op.query x).Safe B d) (ht : (Op.query x).Tol T) {a : Ans}
    (hr : x.run E B = .ok (a, B')) : Careful E T B' true :=
  h.step (b' := B') (.query x) hs ht (by simp [Op.exec, Op.step, hr, Out.map, Out.bind])

theorem jbar_some {B : Body} {d : Bool} (h : Careful E {0} B d) (hd : 0 < B.dof) :
    ∃ J B' X B'', B.jacobian (-1) 0 = .ok (J, B') ∧
      B'.opsJbar E (jac6 B.dof J) 0 = .ok (X, B'') ∧ jbarOf E B = X.e ∧ B.Same B'' ∧
      (∃ d', Careful E {0} B' d') ∧ ∃ d', Careful E {0} B'' d' := by
  obtain ⟨⟨J, B'⟩, hJ⟩ := jacobian_total B (last_idx hd) 0
  have hq : (Query.jacobian (-1) 0).run E B = .ok (.cols (take B.dof J), B') := by
    simp only [Query.run, hJ, Out.map, Out.bind]
  have c1 := careful_query h (x := .jacobian (-1) 0) trivial trivial hq
  have s1 := Query.run_same _ hq
  have e1 : B'.dof = B.dof := by unfold Body.dof; rw [s1.stateOnly.rbs]
  obtain ⟨⟨X, B''⟩, hX⟩ := opsJbar_total (e := 0) c1.inv (J := jac6 B.dof J)
    (by rw [e1]; rfl) (by rw [e1]; exact hd)
  have hq2 : (Query.opsJbar (jac6 B.dof J) 0).run E B' = .ok (.dmat X.trunc, B'') := by
    simp only [Query.run, hX, Out.map, Out.bind]
  have c2 := careful_query c1 (x := .opsJbar (jac6 B.dof J) 0) trivial
    (by simp [Op.Tol]) hq2
  refine ⟨J, B', X, B'', hJ, hX, ?_, ?_, ⟨_, c1⟩, ⟨_, c2⟩⟩
  · unfold jbarOf
    rw [hJ]
    simp only [Out.bind, hX]
  · exact s1.trans (Query.run_same _ hq2)

/-- Two bodies in the same state give the same inverse. -/
theorem jbar_obs {B C : Body} {d d' : Bool} (h : Careful E {0} B d) (h' : Careful E {0} C d')
    (ho : C.ObsEq B) (hd : 0 < B.dof) (i : ℕ) (hi : i < B.dof) (j : ℕ) :
    jbarOf E C i j = jbarOf E B i j := by
  have e := ho.dof_eq
  obtain ⟨J, B', X, B'', hJ, hX, eX, -, ⟨d1, c1⟩, -⟩ := jbar_some h hd
  obtain ⟨K, C', Y, C'', hK, hY, eY, -, ⟨d2, c2⟩, -⟩ := jbar_some h' (by rw [← e]; exact hd)
  have sB := (jacobian_same hJ)
  have sC := (jacobian_same hK)
  have htw : C.freshTw = B.freshTw := by
    obtain ⟨h1, h2, h3, h4, h5, h6, h7, h8⟩ := ho
    unfold Body.freshTw Body.freshTp Body.TpAt Body.par Body.rb Body.dof
    rw [h1, h2, h6]
  have hJK : K = J := by
    obtain ⟨-, k, hk, e1⟩ := jacobian_run h.inv hJ
    obtain ⟨-, k', hk', e2⟩ := jacobian_run h'.inv hK
    have : C.index (-1) = B.index (-1) := by
      unfold Body.index Body.resolve; rw [e]
    rw [this, hk] at hk'
    cases hk'
    simp only at e1 e2
    rw [e1, e2, htw, ho.anc]
    have : C.jacLoop = B.jacLoop := by
      funext; unfold Body.jacLoop Body.rb; rw [ho.rbs]
    rw [this]
  subst hJK
  have so : ∀ {b b' c c' : Body}, b.Same b' → c.Same c' → c.ObsEq b → c'.ObsEq b' :=
    fun s s' o => by
      unfold Body.Same at s s'
      rw [s, s']
      exact ⟨o.rbs, o.q, o.dq, o.g, o.load, o.T0, o.anc, o.sub⟩
  have ho' := so sB sC ho
  have eB : B'.dof = B.dof := by unfold Body.dof; rw [sB.stateOnly.rbs]
  have eC : C'.dof = C.dof := by unfold Body.dof; rw [sC.stateOnly.rbs]
  rw [← e] at hY
  have := (jbar_same c2.inv c1.inv c2.tol c1.tol ho' (J := jac6 B.dof K)
    (by rw [eC, ← e]; rfl) hY hX).2.2.2 i (by rw [eC, ← e]; exact hi) j
  rw [eX, eY, this]

/-- C83: `jacobian_dynamic_inverse(ab, Q)` is the dynamically consistent inverse of the Jacobian of the
last link at each column (for bodies on which the tolerance was always the default one, C37). -/
theorem C83_jacobian_dynamic_inverse (h : Careful E {0} b d) (hd : 0 < b.dof) {Q : Arr} {ds : List ℕ}
    (hQ : Q.dims = b.dof :: ds) : ∃ A b',
    Mex.jacobianDynamicInverse E b [.num Q] = .ok (some A, b') ∧ LeftQ b b' Q ∧
      ByColumn Q A [b.dof, 6] fun is v => ∃ B J B' X, b.setQ (Q.column b.dof is) = .ok B ∧
        B.jacobian (-1) 0 = .ok (J, B') ∧
        (B'.opsJbar E (jac6 b.dof J) 0).map Prod.fst = .ok X ∧
        ∀ i < b.dof, ∀ j < 6, v [i, j] = X.e i j := by
  have hds : Q.dims.tail = ds := by rw [hQ]; rfl
  have colQ : ∀ {is}, Inside ds is → Q.col b.dof (place ds is) = .ok (Q.column b.dof is) :=
    fun {is} hi => by
      have := col_eq (rows_of hQ) (is := is) (by rw [hds]; exact hi)
      rw [hds] at this; exact this
  have set : ∀ {b1 : Body} {d : Bool}, Careful E {0} b1 d → b1.dof = b.dof → ∀ is,
      ∃ B, b1.setQ (Q.column b.dof is) = .ok B ∧ B.dof = b.dof ∧ ∃ d, Careful E {0} B d :=
    fun {b1 d} c e is => by
      obtain ⟨B, hB, e'⟩ := setQ_total (b := b1) (q := Q.column b.dof is)
        (by rw [e]; exact column_length Q b.dof is)
      exact ⟨B, hB, e'.trans e, _, c.step (b' := B) (.setQ (Q.column b.dof is)) trivial trivial
        (by simp [Op.exec, Op.step, hB])⟩
  obtain ⟨A, b', h1, -, h3, h4, h5, h6⟩ := fill_spec (pre := [b.dof, 6]) (ds := ds)
    (f := fun b i => (Q.col b.dof i).bind fun q => (b.setQ q).bind fun b =>
        (b.jacobian (-1) 0).bind fun J => (J.2.opsJbar E (jac6 b.dof J.1) 0).bind fun r =>
        .ok (byCols b.dof r.1.e, r.2))
    (fun _ b1 => (∃ d, Careful E {0} b1 d) ∧ Kept E b b1 ∧ b1.dq = b.dq)
    (fun i b' => ∀ q, Q.col b.dof i = .ok q → ∃ B, b.setQ q = .ok B ∧ B.ObsEq b')
    (valQ b Q fun B => byCols b.dof (jbarOf E B)) (b := b) ⟨⟨d, h⟩, Kept.refl h.reach, rfl⟩
    (fun is hi b1 p1 => by
      obtain ⟨⟨d1, c1⟩, k1, e1⟩ := p1
      obtain ⟨B, hB, dB, dB', cB⟩ := set h rfl is
      obtain ⟨C, hC, dC, dC', cC⟩ := set c1 k1.dof is
      have kB := (Kept.refl h.reach).setQ hB
      have kC := k1.setQ hC
      have ho : C.ObsEq B := kB.obs kC (by rw [(setQ_pos hC).1, (setQ_pos hB).1])
        (by rw [(setQ_pos hC).2, (setQ_pos hB).2, e1])
      obtain ⟨J, C', X, C'', hJ, hX, eX, sC, -, d2, c2⟩ := jbar_some cC (by rw [dC]; exact hd)
      have k2 : Kept E b C'' := ⟨⟨_, c2.reach⟩, kC.so.trans sC.stateOnly⟩
      have hs := Same.state sC
      refine ⟨byCols b.dof X.e, C'', ?_, ⟨⟨_, c2⟩, k2, by rw [hs.2, (setQ_pos hC).2, e1]⟩,
        fun q hq => ?_, fun k hk => ?_⟩
      · rw [k1.dof, colQ hi]
        rw [dC] at hX
        simp only [Out.bind, hC, hJ, hX, dC]
      · rw [colQ hi] at hq
        cases hq
        exact ⟨B, hB, k2.obs kB (by rw [hs.1, ho.q]) (by rw [hs.2, ho.dq])⟩
      · unfold valQ
        rw [colQ hi]
        simp only [Out.bind, hB]
        unfold byCols
        rw [← eX]
        exact jbar_obs cB cC ho (by rw [dB]; exact hd) _ (by rw [dB]; exact (lt_prod2 hk).1) _)
  refine ⟨A, b', ?_, ⟨by rw [hds]; exact h3, fun hne => ?_⟩, by rw [hds]; exact h5, fun is hi => ?_⟩
  · rw [← h1]
    simp only [Mex.jacobianDynamicInverse, Val.toNum, Out.bind, rows_of hQ, Bool.not_true,
      Bool.false_eq_true, if_false, hQ, List.tail_cons, named]
    simp
  · rw [hds] at hne ⊢
    exact h4 hne _ (colQ (inside_last hne))
  · rw [hds] at hi
    obtain ⟨B, hB, dB, dB', cB⟩ := set h rfl is
    obtain ⟨J, B', X, B'', hJ, hX, eX, -, -, -⟩ := jbar_some cB (by rw [dB]; exact hd)
    refine ⟨B, J, B', X, hB, hJ, by rw [← dB, hX]; rfl, fun i hi' j hj => ?_⟩
    show A.at ([i, j] ++ is) = _
    rw [h6 is hi [i, j] (inside2 hi' hj)]
    unfold valQ
    rw [colQ hi]
    simp only [Out.bind, hB]
    rw [place2, byCols_at hi', eX]

/-! ## C84: named arguments -/

theorem out_assoc {α β γ : Type*} (x : Out α) (f : α → Out β) (g : β → Out γ) :
    (x.bind f).bind g = x.bind fun a => (f a).bind g := by cases x <;> rfl

theorem named_cons (n v : Val) (rest : List Val) (o : ℤ × Vec3) :
    named (n :: v :: rest) o = n.toChars.bind fun s =>
      if s = sOffset then v.toNum.bind fun a =>
        if !a.rows 3 then .ok none
        else (a.read 0).bind fun x => (a.read 1).bind fun y => (a.read 2).bind fun z =>
          named rest (o.1, ⟨x, y, z⟩)
      else if s = sLink then v.toNum.bind fun a =>
        if !a.rows 1 then .ok none
        else (a.read 0).bind fun x => named rest (truncInt x, o.2)
      else named rest o := by
  rw [named]

theorem named_append (l' : List Val) : ∀ (l : List Val) (o : ℤ × Vec3), l.length % 2 = 0 →
    named (l ++ l') o = (named l o).bind fun
      | none => .ok none
      | some o => named l' o
  | [], o, _ => by simp [named, Out.bind]
  | [_], o, h => by simp at h
  | n :: v :: l, o, h => by
    have ih := fun o => named_append l' l o (by simp at h; omega)
    rw [List.cons_append, List.cons_append]
    rw [named_cons, named_cons, out_assoc]
    congr 1
    funext s
    split
    · rw [out_assoc]
      congr 1
      funext a
      split
      · rfl
      · simp only [out_assoc, ih]
    · split
      · rw [out_assoc]
        congr 1
        funext a
        split
        · rfl
        · simp only [out_assoc, ih]
      · exact ih o

theorem truncInt_int (k : ℤ) : truncInt (k : ℝ) = k := by
  unfold truncInt
  split <;> simp

theorem Asks.named {l : List Val} {i : ℤ} {x : Vec3} (h : Asks l i x) :
    l.length % 2 = 0 ∧ Mex.named l (-1, 0) = .ok (some (i, x)) := by
  induction h with
  | none => exact ⟨rfl, rfl⟩
  | @offset l i x a ds _ hd h0 ih =>
    refine ⟨by have := ih.1; simp only [List.length_append, List.length_cons, List.length_nil]; omega, ?_⟩
    have hn : a.numel = 3 * ds.prod := by unfold Arr.numel; rw [hd, List.prod_cons]
    rw [named_append _ _ _ ih.1, ih.2]
    simp only [Out.bind, Mex.named, Val.toChars, Val.toNum, rows_of hd, Arr.read, hn, sOffset,
      if_true, Bool.not_true, Bool.false_eq_true, if_false]
    rw [if_pos (by omega)]
    simp only
    rw [if_pos (by omega)]
    simp only
    rw [if_pos (by omega)]
  | @link l i x a ds k _ hd h0 hk ih =>
    refine ⟨by have := ih.1; simp only [List.length_append, List.length_cons, List.length_nil]; omega, ?_⟩
    have hn : a.numel = 1 * ds.prod := by unfold Arr.numel; rw [hd, List.prod_cons]
    have hne : ¬ "link".toList = sOffset := by unfold sOffset; decide
    rw [named_append _ _ _ ih.1, ih.2]
    simp only [Out.bind, Mex.named, Val.toChars, Val.toNum, rows_of hd, Arr.read, hn, if_neg hne,
      sLink, if_true, Bool.not_true, Bool.false_eq_true, if_false]
    rw [if_pos (by omega)]
    simp only [hk, truncInt_int]
  | @other l i x s v _ h1 h2 ih =>
    refine ⟨by have := ih.1; simp only [List.length_append, List.length_cons, List.length_nil]; omega, ?_⟩
    rw [named_append _ _ _ ih.1, ih.2]
    have h1' : ¬ s = sOffset := h1
    have h2' : ¬ s = sLink := h2
    simp only [Out.bind, Mex.named, Val.toChars, if_neg h1', if_neg h2']

/-- The number of a last argument without partner is irrelevant. -/
theorem Asks.named_lone {l : List Val} {i : ℤ} {x : Vec3} (h : Asks l i x) (v : Val) :
    Mex.named (l ++ [v]) (-1, 0) = .ok (some (i, x)) := by
  rw [named_append _ _ _ h.named.1, h.named.2]
  simp only [Out.bind, Mex.named]

/-- C84: `position(ab, Q, 'link', i, 'offset', x)` is the position of the offset point of the link at each
column, and leaves the body as it is. -/
theorem C84_position (h : Reach E b d) {Q : Arr} {ds : List ℕ} (hQ : Q.dims = b.dof :: ds)
    {args : List Val} {i : ℤ} {x : Vec3} (ha : Asks args i x) {k : ℕ} (hk : b.LinkIdx i k) : ∃ A,
    Mex.position b (.num Q :: args) = .ok (some A, b) ∧
      ByColumn Q A [3] fun is v => ∃ B B' p, b.setQ (Q.column b.dof is) = .ok B ∧
        B.position i x = .ok (p, B') ∧ v [0] = p.x ∧ v [1] = p.y ∧ v [2] = p.z := by
  have hds : Q.dims.tail = ds := by rw [hQ]; rfl
  have key : ∀ is, ∃ B B' p, b.setQ (Q.column b.dof is) = .ok B ∧ B.position i x = .ok (p, B') ∧
      b.positionQ (fun j => (Q.column b.dof is).getD j 0) i x = .ok p := fun is => by
    obtain ⟨B, hB, e⟩ := setQ_total (b := b) (column_length Q b.dof is)
    have hkB : B.LinkIdx i k := by unfold Body.LinkIdx; rw [e]; exact hk
    have h1 := (C17_variants_agree_partial h hB hk x).1
    obtain ⟨p, B', hp⟩ : ∃ p B', B.position i x = .ok (p, B') := by
      unfold Body.position
      rw [hkB.index]
      exact ⟨_, _, rfl⟩
    refine ⟨B, B', p, hB, hp, ?_⟩
    rw [h1, hp]; rfl
  have colQ : ∀ {is}, Inside ds is → Q.col b.dof (place ds is) = .ok (Q.column b.dof is) :=
    fun {is} hi => by
      have := col_eq (rows_of hQ) (is := is) (by rw [hds]; exact hi)
      rw [hds] at this; exact this
  obtain ⟨A, b', h1, h2, -, -, h5, h6⟩ := fill_spec (pre := [3]) (ds := ds)
    (f := fun b j => (Q.col b.dof j).bind fun q =>
      (b.positionQ (fun j => q.getD j 0) i x).bind fun x => .ok (entry3 x, b))
    (fun _ b1 => b1 = b) (fun _ _ => True)
    (fun j => match (Q.col b.dof j).bind fun q => b.positionQ (fun j => q.getD j 0) i x with
      | .ok p => entry3 p
      | _ => fun _ => 0) (b := b) rfl (fun is hi b1 p1 => by
      subst p1
      obtain ⟨B, B', p, -, -, hp⟩ := key is
      refine ⟨entry3 p, b1, ?_, rfl, trivial, fun k _ => ?_⟩
      · rw [colQ hi]; simp only [Out.bind, hp]
      · rw [colQ hi]; simp only [Out.bind, hp])
  subst h2
  refine ⟨A, ?_, by rw [hds]; exact h5, fun is hi => ?_⟩
  · rw [← h1]
    simp only [Mex.position, Val.toNum, Out.bind, rows_of hQ, Bool.not_true, Bool.false_eq_true,
      if_false, ha.named.2, hQ, List.tail_cons]
    simp
  · rw [hds] at hi
    obtain ⟨B, B', p, hB, hp, hq⟩ := key is
    refine ⟨B, B', p, hB, hp, ?_⟩
    have hv : ∀ j < 3, A.at ([j] ++ is) = entry3 p j := fun j hj => by
      rw [h6 is hi [j] (inside1 hj), place1, colQ hi]
      simp only [Out.bind, hq]
    exact ⟨hv 0 (by omega), hv 1 (by omega), hv 2 (by omega)⟩

/-- C84: `jacobian(ab, Q, 'link', i, 'offset', x)` is the Jacobian of the offset point of the link at each
column, and leaves the body as it is. -/
theorem C84_jacobian (h : Reach E b d) {Q : Arr} {ds : List ℕ} (hQ : Q.dims = b.dof :: ds)
    {args : List Val} {i : ℤ} {x : Vec3} (ha : Asks args i x) {k : ℕ} (hk : b.LinkIdx i k) : ∃ A,
    Mex.jacobian b (.num Q :: args) = .ok (some A, b) ∧
      ByColumn Q A [6, b.dof] fun is v => ∃ B B' J, b.setQ (Q.column b.dof is) = .ok B ∧
        B.jacobian i x = .ok (J, B') ∧ ∀ r < 6, ∀ j < b.dof, v [r, j] = (J j).entry r := by
  have hds : Q.dims.tail = ds := by rw [hQ]; rfl
  have key : ∀ is, ∃ B B' p, b.setQ (Q.column b.dof is) = .ok B ∧ B.jacobian i x = .ok (p, B') ∧
      b.jacobianQ (fun j => (Q.column b.dof is).getD j 0) i x = .ok p := fun is => by
    obtain ⟨B, hB, e⟩ := setQ_total (b := b) (column_length Q b.dof is)
    have hkB : B.LinkIdx i k := by unfold Body.LinkIdx; rw [e]; exact hk
    have h1 := (C17_variants_agree_partial h hB hk x).2.2
    obtain ⟨⟨p, B'⟩, hp⟩ := jacobian_total B hkB x
    refine ⟨B, B', p, hB, hp, ?_⟩
    rw [h1, hp]; rfl
  have colQ : ∀ {is}, Inside ds is → Q.col b.dof (place ds is) = .ok (Q.column b.dof is) :=
    fun {is} hi => by
      have := col_eq (rows_of hQ) (is := is) (by rw [hds]; exact hi)
      rw [hds] at this; exact this
  obtain ⟨A, b', h1, h2, -, -, h5, h6⟩ := fill_spec (pre := [6, b.dof]) (ds := ds)
    (f := fun b j => (Q.col b.dof j).bind fun q =>
      (b.jacobianQ (fun j => q.getD j 0) i x).bind fun J => .ok (byCols6 J, b))
    (fun _ b1 => b1 = b) (fun _ _ => True)
    (fun j => match (Q.col b.dof j).bind fun q => b.jacobianQ (fun j => q.getD j 0) i x with
      | .ok p => byCols6 p
      | _ => fun _ => 0) (b := b) rfl (fun is hi b1 p1 => by
      subst p1
      obtain ⟨B, B', p, -, -, hp⟩ := key is
      refine ⟨byCols6 p, b1, ?_, rfl, trivial, fun k _ => ?_⟩
      · rw [colQ hi]; simp only [Out.bind, hp]
      · rw [colQ hi]; simp only [Out.bind, hp])
  subst h2
  refine ⟨A, ?_, by rw [hds]; exact h5, fun is hi => ?_⟩
  · rw [← h1]
    simp only [Mex.jacobian, Val.toNum, Out.bind, rows_of hQ, Bool.not_true, Bool.false_eq_true,
      if_false, ha.named.2, hQ, List.tail_cons]
    simp [mul_comm]
  · rw [hds] at hi
    obtain ⟨B, B', p, hB, hp, hq⟩ := key is
    refine ⟨B, B', p, hB, hp, fun r hr j hj => ?_⟩
    show A.at ([r, j] ++ is) = _
    rw [h6 is hi [r, j] (inside2 hr hj), place2, colQ hi]
    simp only [Out.bind, hq, byCols6_at hr]

/-- C84 does not hold for `jacobian_dynamic_inverse`: it reads the link and the offset and does nothing
with them. -/
theorem C84_ignored (b : Body) (Q : Arr) {args : List Val} {i : ℤ} {x : Vec3} (ha : Asks args i x) :
    Mex.jacobianDynamicInverse E b (.num Q :: args) = Mex.jacobianDynamicInverse E b [.num Q] := by
  simp only [Mex.jacobianDynamicInverse, ha.named.2, Val.toNum, Out.bind, named]

theorem flyer_jac_off {l : ℤ} (hl : flyer0.LinkIdx l 5) {J : (ℕ → Motion) × Body}
    (hJ : flyer0.jacobian l ⟨1, 0, 0⟩ = .ok J) (i : Fin 6) (j : Fin flyer0.dof) :
    jacM flyer0.dof J.1 i j = if i.1 = j.1 then 1 else if i.1 = 1 ∧ j.1 = 5 then 1 else
      if i.1 = 2 ∧ j.1 = 4 then -1 else 0 := by
  obtain ⟨d, h⟩ := flyer_reach ext0
  change Reach ext0 flyer0 d at h
  have hj : j.1 < 6 := j.2
  show (J.1 j).entry i = _
  rw [jacobian_val h.inv hl hJ j, flyer_tw 5 (by omega)]
  unfold Sys.Jw
  rw [if_pos (flyer_anc 5 (by omega) j (by omega))]
  unfold Sys.axis
  rw [fresh_Tw hj, flyer_tw j hj, Iso.one_actM,
    show flyer0.fresh.S j = (flyer0.rb j).joint.subspace from rfl, flyer_joint j hj]
  show Motion.entry (Motion.atPoint (flyerType j).subspace _) i = _
  obtain ⟨j, hj'⟩ := j
  simp only at hj ⊢
  interval_cases j <;> fin_cases i <;>
    simp [flyerType, JType.subspace, Motion.entry, Motion.atPoint, Vec3.cross, Iso.app, Mat3.mulVec]

theorem careful_execAll {T : Set ℝ} : ∀ (ops : List Op) {b b' : Body} {d : Bool}, Careful E T b d →
    (∀ op ∈ ops, ∀ b d, op.Safe b d ∧ op.Tol T) → execAll E b ops = some b' →
    ∃ d', Careful E T b' d'
  | [], _, _, d, h, _, he => by cases he; exact ⟨d, h⟩
  | op :: ops, b, _, d, h, hs, he => by
    rw [execAll] at he
    cases h1 : op.exec E b with
    | none => rw [h1] at he; cases he
    | some c =>
      rw [h1] at he
      obtain ⟨s1, s2⟩ := hs op (by simp) b d
      exact careful_execAll ops (h.step op s1 s2 h1) (fun o ho => hs o (by simp [ho])) he

/-- The free-flying body, on which no tolerance was ever given. -/
theorem flyer_careful : ∃ d, Careful ext0 {0} flyer0 d := by
  refine careful_execAll (flyerOps ++ [.setQ [0, 0, 0, 0, 0, 0]]) (Careful.init cache0) ?_
    (b' := flyer0) ?_
  · intro op hop
    simp only [flyerOps, List.cons_append, List.nil_append, List.mem_cons, List.not_mem_nil,
      or_false] at hop
    rcases hop with rfl | rfl | rfl | rfl | rfl | rfl | rfl | rfl | rfl <;>
      exact fun _ _ => ⟨by first | trivial | exact Iso.valid_one, trivial⟩
  · rw [exec_append, flyer_exec, Option.bind_some]
    simp [execAll, Op.exec, Op.step, flyer_setQ, flyer0]

/-- The inverse the free-flying body answers with after having answered with a Jacobian. -/
theorem flyer_jbar (hc : Careful ext0 {0} flyer0 d) {y : Vec3} {K : ℕ → Motion} {B' : Body}
    (hK : flyer0.jacobian (-1) y = .ok (K, B'))
    (hinj : ∀ v : Fin 6 → ℝ, (∀ k : Fin 6, ∑ i : Fin 6, (K k).entry i * v i = 0) → v = 0) :
    ∃ X : DMat, (B'.opsJbar ext0 (jac6 flyer0.dof K) 0).map Prod.fst = .ok X ∧
      ∀ i j : Fin 6, ∑ k : Fin 6, (K k).entry i * X.e k j = if i = j then 1 else 0 := by
  have hq : (Query.jacobian (-1) y).run ext0 flyer0 = .ok (.cols (take flyer0.dof K), B') := by
    simp only [Query.run, hK, Out.map, Out.bind]
  have c1 := careful_query hc (x := .jacobian (-1) y) trivial trivial hq
  have s1 := Query.run_same _ hq
  have e1 : B'.dof = flyer0.dof := by unfold Body.dof; rw [s1.stateOnly.rbs]
  have hD := flyer_definite
  have hn := hD.form hc.reach
  have ho : B'.ObsEq flyer0 := by
    unfold Body.Same at s1
    simp only at s1
    rw [s1]
    exact ⟨rfl, rfl, rfl, rfl, rfl, rfl, rfl, rfl⟩
  obtain ⟨⟨X, B''⟩, hX⟩ := opsJbar_total (e := 0) c1.inv (J := jac6 flyer0.dof K)
    (by rw [e1]; rfl) (by rw [e1]; show 0 < 6; omega)
  obtain ⟨⟨Y, C⟩, hY⟩ := opsJbar_total (e := 0) hc.inv (J := jac6 flyer0.dof K) rfl
    (by show 0 < 6; omega)
  obtain ⟨M, hM, hM1⟩ := C35_jbar hc hn (JM := jacM flyer0.dof K)
    ⟨rfl, rfl, fun _ _ => rfl⟩
    (C35_regular hc.reach hD fun v hv => hinj v fun k => congrFun hv k) (fun e _ => ext0_exact _ _) rfl hY
  refine ⟨X, by rw [hX]; rfl, fun i j => ?_⟩
  have e2 : ∀ k : Fin 6, X.e k j = M k j := fun k => by
    rw [(jbar_same c1.inv hc.inv c1.tol hc.tol ho (by rw [e1]; rfl) hX hY).2.2.2 k
      (by rw [e1]; exact k.2)]
    exact hM.e k j
  simp only [e2]
  have := congrFun (congrFun hM1 i) j
  rw [Matrix.one_apply] at this
  exact this

/-- C84 does not hold for `jacobian_dynamic_inverse`: for a free-flying body and an offset of one metre,
the answer is not the dynamically consistent inverse of the Jacobian at the offset. -/
theorem C84_violated : ∃ (d : Bool) (Q A : Arr) (args : List Val) (x : Vec3) (b' B B' : Body)
    (J : ℕ → Motion) (X : DMat), Careful ext0 {0} flyer0 d ∧ Q.dims = [flyer0.dof, 1] ∧
    Asks args (-1) x ∧ Mex.jacobianDynamicInverse ext0 flyer0 (.num Q :: args) = .ok (some A, b') ∧
    flyer0.setQ (Q.column flyer0.dof [0]) = .ok B ∧ B.jacobian (-1) x = .ok (J, B') ∧
    (B'.opsJbar ext0 (jac6 flyer0.dof J) 0).map Prod.fst = .ok X ∧ A.at [1, 5, 0] ≠ X.e 1 5 := by
  obtain ⟨d, hc⟩ := flyer_careful
  have hd : 0 < flyer0.dof := by show 0 < 6; omega
  have hl : flyer0.LinkIdx (-1) 5 := ⟨by show 5 < 6; omega, .inr ⟨rfl, by omega⟩⟩
  have hD := flyer_definite
  have hn := hD.form hc.reach
  let Q : Arr := ⟨[flyer0.dof, 1], fun _ => 0⟩
  let a : Arr := ⟨[3, 1], fun k => if k = 0 then 1 else 0⟩
  have hq : Q.column flyer0.dof [0] = flyer0.q := by
    simp [Arr.column, Arr.at, Q, flyer0, flyer, Body.dof, List.range_succ]
  have hset : flyer0.setQ (Q.column flyer0.dof [0]) = .ok flyer0 := by
    unfold Body.setQ
    rw [hq, if_neg (by rw [not_not]; rfl), if_pos rfl]
  have ha : Asks ([] ++ [.chars "offset".toList, .num a]) (-1) ⟨a.e 0, a.e 1, a.e 2⟩ :=
    .offset .none (ds := [1]) rfl (by simp)
  have hx : (⟨a.e 0, a.e 1, a.e 2⟩ : Vec3) = ⟨1, 0, 0⟩ := by simp [a]
  rw [hx] at ha
  obtain ⟨A, b', hA, -, -, hcol⟩ := C83_jacobian_dynamic_inverse hc hd (Q := Q) (ds := [1]) rfl
  obtain ⟨B, J0, B0, X0, hB, hJ0, hX0, hv⟩ := hcol [0] ⟨by omega, trivial⟩
  rw [hset] at hB
  cases hB
  obtain ⟨⟨J, B'⟩, hJ⟩ := jacobian_total flyer0 hl ⟨1, 0, 0⟩
  have j0 : ∀ i j : Fin 6, (J0 j).entry i = _ := flyer_jac hl hJ0
  have j1 : ∀ i j : Fin 6, (J j).entry i = _ := flyer_jac_off hl hJ
  obtain ⟨Y0, hY0, v0⟩ := flyer_jbar hc hJ0 fun v hv => by
    funext i
    have := hv i
    simp only [j0] at this
    simpa [← Fin.ext_iff] using this
  obtain ⟨X, hX, v⟩ := flyer_jbar hc hJ fun v hv => by
    simp only [j1] at hv
    have h0 := hv 0
    have h1 := hv 1
    have h2 := hv 2
    have h3 := hv 3
    have h4 := hv 4
    have h5 := hv 5
    simp [Fin.sum_univ_six] at h0 h1 h2 h3 h4 h5
    funext i
    fin_cases i <;> simp <;> linarith
  refine ⟨d, Q, A, _, _, b', flyer0, B', J, X, hc, rfl, ha, ?_, hset, hJ, hX, ?_⟩
  · rw [C84_ignored _ _ ha, hA]
  · rw [hY0] at hX0
    cases hX0
    have e := hv 1 (by show 1 < 6; omega) 5 (by omega)
    change A.at [1, 5, 0] = _ at e
    have e0 := v0 1 5
    have e1 := v 1 5
    have e5 := v 5 5
    simp only [j0, j1] at e0 e1 e5
    simp [Fin.sum_univ_six] at e0 e1 e5
    rw [e, e0]
    intro h
    linarith

end Mex
end SpatialDyn
