import Verif.Props.Matlab
import Verif.Props.Discrete

/-!
# C85: discrete inverse dynamics from MATLAB
-/

namespace SpatialDyn
namespace Body

/-- The history of the body fixes no previous configuration other than one step back at the current
rates. -/
def NoPast (b : Body) (p : Prev) : Prop := ∀ t, b.before p t = fun j => b.pos j - t * b.vel j

theorem noPast_none (b : Body) : b.NoPast none := fun _ => rfl

end Body

namespace Mex
open Body

variable {E : Ext} {b : Body} {d : Bool} {p : Prev}

theorem NoPast.setQ {b' : Body} (h : DReach E b d p) (hp : b.NoPast p) {q : List ℝ}
    (hb : b.setQ q = .ok b') : ∃ d' p', DReach E b' d' p' ∧ b'.NoPast p' := by
  refine ⟨_, _, h.step (b' := b') (.setQ q) trivial (by simp [Op.exec, Op.step, hb]) trivial, ?_⟩
  show b'.NoPast (ite _ _ _)
  split
  · next e =>
    intro t
    have e1 : b'.pos = b.pos := by unfold Body.pos; rw [e.1]
    have e2 : b'.vel = b.vel := by unfold Body.vel; rw [e.2]
    have := hp t
    unfold Body.before at this ⊢
    rw [e1, e2]
    exact this
  · exact noPast_none _

theorem NoPast.setDq {b' : Body} (h : DReach E b d p) (hp : b.NoPast p) {q : List ℝ}
    (hb : b.setDq q = .ok b') : ∃ d' p', DReach E b' d' p' ∧ b'.NoPast p' := by
  refine ⟨_, _, h.step (b' := b') (.setDq q) trivial (by simp [Op.exec, Op.step, hb]) trivial, ?_⟩
  show b'.NoPast (ite _ _ _)
  split
  · next e =>
    intro t
    have e1 : b'.pos = b.pos := by unfold Body.pos; rw [e.1]
    have e2 : b'.vel = b.vel := by unfold Body.vel; rw [e.2]
    have := hp t
    unfold Body.before at this ⊢
    rw [e1, e2]
    exact this
  · exact noPast_none _

theorem NoPast.ask (h : DReach E b d p) (hp : b.NoPast p) (qn : ℕ → ℝ) (dt : ℝ) (g : Bool) :
    ∃ d' p', DReach E (b.discreteID E qn dt noExt g).2 d' p' ∧
      (b.discreteID E qn dt noExt g).2.NoPast p' ∧ b.Same (b.discreteID E qn dt noExt g).2 := by
  have hr : ∃ a, (Query.discreteInverseDynamics qn dt noExt g).run E b =
      .ok (a, (b.discreteID E qn dt noExt g).2) := ⟨_, rfl⟩
  obtain ⟨a, hr⟩ := hr
  have hs := Query.run_same _ hr
  refine ⟨_, _, h.step (b' := (b.discreteID E qn dt noExt g).2)
    (.query (.discreteInverseDynamics qn dt noExt g)) trivial
    (by simp [Op.exec, Op.step, hr, Out.map, Out.bind]) trivial, ?_, hs⟩
  have e1 : (b.discreteID E qn dt noExt g).2.pos = b.pos := by
    unfold Body.pos; rw [(Same.state hs).1]
  have e2 : (b.discreteID E qn dt noExt g).2.vel = b.vel := by
    unfold Body.vel; rw [(Same.state hs).2]
  intro t
  show before _ (some (dt, b.before p dt)) t = _
  rw [hp dt, e1, e2]
  unfold before
  rw [e1, e2]
  simp only
  split
  · next e => rw [e]
  · rfl

theorem discreteSpec_obs {B C : Body} (ho : C.ObsEq B) (E : Ext) (dt : ℝ) (qp qn : ℕ → ℝ) (f : FExt)
    (i : ℕ) : C.discreteSpec E C.linkMomentum dt qp qn f i =
      B.discreteSpec E B.linkMomentum dt qp qn f i := by
  obtain ⟨h1, h2, h3, h4, h5, h6, h7, h8⟩ := ho
  obtain ⟨r1, q1, v1, g1, l1, t1, i1, a1, s1, c1⟩ := C
  obtain ⟨r2, q2, v2, g2, l2, t2, i2, a2, s2, c2⟩ := B
  simp only at h1 h2 h3 h4 h5 h6 h7 h8
  subst h1 h2 h3 h4 h5 h6 h7 h8
  rfl

/-- The rates between two columns. -/
noncomputable def rates (b : Body) (Q : Arr) (dt : ℝ) (i : ℕ) : List ℝ :=
  (List.range b.dof).map fun j => (Q.at [j, i + 1] - Q.at [j, i]) / dt

/-- The impulse at column `i`. -/
noncomputable def valD (E : Ext) (b : Body) (Q : Arr) (dt : ℝ) (i k : ℕ) : ℝ :=
  match (b.setQ (Q.column b.dof [i + 1])).bind fun B => B.setDq (rates b Q dt i) with
  | .ok B => B.discreteSpec E B.linkMomentum dt (fun j => (Q.column b.dof [i]).getD j 0)
      (fun j => (Q.column b.dof [i + 2]).getD j 0) noExt k + dt * B.gravity.1 k
  | _ => 0

/-- C85: column `i` of `discrete_inverse_dynamics(ab, Q, dt)` is the generalised impulse, gravity
included, that takes the body through columns `i`, `i + 1` and `i + 2` of `Q`, for every body whose
history consists of calls that do not step it (`NoPast`; the function preserves this). -/
theorem C85_discrete_inverse_dynamics (h : DReach E b d p) (hp : b.NoPast p) (hm : b.Massive)
    (hl : ∀ k < b.dof, b.load k = none) {Q a : Arr} {n : ℕ} (hQ : Q.dims = [b.dof, n + 2])
    (ha : 0 < a.numel) (hdt : a.e 0 ≠ 0) (rest : List Val) : ∃ A b' d' p',
    Mex.discreteInverseDynamics E b (.num Q :: .num a :: rest) = .ok (some A, b') ∧
      A.dims = [b.dof, n] ∧ DReach E b' d' p' ∧ b'.NoPast p' ∧ StateOnly b b' ∧
      ∀ i < n, ∃ B1 B, b.setQ (Q.column b.dof [i + 1]) = .ok B1 ∧
        B1.setDq (rates b Q (a.e 0) i) = .ok B ∧ ∀ j < b.dof, A.at [j, i] =
          B.discreteSpec E B.linkMomentum (a.e 0) (fun j => (Q.column b.dof [i]).getD j 0)
            (fun j => (Q.column b.dof [i + 2]).getD j 0) noExt j + a.e 0 * B.gravity.1 j := by
  have hR := h.reach
  have colQ : ∀ {i}, i < n + 2 → Q.col b.dof i = .ok (Q.column b.dof [i]) := fun {i} hi => by
    have := col_eq (rows_of hQ) (is := [i]) (by rw [hQ]; exact ⟨hi, trivial⟩)
    rw [hQ] at this
    simpa [place] using this
  have set : ∀ {b1 : Body}, Kept E b b1 → ∀ i, ∃ B1 B, b1.setQ (Q.column b.dof [i + 1]) = .ok B1 ∧
      B1.setDq (rates b Q (a.e 0) i) = .ok B := fun {b1} k i => by
    obtain ⟨B1, hB1, e1⟩ := setQ_total (b := b1) (q := Q.column b.dof [i + 1])
      (by rw [k.dof]; exact column_length _ _ _)
    obtain ⟨B, hB, -⟩ := setDq_total (b := B1) (q := rates b Q (a.e 0) i)
      (by rw [e1, k.dof]; simp [rates])
    exact ⟨B1, B, hB1, hB⟩
  obtain ⟨A, b', h1, ⟨k', d', p', r', n'⟩, -, -, h5, h6⟩ := fill_spec (pre := [b.dof]) (ds := [n])
    (f := discreteStep E Q (a.e 0))
    (fun _ b1 => Kept E b b1 ∧ ∃ d p, DReach E b1 d p ∧ b1.NoPast p)
    (fun _ _ => True) (valD E b Q (a.e 0)) (b := b) ⟨Kept.refl hR, d, p, h, hp⟩
    (fun is hi b1 p1 => by
      obtain ⟨k1, d1, p1, r1, n1⟩ := p1
      obtain ⟨i, rfl⟩ : ∃ i, is = [i] := by
        match is, hi with
        | [i], _ => exact ⟨i, rfl⟩
      have hi : i < n := hi.1
      have hpl : place [n] [i] = i := by simp [place]
      rw [hpl]
      obtain ⟨B1, B, hB1, hB⟩ := set (Kept.refl hR) i
      obtain ⟨C1, C, hC1, hC⟩ := set k1 i
      have kB := ((Kept.refl hR).setQ hB1).setDq hB
      have kC1 := k1.setQ hC1
      have kC := kC1.setDq hC
      obtain ⟨d2, p2, r2, n2⟩ := NoPast.setQ r1 n1 hC1
      obtain ⟨d3, p3, r3, n3⟩ := NoPast.setDq r2 n2 hC
      obtain ⟨d4, p4, r4, n4, s4⟩ := NoPast.ask r3 n3
        (fun j => (Q.column b.dof [i + 2]).getD j 0) (a.e 0) true
      have ho : C.ObsEq B := kB.obs kC
        (by rw [(setDq_vel hC).2, (setDq_vel hB).2, (setQ_pos hC1).1, (setQ_pos hB1).1])
        (by rw [(setDq_vel hC).1, (setDq_vel hB).1])
      refine ⟨(C.discreteID E (fun j => (Q.column b.dof [i + 2]).getD j 0) (a.e 0) noExt true).1, _, ?_,
        ⟨⟨⟨d4, r4.reach⟩, kC.so.trans s4.stateOnly⟩, d4, p4, r4, n4⟩, trivial,
        fun k hk => ?_⟩
      · unfold discreteStep
        rw [k1.dof, colQ (by omega : i < n + 2), colQ (by omega : i + 1 < n + 2)]
        simp only [Out.bind, hC1]
        rw [kC1.dof]
        have e : ((List.range b.dof).map fun j => ((Q.column b.dof [i + 1]).getD j 0 -
            (Q.column b.dof [i]).getD j 0) / a.e 0) = rates b Q (a.e 0) i := by
          unfold rates
          refine List.map_congr_left fun j hj => ?_
          have hj := List.mem_range.1 hj
          simp [Arr.column, List.getD, hj]
        rw [e, hC]
        simp only
        rw [kC.dof, colQ (by omega : i + 2 < n + 2)]
      · have hk : k < b.dof := by simpa using hk
        rw [C42_equation r3 (fun k hk => by rw [kC.so.load]; exact hl k (kC.dof ▸ hk)) _ _ _ _ _
          (by rw [kC.dof]; exact hk)]
        unfold valD
        simp only [hB1, Out.bind, hB, if_true]
        have hg : C.gravity.1 k = B.gravity.1 k := by
          have := Kept.answer hm kB kC ho .gravity trivial
          simp only [Query.run, Out.map, Out.bind, Out.ok.injEq, Ans.vec.injEq, kB.dof, kC.dof] at this
          exact take_inj this _ hk
        have hbef : C.before p3 (a.e 0) = fun j => (Q.column b.dof [i]).getD j 0 := by
          rw [n3]
          funext j
          unfold Body.pos Body.vel
          rw [(setDq_vel hC).1, (setDq_vel hC).2, (setQ_pos hC1).1]
          by_cases hj : j < b.dof
          · simp [rates, Arr.column, List.getD, hj]
            field_simp
            ring
          · simp [rates, Arr.column, List.getD, hj]
        rw [hbef, hg, discreteSpec_obs ho])
  refine ⟨A, b', d', p', ?_, h5, r', n', k'.so, fun i hi => ?_⟩
  · rw [← h1]
    simp [Mex.discreteInverseDynamics, Val.toNum, Out.bind, rows_of hQ, hQ, Arr.read, ha]
  · obtain ⟨B1, B, hB1, hB⟩ := set (Kept.refl hR) i
    refine ⟨B1, B, hB1, hB, fun j hj => ?_⟩
    have := h6 [i] ⟨hi, trivial⟩ [j] ⟨hj, trivial⟩
    rw [show A.at [j, i] = A.at ([j] ++ [i]) from rfl, this]
    unfold valD
    simp [place, hB1, hB, Out.bind]

end Mex
end SpatialDyn
