import Verif.Props.Sensitivity
import Verif.Lemmas.TaskPlant
import Verif.Lemmas.Control

/-! C152 for the kinematics: positions of points, orientations and Jacobians. -/

namespace SpatialDyn
open Finset Body OneStep
open scoped ContDiff

variable {E : Ext} {b : Body} {d : Bool}

/-- Functions of the positions alone. -/
theorem turns_apart {n : ℕ} {ι : Type} [Fintype ι] {f : ι → (Fin n → ℝ) → ℝ} (hf : ∀ a, Sm (f a))
    (hp : ∀ a q (m : Fin n → ℤ), f a (q + fun i => 2 * Real.pi * m i) = f a q) :
    ∃ L, 0 ≤ L ∧ ∀ a, ∀ q q' : List ℝ,
      |f a (fun i => q.getD i 0) - f a (fun i => q'.getD i 0)| ≤ L * apart n q q' := by
  obtain ⟨L, L0, hL⟩ := torus_gaps (G := fun a (y : State n) => f a y.1)
    (fun a => ((hf a).comp contDiff_fst).of_le (by simp)) (fun a y m => hp a y.1 m) 0
  refine ⟨L, L0, fun a q q' => ?_⟩
  have := hL a q [] q' [] (by simp) (by simp)
  rwa [apart_self, add_zero] at this

/-- Where the links are after `set_q`. -/
theorem setQ_tw (h : Reach E b d) {q : List ℝ} {B : Body} (hB : b.setQ q = .ok B) {k : ℕ} (hk : k < b.dof) :
    B.freshTw k = b.twAt (padFin fun i : Fin b.dof => q.getD i 0) k := by
  obtain ⟨hs, hn, hf, _, r⟩ := h.after_setQ hB
  have e : B.fresh.Tw k = (b.sysAt (fun i => q.getD i 0) B.fresh.dq).Tw k := by rw [hf]; rfl
  rw [pad_getD (setQ_length hB)] at e
  have e1 : B.fresh.Tw k = B.freshTw k := if_pos (hn ▸ hk)
  have e2 : (b.sysAt (padFin fun i : Fin b.dof => q.getD i 0) B.fresh.dq).Tw k =
      b.twAt (padFin fun i : Fin b.dof => q.getD i 0) k := if_pos hk
  rw [← e1, e, e2]

/-- C152: the answers of `Position` and `Orientation`. -/
theorem C152_pose (h : Reach E b d) (ht : ∀ i < b.dof,
      (b.rb i).joint.type = .rx ∨ (b.rb i).joint.type = .ry ∨ (b.rb i).joint.type = .rz) {l : ℤ} {k : ℕ}
    (hl : b.LinkIdx l k) (x : Vec3) :
    ∃ L, ∀ q q' B B', b.setQ q = .ok B → b.setQ q' = .ok B' → ∃ p p' R R',
      (B.position l x).map Prod.fst = .ok p ∧ (B'.position l x).map Prod.fst = .ok p' ∧
      (B.orientation l).map Prod.fst = .ok R ∧ (B'.orientation l).map Prod.fst = .ok R' ∧
      |p.x - p'.x| ≤ L * apart b.dof q q' ∧ |p.y - p'.y| ≤ L * apart b.dof q q' ∧
      |p.z - p'.z| ≤ L * apart b.dof q q' ∧ ∀ u : Vec3, |u.x| ≤ 1 → |u.y| ≤ 1 → |u.z| ≤ 1 →
        |(R.mulVec u).x - (R'.mulVec u).x| ≤ L * apart b.dof q q' ∧
        |(R.mulVec u).y - (R'.mulVec u).y| ≤ L * apart b.dof q q' ∧
        |(R.mulVec u).z - (R'.mulVec u).z| ≤ L * apart b.dof q q' := by
  have hk : k < b.dof := hl.1
  have hP := pointQ_smooth h hk x
  have hR := rotQ_smooth h hk
  set f : Fin 12 → (Fin b.dof → ℝ) → ℝ := ![fun q => (b.pointQ k x q).x, fun q => (b.pointQ k x q).y,
    fun q => (b.pointQ k x q).z, fun q => (b.twAt (padFin q) k).R.m00, fun q => (b.twAt (padFin q) k).R.m01,
    fun q => (b.twAt (padFin q) k).R.m02, fun q => (b.twAt (padFin q) k).R.m10,
    fun q => (b.twAt (padFin q) k).R.m11, fun q => (b.twAt (padFin q) k).R.m12,
    fun q => (b.twAt (padFin q) k).R.m20, fun q => (b.twAt (padFin q) k).R.m21,
    fun q => (b.twAt (padFin q) k).R.m22] with hf
  have hfs : ∀ a, Sm (f a) := by
    intro a
    fin_cases a
    exacts [hP.x, hP.y, hP.z, hR.m00, hR.m01, hR.m02, hR.m10, hR.m11, hR.m12, hR.m20, hR.m21, hR.m22]
  have hfp : ∀ a q (m : Fin b.dof → ℤ), f a (q + fun i => 2 * Real.pi * m i) = f a q := by
    intro a q m
    have e := twAt_turns ht q m
    fin_cases a <;> simp [hf, pointQ, e]
  obtain ⟨L, L0, hL⟩ := turns_apart hfs hfp
  refine ⟨3 * L, fun q q' B B' hB hB' => ?_⟩
  have A0 := apart_nonneg b.dof q q'
  have val : ∀ q B, b.setQ q = .ok B →
      (B.position l x).map Prod.fst = .ok (b.pointQ k x fun i : Fin b.dof => q.getD i 0) ∧
      (B.orientation l).map Prod.fst = .ok (b.twAt (padFin fun i : Fin b.dof => q.getD i 0) k).R := by
    intro q B hB
    obtain ⟨hs, hn, hf, _, r⟩ := h.after_setQ hB
    have hlB : B.LinkIdx l k := by unfold LinkIdx at hl ⊢; rw [hn]; exact hl
    unfold Body.position Body.orientation
    rw [hlB.index]
    constructor
    · show Out.ok ((B.viewTw k).app x) = _
      rw [r.inv.viewTw k hlB.1, setQ_tw h hB hk]; rfl
    · show Out.ok (B.viewTw k).R = _
      rw [r.inv.viewTw k hlB.1, setQ_tw h hB hk]
  refine ⟨_, _, _, _, (val q B hB).1, (val q' B' hB').1, (val q B hB).2, (val q' B' hB').2, ?_, ?_, ?_, ?_⟩
  · have := hL 0 q q'
    simp only [hf] at this
    exact this.trans (by nlinarith [mul_nonneg L0 A0])
  · have := hL 1 q q'
    simp only [hf] at this
    exact this.trans (by nlinarith [mul_nonneg L0 A0])
  · have := hL 2 q q'
    simp only [hf] at this
    exact this.trans (by nlinarith [mul_nonneg L0 A0])
  · intro u hx hy hz
    have row : ∀ a b' c a' b'' c' : ℝ, |a - a'| ≤ L * apart b.dof q q' → |b' - b''| ≤ L * apart b.dof q q' →
        |c - c'| ≤ L * apart b.dof q q' →
        |(a * u.x + b' * u.y + c * u.z) - (a' * u.x + b'' * u.y + c' * u.z)| ≤ 3 * L * apart b.dof q q' := by
      intro a b' c a' b'' c' h1 h2 h3
      have g : ∀ s t : ℝ, |s| ≤ L * apart b.dof q q' → |t| ≤ 1 → |s * t| ≤ L * apart b.dof q q' := by
        intro s t hs ht
        rw [abs_mul]
        exact (mul_le_mul hs ht (abs_nonneg _) (mul_nonneg L0 A0)).trans (by rw [mul_one])
      rw [show (a * u.x + b' * u.y + c * u.z) - (a' * u.x + b'' * u.y + c' * u.z) =
        (a - a') * u.x + (b' - b'') * u.y + (c - c') * u.z by ring]
      have t1 := abs_add_le ((a - a') * u.x + (b' - b'') * u.y) ((c - c') * u.z)
      have t2 := abs_add_le ((a - a') * u.x) ((b' - b'') * u.y)
      linarith [g _ _ h1 hx, g _ _ h2 hy, g _ _ h3 hz]
    exact ⟨row _ _ _ _ _ _ (hL 3 q q') (hL 4 q q') (hL 5 q q'),
      row _ _ _ _ _ _ (hL 6 q q') (hL 7 q q') (hL 8 q q'),
      row _ _ _ _ _ _ (hL 9 q q') (hL 10 q q') (hL 11 q q')⟩

/-- C152: the entries of `Jacobian`. -/
theorem C152_jacobian (h : Reach E b d) (ht : ∀ i < b.dof,
      (b.rb i).joint.type = .rx ∨ (b.rb i).joint.type = .ry ∨ (b.rb i).joint.type = .rz) {l : ℤ} {k : ℕ}
    (hl : b.LinkIdx l k) (x : Vec3) :
    ∃ L, ∀ q q' B B', b.setQ q = .ok B → b.setQ q' = .ok B' → ∃ J J',
      (B.jacobian l x).map Prod.fst = .ok J ∧ (B'.jacobian l x).map Prod.fst = .ok J' ∧
      ∀ j < b.dof, ∀ i < 6, |(J j).entry i - (J' j).entry i| ≤ L * apart b.dof q q' := by
  have hk : k < b.dof := hl.1
  obtain ⟨L, L0, hL⟩ := turns_apart
    (f := fun (p : Fin b.dof × Fin 6) (q : Fin b.dof → ℝ) => (b.jacQ k x q p.1).entry p.2)
    (fun p => SmMotion.entry (jacQ_smooth h hk x p.1) p.2) (fun p q m => by
      unfold jacQ pointQ
      rw [sysAt_turns ht, twAt_turns ht])
  refine ⟨L, fun q q' B B' hB hB' => ?_⟩
  have val : ∀ q B, b.setQ q = .ok B → ∃ J, (B.jacobian l x).map Prod.fst = .ok J ∧
      ∀ j, J j = b.jacQ k x (fun i : Fin b.dof => q.getD i 0) j := by
    intro q B hB
    obtain ⟨hs, hn, hf, _, r⟩ := h.after_setQ hB
    have hlB : B.LinkIdx l k := by unfold LinkIdx at hl ⊢; rw [hn]; exact hl
    obtain ⟨J, hJ⟩ : ∃ J, B.jacobian l x = .ok J := by
      unfold Body.jacobian
      rw [hlB.index]
      simp only [Out.bind]
      split <;> exact ⟨_, rfl⟩
    refine ⟨J.1, by rw [hJ]; rfl, fun j => ?_⟩
    rw [jacobian_val r.inv hlB hJ j, setQ_tw h hB hk, hf, pad_getD (setQ_length hB)]
    rfl
  obtain ⟨J, hJ, eJ⟩ := val q B hB
  obtain ⟨J', hJ', eJ'⟩ := val q' B' hB'
  refine ⟨J, J', hJ, hJ', fun j hj i hi => ?_⟩
  rw [eJ, eJ']
  exact hL (⟨j, hj⟩, ⟨i, hi⟩) q q'

/-- The hypotheses hold for a body with one turning joint. -/
example (E : Ext) : ∃ d, Reach E creak d ∧ (∀ i < creak.dof,
      (creak.rb i).joint.type = .rx ∨ (creak.rb i).joint.type = .ry ∨ (creak.rb i).joint.type = .rz) ∧
    creak.LinkIdx (-1) 0 ∧ ∀ x : ℝ, ∃ B, creak.setQ [x] = .ok B := by
  obtain ⟨d, h⟩ := creak_reach E
  have h0 : ∀ k < creak.dof, k = 0 := fun k hk => Nat.lt_one_iff.1 hk
  refine ⟨d, h, fun i hi => .inl (by rw [h0 i hi]; rfl), ⟨Nat.one_pos, by decide⟩, fun x => ?_⟩
  obtain ⟨B, hB, -⟩ := setQ_total (b := creak) (q := [x]) rfl
  exact ⟨B, hB⟩

end SpatialDyn
