import Verif.Lemmas.Growth

/-!
# Total energy as a function of the state
-/

namespace SpatialDyn
open Finset
open scoped ContDiff

namespace Body
variable {E : Ext} {b : Body} {d : Bool}

/-- Kinetic plus potential energy at a state. -/
noncomputable def total (b : Body) (y : State b.dof) : ℝ :=
  1 / 2 * (b.sysAt (padFin y.1) (padFin y.2)).energy2 (padFin y.2) +
    b.potential fun k x => (b.twAt (padFin y.1) k).app x

theorem energy_smooth (h : Reach E b d) : ContDiff ℝ ∞ fun y : State b.dof =>
    (b.sysAt (padFin y.1) (padFin y.2)).energy2 (padFin y.2) := by
  have h1 := size_smooth h
  have h2 : ContDiff ℝ ∞ fun y : State b.dof => ∑ i, y.1 i ^ 2 :=
    ContDiff.sum fun i _ => ((contDiff_pi (𝕜 := ℝ) (Φ := fun y : State b.dof => y.1)).1
      contDiff_fst i).pow 2
  have e : (fun y : State b.dof => (b.sysAt (padFin y.1) (padFin y.2)).energy2 (padFin y.2)) =
      fun y => b.size y - ∑ i, y.1 i ^ 2 := by
    funext y
    unfold size
    ring
  rw [e]
  exact h1.sub h2

theorem list_sum_smooth {X : Type*} [NormedAddCommGroup X] [NormedSpace ℝ X] {α : Type*} (l : List α)
    {f : α → X → ℝ} (h : ∀ a ∈ l, ContDiff ℝ ∞ (f a)) :
    ContDiff ℝ ∞ fun p => (l.map fun a => f a p).sum := by
  induction l with
  | nil => simpa using contDiff_const
  | cons a l ih =>
    simp only [List.map_cons, List.sum_cons]
    exact (h a (List.mem_cons_self ..)).add (ih fun x hx => h x (List.mem_cons_of_mem _ hx))

theorem total_smooth (h : Reach E b d) : ContDiff ℝ ∞ b.total := by
  have hq : ∀ i < b.dof, Sm fun y : State b.dof => padFin y.1 i :=
    fun i _ => padFin_smooth contDiff_fst i
  have h2 : ContDiff ℝ ∞ fun y : State b.dof =>
      b.potential fun k x => (b.twAt (padFin y.1) k).app x := by
    unfold potential
    refine ContDiff.neg (ContDiff.sum fun k hk => list_sum_smooth _ fun I _ => ?_)
    have hT := twAt_smooth h.inv.tree hq k (mem_range.1 hk)
    exact contDiff_const.mul ((SmVec.const b.g).dot ((hT.R.mulVec (SmVec.const I.com)).add hT.t))
  exact (contDiff_const.mul (energy_smooth h)).add h2

theorem potential_curve (h : Reach E b d) (hd : b.Definite) (ha : b.AxesOK) (y : State b.dof) :
    HasDerivAt (fun s : ℝ => b.potential fun k x => (b.twAt (padFin (y.1 + s • y.2)) k).app x)
      (∑ k ∈ range b.dof, ((b.sysAt (padFin y.1) (padFin y.2)).V (padFin y.2) k).dot
        ((b.sysAt (padFin y.1) (padFin y.2)).Iw k (-⟨b.g, 0⟩))) 0 := by
  obtain ⟨B, d', hB, hA, hf⟩ := exists_at h y
  have hn : B.dof = b.dof := hA.dof
  have hr : B.rb = b.rb := hA.rb
  have hax : B.AxesOK := by unfold Body.AxesOK; rw [hn, hr]; exact ha
  have hpos : padFin (y.1 + (0 : ℝ) • y.2) = B.pos := by
    unfold Body.pos
    rw [hA.q, getD_ofFn_pad, zero_smul, add_zero]
  have hm := (hA.only.definite hd).massive hB.inv.tree
  have key := potential_deriv hB hax hm (u := fun s => padFin (y.1 + s • y.2)) (w := padFin y.2)
    (s := 0) hpos fun j _ => hasDerivAt_pad y.1 y.2 j
  have htw : B.twAt = b.twAt := by
    funext u
    unfold Body.twAt Body.par Body.TpAt
    rw [hn, hr, hA.only.T0]
  have hpot : ∀ P, B.potential P = b.potential P := by
    intro P
    unfold Body.potential Body.parts
    rw [hn, hr, hA.only.load, hA.only.g]
  simp only [hpot, htw, hn, hf] at key
  exact key

/-- Rate of the total energy along the vector field. -/
theorem total_rate (h : Reach E b d) (hd : b.Definite) (ha : b.AxesOK) (tau : ℕ → ℝ) (fext : FExt)
    (y : State b.dof) : fderiv ℝ b.total y (y.2, b.accAt b.g tau fext true true y) =
      ∑ i ∈ range b.dof, padFin y.2 i * tau i +
        ∑ k ∈ range b.dof, ((b.sysAt (padFin y.1) (padFin y.2)).V (padFin y.2) k).dot
          ((fext k).getD 0) := by
  refine fderiv_curve (total_smooth h) (HasDerivAt.congr_deriv (f' := _)
    (((kin_curve h hd ha y (b.accAt b.g tau fext true true y)).const_mul (1 / 2)).add
      (potential_curve h hd ha y)) ?_)
  rw [kin_power h hd b.g tau fext true y]
  have e : ∀ k, ((b.sysAt (padFin y.1) (padFin y.2)).V (padFin y.2) k).dot
      ((b.sysAt (padFin y.1) (padFin y.2)).Iw k (-⟨b.g, 0⟩)) =
      -((b.sysAt (padFin y.1) (padFin y.2)).V (padFin y.2) k).dot
        ((b.sysAt (padFin y.1) (padFin y.2)).Iw k ⟨b.g, 0⟩) := fun k => by
    rw [Sys.Iw_neg, Motion.dot_neg]
  simp only [e, if_true, sum_add_distrib, sum_neg_distrib]
  ring

/-- The energy read from a body in some state. -/
theorem AtState.energy {y : State b.dof} {B : Body} (hA : AtState E b y B) (hm : b.Massive)
    {P : ℕ → Vec3 → Vec3}
    (hP : ∀ k < b.dof, ∀ x, (B.position k x).map Prod.fst = .ok (P k x)) :
    1 / 2 * (∑ i ∈ range b.dof, ∑ j ∈ range b.dof,
      B.dq.getD i 0 * B.inertia.1 i j * B.dq.getD j 0) + b.potential P = b.total y := by
  have hn : B.dof = b.dof := hA.dof
  have hmB : B.Massive := hA.only.massive hm
  have hv : B.vel = padFin y.2 := by
    unfold Body.vel; rw [hA.dq, getD_ofFn_pad]
  have hp : B.pos = padFin y.1 := by
    unfold Body.pos; rw [hA.q, getD_ofFn_pad]
  have hf : B.fresh = b.sysAt (padFin y.1) (padFin y.2) := by
    rw [hA.only.fresh, hp, hv]
  unfold total
  congr 1
  · rw [Sys.energy2_eq]
    congr 1
    refine sum_congr rfl fun i hi => ?_
    rw [mul_sum]
    refine sum_congr rfl fun j hj => ?_
    rw [(inertia_run hA.inv).2.1.mass hA.inv.wf hmB.symI (hmB.posMass hA.inv.tree) i j
      (show i < B.dof by rw [hn]; exact mem_range.1 hi)
      (show j < B.dof by rw [hn]; exact mem_range.1 hj), hf]
    rw [show B.dq.getD i 0 = padFin y.2 i from congrFun hv i,
      show B.dq.getD j 0 = padFin y.2 j from congrFun hv j]
    ring
  · unfold Body.potential
    congr 1
    refine sum_congr rfl fun k hk => ?_
    have hk := mem_range.1 hk
    congr 1
    refine List.map_congr_left fun I _ => ?_
    have h1 := hP k hk I.com
    unfold Body.position at h1
    rw [index_ofNat (show k < B.dof by rw [hn]; exact hk)] at h1
    have h2 := Out.ok.inj h1
    have h3 := hA.inv.viewTw k (by rw [hn]; exact hk)
    have h4 : B.freshTw k = b.twAt (padFin y.1) k := by
      show B.twAt B.pos k = _
      rw [hp]
      unfold Body.twAt Body.par Body.TpAt
      rw [hn, hA.rb, hA.only.T0]
    rw [← h2, h3, h4]

end Body
end SpatialDyn
