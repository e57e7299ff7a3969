import Verif.Lemmas.Settle
import Verif.Props.Converge
import Verif.Props.FrictionAba
import Verif.Props.Turns
import Verif.Props.FrictionEnergy

/-!
# Joints with viscous friction only

The vector field of the equations of motion is smooth again.
-/

namespace SpatialDyn
open Finset Matrix Body OneStep
open Sys (signum frictionJoint)
open scoped ContDiff

variable {E : Ext} {b : Body} {d : Bool}

theorem fd_congr (h : Reach E b d) (hd : b.Definite) {t t' : ℕ → ℝ} (ht : ∀ i < b.dof, t i = t' i)
    (fext : FExt) {o : FDOpts} (ho : o.friction = false) {i : ℕ} (hi : i < b.dof) :
    (b.fd E t fext o).1 i = (b.fd E t' fext o).1 i := by
  have hm := hd.massive h.inv.tree
  refine Sys.solve_unique (fresh_det h hm (hd.form h)) (fun k hk => ?_) i hi
  rw [fd_solves h hm (hd.form h) t fext o k hk, fd_solves h hm (hd.form h) t' fext o k hk]
  unfold Sys.fdRhs
  simp only [ho, Bool.false_eq_true, if_false, ht k hk]

/-- Viscous friction acts as torques against the velocities. -/
theorem acceleration_damped (h : Reach E b d) (hd : b.Definite) {v : ℕ → ℝ}
    (hc : ∀ i < b.dof, Coef (b.rb i).joint 0 (v i) 0) (tau : ℕ → ℝ) (fext : FExt) {o : IntOpts}
    (hf : o.friction = true) (heps : 0 ≤ o.eps) {i : ℕ} (hi : i < b.dof) :
    b.acceleration E tau fext o i =
      b.acceleration E (fun i => tau i - v i * b.vel i) fext { o with friction := false } i := by
  have hm := hd.massive h.inv.tree
  unfold acceleration
  split
  · obtain ⟨φ, e, hφ⟩ := C52_aba_reduced h tau fext ⟨o.gravity, o.cc, o.friction, o.eps⟩ hf heps
    rw [e, C30_aba_base h hm (hd.form h) _ _ _ rfl i hi,
      C30_aba_base h hm (hd.form h) _ _ _ rfl i hi]
    have hs : Reach E (b.setG (b.T0.R.mulVec b.g)) _ := h.step (.setG _) trivial rfl
    have hdg : (b.setG (b.T0.R.mulVec b.g)).Definite := ⟨hd.mass, hd.symm, hd.pd, hd.load, hd.axes⟩
    refine fd_congr hs hdg (fun k hk => ?_) fext rfl hi
    have := (hφ k hk 0 (v k) 0 (hc k hk)).1
    rw [add_zero] at this
    have := sub_eq_zero.1 (abs_eq_zero.1 (le_antisymm this (abs_nonneg _)))
    rw [this]
  · refine Sys.solve_unique (fresh_det h hm (hd.form h)) (fun k hk => ?_) i hi
    rw [fd_solves h hm (hd.form h) _ fext _ k hk, fd_solves h hm (hd.form h) _ fext _ k hk]
    unfold Sys.fdRhs
    simp only [hf, if_true, Bool.false_eq_true, if_false]
    have e : ∀ t : ℕ → ℝ, b.fresh.friction t false o.eps k = v k * b.vel k := fun t => by
      have := friction_joint b t false o.eps k (hc k hk)
      have e2 : b.fresh.friction t false o.eps k = b.friction t false o.eps k := rfl
      rw [e2, this]
      unfold frictionJoint
      simp
    rw [e]
    ring

/-- Accelerations with viscous friction, in closed form. -/
noncomputable def Body.dampedAt (b : Body) (g : Vec3) (tau v : ℕ → ℝ) (fext : FExt) (cc grav : Bool)
    (y : State b.dof) : Fin b.dof → ℝ :=
  b.accAt g (fun i => tau i - v i * padFin y.2 i) fext cc grav y

theorem field_damped (h : Reach E b d) (hd : b.Definite) {c : Cache} (hcl : c.Clear) {v : ℕ → ℝ}
    (hc : ∀ i < b.dof, Coef (b.rb i).joint 0 (v i) 0) (tau : ℕ → ℝ) (fext : FExt) {o : IntOpts}
    (hf : o.friction = true) (heps : 0 ≤ o.eps) (y : State b.dof) :
    b.field E c tau fext o y = (y.2,
      b.dampedAt (if o.aba then b.T0.R.mulVec b.g else b.g) tau v fext o.cc o.gravity y) := by
  have hm := hd.massive h.inv.tree
  obtain ⟨b1, e1, n1⟩ := setQ_total (b := b) (q := List.ofFn y.1) (by simp)
  obtain ⟨B, e2, n2⟩ := setDq_total (b := b1) (q := List.ofFn y.2) (by simp [n1])
  obtain ⟨hs, hn, -, -, -, d', hB⟩ := h.after_set ⟨b1, e1, e2⟩
  have get : ∀ {n : ℕ} (x : Fin n → ℝ), (fun i : Fin n => (List.ofFn x).getD i 0) = x := by
    intro n x; funext i; simp
  have hvel : B.vel = padFin y.2 := by
    unfold Body.vel; rw [setDq_dq e2, getD_ofFn_pad]
  refine Prod.ext rfl (funext fun i => ?_)
  have k1 := field_of_set h hm hcl tau fext o e1 e2 i
  have k2 := field_of_set h hm hcl (fun i => tau i - v i * padFin y.2 i) fext
    { o with friction := false } e1 e2 i
  rw [get, get] at k1 k2
  rw [← k1, acceleration_damped hB (hs.definite hd) (v := v) (fun j hj => by
      rw [show B.rb = b.rb by unfold Body.rb; rw [hs.rbs]]; exact hc j (hn ▸ hj)) tau fext hf heps
      (show (i : ℕ) < B.dof by rw [hn]; exact i.2), hvel, k2,
    field_val h hd hcl _ fext { o with friction := false } rfl]
  rfl

theorem dampedAt_smooth (h : Reach E b d) (hd : b.Definite) (g : Vec3) (tau v : ℕ → ℝ) (fext : FExt)
    (cc grav : Bool) : ContDiff ℝ ∞ (b.dampedAt g tau v fext cc grav) := by
  have hq : ∀ i < b.dof, Sm fun y : State b.dof => padFin y.1 i :=
    fun i _ => padFin_smooth contDiff_fst i
  have hw : ∀ i < b.dof, Sm fun y : State b.dof => padFin y.2 i :=
    fun i _ => padFin_smooth contDiff_snd i
  have hk : Reach E (b.setG g) _ := h.step (.setG _) trivial rfl
  refine contDiff_pi.2 fun i => Sm.inv_mulVec (fun k l => ?_) (fun k => ?_) (fun y => ?_) i
  · exact massSpec_smooth h.inv.tree hq k l
  · exact (contDiff_const.sub (contDiff_const.mul (hw k k.2))).sub
      (idSpec_smooth (b := b.setG g) hk.inv.tree hq hw (fun _ _ => contDiff_const) fext cc grav k)
  · exact sysAt_det h hd y

theorem damped_smooth (h : Reach E b d) (hd : b.Definite) {c : Cache} (hcl : c.Clear) {v : ℕ → ℝ}
    (hc : ∀ i < b.dof, Coef (b.rb i).joint 0 (v i) 0) (tau : ℕ → ℝ) (fext : FExt) {o : IntOpts}
    (hf : o.friction = true) (heps : 0 ≤ o.eps) : ContDiff ℝ ∞ (b.field E c tau fext o) := by
  rw [show b.field E c tau fext o = _ from funext fun y => field_damped h hd hcl hc tau fext hf heps y]
  exact contDiff_snd.prodMk (dampedAt_smooth h hd _ tau v fext o.cc o.gravity)

theorem damped_growth (h : Reach E b d) (hd : b.Definite) (ha : b.AxesOK) (g : Vec3) (tau : ℕ → ℝ)
    {v : ℕ → ℝ} (hv : ∀ i < b.dof, 0 ≤ v i) (fext : FExt) (grav : Bool) :
    b.Bd fun y => fderiv ℝ b.size y (y.2, b.dampedAt g tau v fext true grav y) := by
  refine (size_growth h hd ha g tau fext grav).mono fun y => ?_
  have hval : ∀ t : ℕ → ℝ, fderiv ℝ b.size y (y.2, b.accAt g t fext true grav y) =
      2 * (∑ i ∈ range b.dof, padFin y.2 i * t i +
        ∑ k ∈ range b.dof, (((b.sysAt (padFin y.1) (padFin y.2)).V (padFin y.2) k).dot
          ((fext k).getD 0) + if grav then ((b.sysAt (padFin y.1) (padFin y.2)).V (padFin y.2) k).dot
            ((b.sysAt (padFin y.1) (padFin y.2)).Iw k ⟨g, 0⟩) else 0)) + ∑ i, 2 * (y.1 i * y.2 i) := by
    intro t
    rw [← kin_power h hd g t fext grav y]
    refine fderiv_curve (size_smooth h) ?_
    have hs : HasDerivAt (fun s : ℝ => ∑ i, (y.1 + s • y.2) i ^ 2) (∑ i, 2 * (y.1 i * y.2 i)) 0 := by
      refine HasDerivAt.fun_sum fun i _ => ?_
      have e := (((hasDerivAt_id (0 : ℝ)).mul_const (y.2 i)).const_add (y.1 i)).pow 2
      refine e.congr_deriv ?_
      simp; ring
    exact (kin_curve h hd ha y _).add hs
  unfold dampedAt
  rw [hval, hval]
  have : ∑ i ∈ range b.dof, padFin y.2 i * (tau i - v i * padFin y.2 i) ≤
      ∑ i ∈ range b.dof, padFin y.2 i * tau i := by
    refine sum_le_sum fun i hi => ?_
    nlinarith [mul_nonneg (hv i (mem_range.1 hi)) (sq_nonneg (padFin y.2 i))]
  linarith

theorem damped_forever (h : Reach E b d) (hd : b.Definite) (ha : b.AxesOK) {c : Cache}
    (hcl : c.Clear) {v : ℕ → ℝ} (hc : ∀ i < b.dof, Coef (b.rb i).joint 0 (v i) 0) (tau : ℕ → ℝ)
    (fext : FExt) {o : IntOpts} (hf : o.friction = true) (heps : 0 ≤ o.eps) (hcc : o.cc = true)
    (y0 : State b.dof) :
    ∃ Y : ℝ → State b.dof, Y 0 = y0 ∧ ∀ T, Solves (b.field E c tau fext o) T Y := by
  obtain ⟨C, hC, hb⟩ := damped_growth h hd ha (if o.aba then b.T0.R.mulVec b.g else b.g) tau
    (fun i hi => (hc i hi).v0) fext o.gravity
  refine exists_forever ((damped_smooth h hd hcl hc tau fext hf heps).of_le (by simp))
    ((size_smooth h).of_le (by simp)) hC (size_nonneg h.inv hd) (fun y => ?_)
    (size_coercive h hd ha) y0
  rw [field_damped h hd hcl hc tau fext hf heps, hcc]
  exact hb y

/-! ## Full turns -/

theorem TpAt_turns (ht : ∀ i < b.dof,
      (b.rb i).joint.type = .rx ∨ (b.rb i).joint.type = .ry ∨ (b.rb i).joint.type = .rz)
    (q : Fin b.dof → ℝ) (m : Fin b.dof → ℤ) :
    (fun i => b.TpAt i (padFin (q + fun i => 2 * Real.pi * m i) i)) = fun i => b.TpAt i (padFin q i) := by
  funext i
  unfold padFin
  split
  · rename_i hi
    unfold TpAt
    rw [Pi.add_apply, Tjoint_turns (ht i hi)]
  · rfl

theorem twAt_turns (ht : ∀ i < b.dof,
      (b.rb i).joint.type = .rx ∨ (b.rb i).joint.type = .ry ∨ (b.rb i).joint.type = .rz)
    (q : Fin b.dof → ℝ) (m : Fin b.dof → ℤ) :
    b.twAt (padFin (q + fun i => 2 * Real.pi * m i)) = b.twAt (padFin q) := by
  unfold twAt
  rw [TpAt_turns ht]

theorem sysAt_turns (ht : ∀ i < b.dof,
      (b.rb i).joint.type = .rx ∨ (b.rb i).joint.type = .ry ∨ (b.rb i).joint.type = .rz)
    (q : Fin b.dof → ℝ) (m : Fin b.dof → ℤ) (w : ℕ → ℝ) :
    b.sysAt (padFin (q + fun i => 2 * Real.pi * m i)) w = b.sysAt (padFin q) w := by
  unfold sysAt
  rw [TpAt_turns ht, twAt_turns ht]

theorem total_turns (ht : ∀ i < b.dof,
      (b.rb i).joint.type = .rx ∨ (b.rb i).joint.type = .ry ∨ (b.rb i).joint.type = .rz)
    (y : State b.dof) (m : Fin b.dof → ℤ) :
    b.total (y + (fun i => 2 * Real.pi * m i, 0)) = b.total y := by
  have e : y + (fun i => 2 * Real.pi * (m i : ℝ), 0) = (y.1 + fun i => 2 * Real.pi * (m i : ℝ), y.2) :=
    Prod.ext rfl (by simp)
  rw [e]
  unfold total
  simp only
  rw [sysAt_turns ht, twAt_turns ht]

/-- Potential and kinetic energy of a robot whose joints all turn. -/
theorem total_bounds (h : Reach E b d) (hd : b.Definite) (ha : b.AxesOK) (ht : ∀ i < b.dof,
      (b.rb i).joint.type = .rx ∨ (b.rb i).joint.type = .ry ∨ (b.rb i).joint.type = .rz) :
    (∃ c, ∀ y, c ≤ b.total y) ∧ ∀ r, ∃ R, ∀ y, b.total y ≤ r → ‖y.2‖ ≤ R := by
  -- the energy of the robot at rest is its potential energy
  have he : ∀ y : State b.dof, b.total y =
      1 / 2 * (b.sysAt (padFin y.1) (padFin y.2)).energy2 (padFin y.2) + b.total (y.1, 0) -
        1 / 2 * (b.sysAt (padFin y.1) (padFin (0 : Fin b.dof → ℝ))).energy2 (padFin (0 : Fin b.dof → ℝ)) := by
    intro y; unfold total; ring
  have hk0 : ∀ q : Fin b.dof → ℝ, (b.sysAt (padFin q) (padFin (0 : Fin b.dof → ℝ))).energy2
      (padFin (0 : Fin b.dof → ℝ)) = 0 := by
    intro q
    have e0 : (padFin (0 : Fin b.dof → ℝ)) = fun _ => 0 := by funext i; simp [padFin]
    have hV : ∀ k, (b.sysAt (padFin q) (padFin (0 : Fin b.dof → ℝ))).V
        (padFin (0 : Fin b.dof → ℝ)) k = 0 := fun k => by
      rw [e0]; unfold Sys.V; simp
    unfold Sys.energy2
    refine sum_eq_zero fun k _ => ?_
    rw [hV, Motion.zero_dot]
  obtain ⟨K, hK0, hK⟩ := torus_bound (total_smooth h).continuous (total_turns ht) 0
  have hlow : ∀ y : State b.dof, 1 / 2 * (b.sysAt (padFin y.1) (padFin y.2)).energy2 (padFin y.2) - K ≤
      b.total y := by
    intro y
    have h1 := he y
    rw [hk0] at h1
    have h2 := hK (y.1, 0) (by simp)
    rw [Real.norm_eq_abs] at h2
    linarith [(abs_le.1 h2).1]
  have hnn : ∀ y : State b.dof, 0 ≤ (b.sysAt (padFin y.1) (padFin y.2)).energy2 (padFin y.2) :=
    fun y => energy2_nonneg h.inv hd _ _
  refine ⟨⟨-K, fun y => by linarith [hlow y, hnn y]⟩, fun r => ?_⟩
  obtain ⟨R, hR⟩ := size_coercive h hd ha (2 * (r + K) + ∑ i : Fin b.dof, (2 * Real.pi) ^ 2)
  refine ⟨R, fun y hy => ?_⟩
  have hpi : 0 < 2 * Real.pi := by positivity
  -- bring the positions into one turn
  set m : Fin b.dof → ℤ := fun i => -⌊y.1 i / (2 * Real.pi)⌋ with hm
  have hq : ∀ i, (y.1 i + 2 * Real.pi * (m i : ℝ)) ^ 2 ≤ (2 * Real.pi) ^ 2 := by
    intro i
    have h1 := Int.floor_le (y.1 i / (2 * Real.pi))
    have h2 := (Int.lt_floor_add_one (y.1 i / (2 * Real.pi))).le
    rw [le_div_iff₀ hpi] at h1
    rw [div_le_iff₀ hpi] at h2
    have e : (m i : ℝ) = -(⌊y.1 i / (2 * Real.pi)⌋ : ℝ) := by rw [hm]; push_cast; rfl
    rw [e]
    refine sq_le_sq' ?_ ?_ <;> nlinarith
  have := hR (y.1 + fun i => 2 * Real.pi * (m i : ℝ), y.2) ?_
  · exact (norm_snd_le (y.1 + (fun i => 2 * Real.pi * (m i : ℝ)), y.2)).trans this
  · unfold size
    simp only
    rw [sysAt_turns ht]
    have h1 := hlow y
    have h2 : ∑ i, (y.1 + fun i => 2 * Real.pi * (m i : ℝ)) i ^ 2 ≤ ∑ i : Fin b.dof, (2 * Real.pi) ^ 2 :=
      sum_le_sum fun i _ => hq i
    linarith

end SpatialDyn
