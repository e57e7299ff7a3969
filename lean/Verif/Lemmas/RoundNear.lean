import Verif.Lemmas.Perturb
import Verif.Lemmas.RoundStep

/-!
# Simulations with rounded arithmetic near a motion
-/

namespace SpatialDyn
open Finset Body OneStep

variable {E : Ext} {b : Body} {d : Bool}

namespace Body

/-- The state given by the positions and rates of the joints. -/
def cut (n : ℕ) (y : (ℕ → ℝ) × (ℕ → ℝ)) : State n := (fun i => y.1 i, fun i => y.2 i)

theorem cut_near {n : ℕ} {y : (ℕ → ℝ) × (ℕ → ℝ)} {s : State n} {e : ℝ} (he : 0 ≤ e) :
    ‖cut n y - s‖ ≤ e ↔ ∀ i : Fin n, |y.1 i - s.1 i| ≤ e ∧ |y.2 i - s.2 i| ≤ e := by
  rw [Prod.norm_def, max_le_iff, pi_norm_le_iff_of_nonneg he, pi_norm_le_iff_of_nonneg he, ← forall_and]
  rfl

/-- One step, for all states and time steps within bounds. -/
theorem step_bound (h : Reach E b d) (hd : b.Definite) (tau : ℕ → ℝ) (fext : FExt)
    (o : IntOpts) (ho : o.friction = false) (R : ℝ) :
    ∃ K u0 : ℝ, 0 ≤ K ∧ 0 < u0 ∧ ∀ (y : (ℕ → ℝ) × (ℕ → ℝ)) (dt : ℝ), ‖cut b.dof y‖ ≤ R → |dt| ≤ 1 →
      ∀ (F : Fl) (u l : ℝ), F.Within u l → u ≤ u0 →
      ‖cut b.dof (F.integrate b tau dt fext o y) -
        scheme o.method (b.field E cache0 tau fext o) id dt (cut b.dof y)‖ ≤ K * u := by
  let P := {p : ((ℕ → ℝ) × (ℕ → ℝ)) × ℝ // ‖cut b.dof p.1‖ ≤ R ∧ |p.2| ≤ 1}
  have hy : b.AccY (P := P) (fun _ p => p.1.1) fun p => cut b.dof p.1.1 := by
    refine ⟨fun i => .data (B := R) fun p => ?_, fun i => .data (B := R) fun p => ?_⟩
    · exact (norm_le_pi_norm (cut b.dof p.1.1).1 i).trans ((norm_fst_le _).trans p.2.1)
    · exact (norm_le_pi_norm (cut b.dof p.1.1).2 i).trans ((norm_snd_le _).trans p.2.1)
  have hk := acc_step h hd tau (dt := fun p : P => p.1.2) (.data (B := 1) fun p => p.2.2) fext o ho hy
  obtain ⟨K1, u1, hK1, h1, hb1⟩ := Acc.all b.dof
    (f := fun i F (p : P) => (F.integrate b tau p.1.2 fext o p.1.1).1 i)
    (x := fun i p => padFin (scheme o.method (b.field E cache0 tau fext o) id p.1.2 (cut b.dof p.1.1)).1 i)
    fun i hi => (hk.q ⟨i, hi⟩).congr fun p => by simp [padFin, hi]
  obtain ⟨K2, u2, hK2, h2, hb2⟩ := Acc.all b.dof
    (f := fun i F (p : P) => (F.integrate b tau p.1.2 fext o p.1.1).2 i)
    (x := fun i p => padFin (scheme o.method (b.field E cache0 tau fext o) id p.1.2 (cut b.dof p.1.1)).2 i)
    fun i hi => (hk.dq ⟨i, hi⟩).congr fun p => by simp [padFin, hi]
  refine ⟨max K1 K2, min u1 u2, hK1.trans (le_max_left _ _), lt_min h1 h2,
    fun y dt hy hdt F u l hF hu => ?_⟩
  have hu0 := hF.nonneg.1
  have hm : 0 ≤ max K1 K2 := hK1.trans (le_max_left _ _)
  refine (cut_near (mul_nonneg hm hu0)).2 fun i => ⟨?_, ?_⟩
  · have := hb1 ⟨(y, dt), hy, hdt⟩ F u l hF (hu.trans (min_le_left _ _)) i i.2
    simp only [padFin, i.2, dite_true, Fin.eta] at this
    exact this.trans (mul_le_mul_of_nonneg_right (le_max_left _ _) hu0)
  · have := hb2 ⟨(y, dt), hy, hdt⟩ F u l hF (hu.trans (min_le_right _ _)) i i.2
    simp only [padFin, i.2, dite_true, Fin.eta] at this
    exact this.trans (mul_le_mul_of_nonneg_right (le_max_right _ _) hu0)

/-- A rounded simulation from a state near a motion. -/
theorem rounded_near (h : Reach E b d) (hd : b.Definite) (tau : ℕ → ℝ) (fext : FExt)
    (o : IntOpts) (ho : o.friction = false) {T : ℝ} {Y : ℝ → State b.dof}
    (hY : Solves (b.field E cache0 tau fext o) T Y) :
    ∃ C h0 : ℝ, 0 ≤ C ∧ 0 < h0 ∧ h0 ≤ 1 ∧ ∀ dt, 0 < dt → dt ≤ h0 → ∀ (F : Fl) (u l e : ℝ), F.Within u l →
      0 ≤ e → e + u / dt ≤ h0 → ∀ (y : (ℕ → ℝ) × (ℕ → ℝ)) (t0 : ℝ), 0 ≤ t0 → ‖cut b.dof y - Y t0‖ ≤ e →
      ∀ k : ℕ, t0 + k * dt ≤ T →
        ‖cut b.dof ((F.integrate b tau dt fext o)^[k] y) - Y (t0 + k * dt)‖ ≤
          C * (dt ^ o.method.order + e + u / dt) := by
  obtain ⟨C, R, h0, hC, hpos, hle, hn⟩ := scheme_near (field_smooth h hd cache0_clear tau fext o ho)
    (fun _ => rfl) hY o.method
  obtain ⟨K, u0, hK, hu0, hb⟩ := step_bound h hd tau fext o ho R
  refine ⟨C * (K + 1), min (min h0 u0) (h0 / (K + 1)), by positivity,
    lt_min (lt_min hpos hu0) (by positivity), (min_le_left _ _).trans ((min_le_left _ _).trans hle),
    fun dt h1 h2 F u l e hF he hs y t0 ht0 hy k hk => ?_⟩
  simp only [le_min_iff] at h2 hs
  have hu := hF.nonneg.1
  have hd1 : dt ≤ 1 := h2.1.1.trans hle
  have hw : u ≤ u / dt := by
    rw [le_div_iff₀ h1]
    nlinarith
  have hw0 : 0 ≤ u / dt := by positivity
  have e1 : K * u / dt = K * (u / dt) := mul_div_assoc _ _ _
  have e2 : e + K * u / dt ≤ h0 := by
    rw [e1]
    have := hs.2
    rw [le_div_iff₀ (by positivity)] at this
    nlinarith
  have g := hn dt h1 h2.1.1 e (K * u) he (by positivity) e2
    (fun k => cut b.dof ((F.integrate b tau dt fext o)^[k] y)) t0 ht0 hy (fun k _ hR => ?_) k hk
  · rw [e1, order_eq] at g
    refine g.trans ?_
    rw [mul_assoc]
    refine mul_le_mul_of_nonneg_left ?_ hC
    have : 0 ≤ dt ^ o.method.order := by positivity
    nlinarith
  · simp only [Function.iterate_succ_apply']
    exact hb _ dt hR (by rw [abs_of_pos h1]; exact hd1) F u l hF (hw.trans (by linarith [hs.1.2]))

end Body
end SpatialDyn
