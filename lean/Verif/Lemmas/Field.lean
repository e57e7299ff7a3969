import Verif.Lemmas.Smooth
import Verif.Lemmas.Integrate
import Verif.Props.Lagrange
import Verif.Model.Control

/-!
# The vector field of the equations of motion

In closed form, and smooth.
-/

namespace SpatialDyn
open Finset Matrix
open scoped ContDiff

variable {E : Ext} {b : Body} {d : Bool}

namespace Body

/-- Accelerations that satisfy the equations of motion at a state, under gravity `g`. -/
noncomputable def accAt (b : Body) (g : Vec3) (tau : ℕ → ℝ) (fext : FExt) (cc grav : Bool)
    (y : State b.dof) : Fin b.dof → ℝ :=
  (toMat b.dof (b.sysAt (padFin y.1) (padFin y.2)).massSpec)⁻¹ *ᵥ (vec b.dof tau -
    vec b.dof (((b.setG g).sysAt (padFin y.1) (padFin y.2)).idSpec (fun _ => 0) fext cc grav))

theorem getD_ofFn_pad {n : ℕ} (v : Fin n → ℝ) : (fun i => (List.ofFn v).getD i 0) = padFin v := by
  funext i
  unfold padFin
  split
  · rename_i h
    simp [List.getD_eq_getElem?_getD, h]
  · rename_i h
    simp [List.getD_eq_getElem?_getD, h]

/-- Every state can be set. -/
theorem exists_at (h : Reach E b d) (y : State b.dof) : ∃ B d', Reach E B d' ∧ AtState E b y B ∧
    (B.fresh = b.sysAt (padFin y.1) (padFin y.2)) := by
  obtain ⟨b1, h1, e1⟩ := setQ_total (b := b) (q := List.ofFn y.1) (by simp)
  obtain ⟨B, h2, e2⟩ := setDq_total (b := b1) (q := List.ofFn y.2) (by simp [e1])
  obtain ⟨hs, hd, hf, _, _, d', hr⟩ := h.after_set ⟨b1, h1, h2⟩
  refine ⟨B, d', hr, ⟨hs, hr.inv, ?_, setDq_dq h2⟩, ?_⟩
  · rw [setDq_q h2, setQ_q h1]
  · rw [hf, getD_ofFn_pad, getD_ofFn_pad]

theorem StateOnly.definite {b' : Body} (hs : StateOnly b b') (hd : b.Definite) : b'.Definite := by
  obtain ⟨h1, h2, h3, h4, h5⟩ := hd
  have hr : b'.rb = b.rb := by unfold Body.rb; rw [hs.rbs]
  have hn : b'.dof = b.dof := by unfold Body.dof; rw [hs.rbs]
  constructor
  · rw [hr, hn]; exact h1
  · rw [hr, hn]; exact h2
  · rw [hr, hn]; exact h3
  · rw [hs.load, hn]; exact h4
  · rw [hr, hn]; exact h5

/-- Answer of `ForwardDynamics` in a given state. -/
theorem AtState.fd_val {y : State b.dof} {B : Body} {d' : Bool} (ha : AtState E b y B)
    (hB : Reach E B d') (hd : b.Definite) (hf : B.fresh = b.sysAt (padFin y.1) (padFin y.2))
    (tau : ℕ → ℝ) (fext : FExt) (o : FDOpts) (ho : o.friction = false) (i : Fin b.dof) :
    (B.fd E tau fext o).1 i = b.accAt b.g tau fext o.cc o.gravity y i := by
  have hD := ha.only.definite hd
  have hn : B.dof = b.dof := ha.dof
  have hm := hD.massive hB.inv.tree
  have hdet := fresh_det hB hm (hD.form hB)
  have hdet' : (toMat b.dof B.fresh.massSpec).det ≠ 0 := by rw [← hn]; exact hdet
  refine Sys.solve_unique (x := (B.fd E tau fext o).1)
    (y := padFin (b.accAt b.g tau fext o.cc o.gravity y)) hdet' (fun k hk => ?_) i i.2 |>.trans ?_
  · have e1 := fd_solves hB hm (hD.form hB) tau fext o k (hn ▸ hk)
    rw [hn] at e1
    rw [e1]
    have e2 := Sys.toMat_mulVec b.dof B.fresh.massSpec (padFin (b.accAt b.g tau fext o.cc o.gravity y))
      ⟨k, hk⟩
    have e3 : (fun j : Fin b.dof => padFin (b.accAt b.g tau fext o.cc o.gravity y) j) =
        b.accAt b.g tau fext o.cc o.gravity y := by
      funext j; simp [padFin]
    rw [e3] at e2
    rw [← e2]
    unfold accAt
    rw [show (b.setG b.g).sysAt = b.sysAt from rfl, ← hf, Matrix.mulVec_mulVec, Matrix.mul_nonsing_inv _ (isUnit_iff_ne_zero.2 hdet'),
      Matrix.one_mulVec]
    unfold Sys.fdRhs
    simp [ho, vec]
  · simp [padFin]

/-- The vector field in closed form. -/
theorem field_val (h : Reach E b d) (hd : b.Definite) {c : Cache} (hc : c.Clear) (tau : ℕ → ℝ)
    (fext : FExt) (o : IntOpts) (ho : o.friction = false) (y : State b.dof) :
    b.field E c tau fext o y = (y.2,
      b.accAt (if o.aba then b.T0.R.mulVec b.g else b.g) tau fext o.cc o.gravity y) := by
  refine Prod.ext rfl (funext fun i => ?_)
  have hm := hd.massive h.inv.tree
  obtain ⟨B, d', hB, ha, hf⟩ := exists_at h y
  rw [← (ha.accel h.inv hm.symI (hm.posMass h.inv.tree) hc tau fext o).1 i]
  have hn : B.dof = b.dof := ha.dof
  have hD := ha.only.definite hd
  unfold Body.accel
  split
  · rw [C30_aba_base hB (hD.massive hB.inv.tree) (hD.form hB) tau fext o.fd ho i
      (lt_of_lt_of_eq i.2 hn.symm)]
    have hs : Reach E (B.setG (B.T0.R.mulVec B.g)) _ := hB.step (.setG _) trivial rfl
    have e : B.T0.R.mulVec B.g = b.T0.R.mulVec b.g := by rw [ha.only.T0, ha.only.g]
    have hk : Reach E (b.setG (b.T0.R.mulVec b.g)) _ := h.step (.setG _) trivial rfl
    have hdg : (b.setG (b.T0.R.mulVec b.g)).Definite := ⟨hd.mass, hd.symm, hd.pd, hd.load, hd.axes⟩
    have hag : AtState E (b.setG (b.T0.R.mulVec b.g)) y (B.setG (B.T0.R.mulVec B.g)) := by
      rw [e]
      obtain ⟨⟨k1, k2, k3, k4, k5, k6, k7, k8, k9⟩, k, kq, kd⟩ := ha
      rw [e] at hs
      exact ⟨⟨k1, rfl, k3, k4, k5, k6, k7, k8, k9⟩, hs.inv, kq, kd⟩
    refine Eq.trans (AtState.fd_val hag hs hdg ?_ tau fext o.fd ho i) rfl
    rw [e]
    have : (B.setG (b.T0.R.mulVec b.g)).fresh = { B.fresh with g := ⟨b.T0.R.mulVec b.g, 0⟩ } := rfl
    rw [this, hf]
    rfl
  · exact ha.fd_val hB hd hf tau fext o.fd ho i

theorem padFin_smooth {X : Type*} [NormedAddCommGroup X] [NormedSpace ℝ X] {n : ℕ}
    {f : X → Fin n → ℝ} (hf : ContDiff ℝ ∞ f) (i : ℕ) : Sm fun p => padFin (f p) i := by
  unfold padFin
  split
  · exact contDiff_pi.1 hf _
  · exact contDiff_const

theorem sysAt_pos (h : Reach E b d) (hd : b.Definite) (y : State b.dof) :
    PosMat (toMat b.dof (b.sysAt (padFin y.1) (padFin y.2)).massSpec) := by
  obtain ⟨B, d', hB, ha, hf⟩ := exists_at h y
  have := ((ha.only.definite hd).massPD hB.inv).mat
  change PosMat (toMat B.dof B.fresh.massSpec) at this
  rw [hf, ha.dof] at this
  exact this

theorem sysAt_det (h : Reach E b d) (hd : b.Definite) (y : State b.dof) :
    (toMat b.dof (b.sysAt (padFin y.1) (padFin y.2)).massSpec).det ≠ 0 := (sysAt_pos h hd y).det_ne

theorem accAt_smooth (h : Reach E b d) (hd : b.Definite) (g : Vec3) (tau : ℕ → ℝ) (fext : FExt)
    (cc grav : Bool) : ContDiff ℝ ∞ (b.accAt g tau fext cc grav) := by
  have hq : ∀ i < b.dof, Sm fun y : State b.dof => padFin y.1 i :=
    fun i _ => padFin_smooth contDiff_fst i
  have hw : ∀ i < b.dof, Sm fun y : State b.dof => padFin y.2 i :=
    fun i _ => padFin_smooth contDiff_snd i
  have hk : Reach E (b.setG g) _ := h.step (.setG _) trivial rfl
  refine contDiff_pi.2 fun i => Sm.inv_mulVec (fun k l => ?_) (fun k => ?_) (fun y => ?_) i
  · exact massSpec_smooth h.inv.tree hq k l
  · exact contDiff_const.sub (idSpec_smooth (b := b.setG g) hk.inv.tree hq hw
      (fun _ _ => contDiff_const) fext cc grav k)
  · exact sysAt_det h hd y

/-- Without friction the vector field is smooth. -/
theorem field_smooth (h : Reach E b d) (hd : b.Definite) {c : Cache} (hc : c.Clear) (tau : ℕ → ℝ)
    (fext : FExt) (o : IntOpts) (ho : o.friction = false) :
    ContDiff ℝ ∞ (b.field E c tau fext o) := by
  rw [show b.field E c tau fext o = _ from funext fun y => field_val h hd hc tau fext o ho y]
  exact contDiff_snd.prodMk (accAt_smooth h hd _ tau fext o.cc o.gravity)

end Body
end SpatialDyn
