import Verif.Spec.Rescale
import Verif.Lemmas.Mechanics
import Verif.Lemmas.Kin

/-!
# Helper lemmas for C107: closed formulas in other units
-/

namespace SpatialDyn
open Finset Body

theorem Inertia.scale_app (c : ℝ) (I : Inertia) (m : Motion) : (I.scale c).app m = c • I.app m := by
  unfold Inertia.scale Inertia.app
  ext <;> simp [Mat3.mulVec, Vec3.cross] <;> ring

/-- `Body.Rescaled` for what the algorithms read. -/
structure Sys.Resc (c v γ : ℝ) (σ τ : Sys) : Prop where
  n : τ.n = σ.n
  par : ∀ i < σ.n, τ.par i = σ.par i
  S : ∀ i < σ.n, τ.S i = σ.S i
  Tw : ∀ i < σ.n, τ.Tw i = σ.Tw i
  tot : ∀ i < σ.n, τ.Itot i = (σ.Itot i).scale c
  dq : ∀ i < σ.n, τ.dq i = v * σ.dq i
  g : τ.g = γ • σ.g
  wf : σ.WF
  wf' : τ.WF

namespace Sys.Resc
variable {c v γ : ℝ} {σ τ : Sys}

theorem jw (h : Resc c v γ σ τ) {k j : ℕ} (hk : k < σ.n) (hj : j < σ.n) :
    τ.Jw k j = σ.Jw k j := by
  classical
  unfold Jw axis
  rw [h.Tw j hj, h.S j hj]
  refine if_congr ?_ rfl rfl
  exact Anc.congr h.wf.par_lt h.par hk j

theorem iw (h : Resc c v γ σ τ) {k : ℕ} (hk : k < σ.n) (m : Motion) :
    τ.Iw k m = c • σ.Iw k m := by
  unfold Iw
  rw [h.Tw k hk, h.tot k hk, Inertia.scale_app, Iso.actF_smul]

theorem vel (h : Resc c v γ σ τ) {k : ℕ} (hk : k < σ.n) : τ.V τ.dq k = v • σ.V σ.dq k := by
  unfold V
  rw [smul_sum, h.n]
  refine sum_congr rfl fun j hj => ?_
  rw [h.jw hk (mem_range.1 hj), h.dq j (mem_range.1 hj), mul_smul]

theorem bias (h : Resc c v γ σ τ) {k : ℕ} (hk : k < σ.n) : τ.bias k = v ^ 2 • σ.bias k := by
  unfold Sys.bias
  rw [smul_sum, h.n]
  refine sum_congr rfl fun j hj => ?_
  have hj := mem_range.1 hj
  rw [h.jw hk hj, h.dq j hj, h.vel hj, Motion.smul_crossM, smul_smul, smul_smul]
  congr 1
  ring

theorem genForce (h : Resc c v γ σ τ) {a : ℝ} {F F' : ℕ → Force} (hF : ∀ k < σ.n, F' k = a • F k)
    {i : ℕ} (hi : i < σ.n) : τ.genForce F' i = a * σ.genForce F i := by
  unfold Sys.genForce
  rw [mul_sum, h.n]
  refine sum_congr rfl fun k hk => ?_
  have hk := mem_range.1 hk
  rw [h.jw hk hi, hF k hk, Motion.dot_smul]

theorem mass (h : Resc c v γ σ τ) {i j : ℕ} (hi : i < σ.n) (hj : j < σ.n) :
    τ.massSpec i j = c * σ.massSpec i j := by
  unfold massSpec
  rw [mul_sum, h.n]
  refine sum_congr rfl fun k hk => ?_
  have hk := mem_range.1 hk
  rw [h.jw hk hi, h.jw hk hj, h.iw hk, Motion.dot_smul]

theorem coriolis (h : Resc c v γ σ τ) {i : ℕ} (hi : i < σ.n) :
    τ.coriolisSpec i = c * v ^ 2 * σ.coriolisSpec i := by
  refine h.genForce (fun k hk => ?_) hi
  rw [h.iw hk, h.iw hk, h.bias hk, h.vel hk, Iw_smul, Iw_smul, Motion.crossF_smul,
    Motion.crossF_smul, Motion.smul_crossF, smul_add, smul_smul, smul_smul, smul_smul]
  congr 2
  ring

theorem gravity (h : Resc c v γ σ τ) {i : ℕ} (hi : i < σ.n) :
    τ.gravitySpec i = c * γ * σ.gravitySpec i := by
  refine h.genForce (fun k hk => ?_) hi
  rw [h.iw hk, h.g, ← smul_neg, Iw_smul, smul_smul]

theorem ext (h : Resc c v γ σ τ) {a : ℝ} {F F' : FExt}
    (hF : ∀ k < σ.n, F' k = (F k).map (a • ·)) {i : ℕ} (hi : i < σ.n) :
    τ.extSpec F' i = a * σ.extSpec F i := by
  unfold extSpec
  rw [h.genForce (a := a) (fun k hk => ?_) hi, mul_neg]
  rw [hF k hk]
  cases F k with
  | none => exact (smul_zero a).symm
  | some x => rfl

end Sys.Resc

namespace Body
variable {E : Ext} {b b' : Body} {c v γ : ℝ}

theorem Rescaled.par_eq (h : Rescaled c v γ b b') {i : ℕ} (hi : i < b.dof) : b'.par i = b.par i := by
  unfold Body.par
  rw [h.parent i hi]

theorem Rescaled.freshTw_eq (h : Rescaled c v γ b b') (ht : b.Tree) (ht' : b'.Tree) {i : ℕ}
    (hi : i < b.dof) : b'.freshTw i = b.freshTw i := by
  induction i using Nat.strong_induction_on with
  | _ i ih =>
    have hp' : b'.freshTp i = b.freshTp i := by
      unfold freshTp TpAt
      rw [h.q i hi, h.pose i hi, h.joint i hi]
    unfold freshTw
    rw [worldLoop_spec ht.parLt _ _ _ i hi, worldLoop_spec ht'.parLt _ _ _ i (h.dof ▸ hi),
      h.par_eq hi, hp']
    cases hp : b.par i with
    | none => exact congrArg (· * b.freshTp i) h.T0
    | some p =>
      have hlt := ht.parLt i hi p hp
      show b'.freshTw p * _ = b.freshTw p * _
      rw [ih p hlt (lt_trans hlt hi)]

theorem Rescaled.resc (h : Rescaled c v γ b b') (hi : Inv E b) (hi' : Inv E b') :
    b.fresh.Resc c v γ b'.fresh where
  n := h.dof
  par i hi := h.par_eq hi
  S i hi := congrArg Joint.subspace (h.joint i hi)
  Tw i hx := by
    rw [fresh_Tw (h.dof ▸ hx), fresh_Tw hx, h.freshTw_eq hi.tree hi'.tree hx]
  tot i hi := h.total i hi
  dq i hi := h.dq i hi
  g := by
    show (⟨b'.g, 0⟩ : Motion) = γ • ⟨b.g, 0⟩
    rw [h.g]
    ext <;> simp
  wf := hi.wf
  wf' := hi'.wf

end Body
end SpatialDyn
