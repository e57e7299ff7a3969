import Verif.Model.Dynamics
import Verif.Lemmas.Loops
import Verif.Lemmas.Spatial

/-!
# World-frame specification of multibody quantities

Closed formulas, as sums over bodies in one fixed (world) frame, with no recursion over the tree and
none of the model's loops.  The algorithms of `Verif.Model.Dynamics` work body by body in local
frames; the theorems state that they compute these sums.
-/

namespace SpatialDyn

open Finset

/-- `Anc par j i`: body `j` is body `i` or one of its ancestors. -/
inductive Anc (par : ℕ → Option ℕ) (j : ℕ) : ℕ → Prop
  | refl : Anc par j j
  | step {i p : ℕ} : par i = some p → Anc par j p → Anc par j i

namespace Sys

/-- Well-formed view: parents come first, transforms are rigid, and the world transforms compose
along the tree.  (Established for every reachable body in `Verif.Props.Tree`.) -/
structure WF (σ : Sys) : Prop where
  par_lt : ParLt σ.n σ.par
  Tp_valid : ∀ i < σ.n, (σ.Tp i).Valid
  Tw_valid : ∀ i < σ.n, (σ.Tw i).Valid
  Tw_rec : ∀ i < σ.n, ∀ p, σ.par i = some p → σ.Tw i = σ.Tw p * σ.Tp i

/-- Every total (body plus load) rotational inertia is symmetric. -/
def SymI (σ : Sys) : Prop := ∀ i < σ.n, (σ.Itot i).Icom.IsSymm

/-- World-frame axis of joint `j`: its subspace carried to the world frame. -/
noncomputable def axis (σ : Sys) (j : ℕ) : Motion := (σ.Tw j).actM (σ.S j)

open Classical in
/-- World-frame spatial velocity of body `k` caused by a unit rate of joint `j`. -/
noncomputable def Jw (σ : Sys) (k j : ℕ) : Motion := if Anc σ.par j k then σ.axis j else 0

/-- World-frame spatial velocity of body `k` under joint rates `u`. -/
noncomputable def V (σ : Sys) (u : ℕ → ℝ) (k : ℕ) : Motion := ∑ j ∈ range σ.n, u j • σ.Jw k j

/-- World-frame inertia operator of body `k` with its load. -/
noncomputable def Iw (σ : Sys) (k : ℕ) (m : Motion) : Force :=
  (σ.Tw k).actF ((σ.Itot k).app ((σ.Tw k).inv.actM m))

/-- Velocity-product acceleration of body `k`: every joint axis above it moves with its body. -/
noncomputable def bias (σ : Sys) (k : ℕ) : Motion :=
  ∑ j ∈ range σ.n, σ.dq j • (σ.V σ.dq j).crossM (σ.Jw k j)

/-- Generalised force of world-frame body forces `F` (virtual work against unit joint rates). -/
noncomputable def genForce (σ : Sys) (F : ℕ → Force) (i : ℕ) : ℝ :=
  ∑ k ∈ range σ.n, (σ.Jw k i).dot (F k)

/-- Spec of the mass matrix: the bilinear form of the kinetic energy. -/
noncomputable def massSpec (σ : Sys) (i j : ℕ) : ℝ :=
  ∑ k ∈ range σ.n, (σ.Jw k i).dot (σ.Iw k (σ.Jw k j))

/-- Spec of the velocity-product torques. -/
noncomputable def coriolisSpec (σ : Sys) : ℕ → ℝ :=
  σ.genForce fun k => σ.Iw k (σ.bias k) + (σ.V σ.dq k).crossF (σ.Iw k (σ.V σ.dq k))

/-- Spec of the gravity torques: the weight of every body, resisted. -/
noncomputable def gravitySpec (σ : Sys) : ℕ → ℝ := σ.genForce fun k => σ.Iw k (-σ.g)

/-- Spec of the external torques. -/
noncomputable def extSpec (σ : Sys) (fext : FExt) : ℕ → ℝ :=
  fun i => -σ.genForce (fun k => (fext k).getD 0) i

/-- Spec of inverse dynamics without friction, each term on or off. -/
noncomputable def idSpec (σ : Sys) (ddq : ℕ → ℝ) (fext : FExt) (cc grav : Bool) (i : ℕ) : ℝ :=
  (∑ j ∈ range σ.n, σ.massSpec i j * ddq j) + (if cc then σ.coriolisSpec i else 0)
    + (if grav then σ.gravitySpec i else 0) + σ.extSpec fext i

end Sys
end SpatialDyn
