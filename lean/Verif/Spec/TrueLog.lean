import Verif.Spec.NearLog
import Verif.Lemmas.Calculus

/-!
# What a logarithm of rigid motions is

`ctrl_utils::Log` and `ctrl_utils::LogMapDerivative` are not part of the repository.  `Ext.TrueLog`
says, without formulas, that they are the logarithm of the group of rigid motions and its derivative,
for displacements close to none.
-/

namespace SpatialDyn

/-- `E.log` is the logarithm near the identity, and `E.dlogT` its (transposed) derivative:

* `LogMapDerivative` is a matrix, so `dlogT` is linear;
* logarithms of small displacements are small;
* moving for unit time with the constant velocity `log T` leads from the origin to `T`;
* if a frame moves through `T` with twist `V`, then its logarithm changes at a rate whose power
  against any force `f` is the power of `V` against `dlogT T f`. -/
structure Ext.TrueLog (E : Ext) : Prop where
  dlogT_add : ∀ T f g, E.dlogT T (f + g) = E.dlogT T f + E.dlogT T g
  dlogT_smul : ∀ T (c : ℝ) f, E.dlogT T (c • f) = c • E.dlogT T f
  log_small : ∀ ε > 0, ∃ δ > 0, ∀ T : Iso, T.Valid → T.gap 1 < δ → (E.log T).size < ε
  log_path : ∃ δ > 0, ∀ T : Iso, T.Valid → T.gap 1 < δ →
    ∃ P : ℝ → Iso, P 0 = 1 ∧ P 1 = T ∧ ∀ s, HasTwist P (E.log T) s
  log_rate : ∃ δ > 0, ∀ T : Iso, T.Valid → T.gap 1 < δ → ∀ (P : ℝ → Iso) (V : Motion),
    P 0 = T → (∀ s, (P s).Valid) → HasTwist P V 0 →
      ∀ f, HasDerivAt (fun s => (E.log (P s)).dot f) (V.dot (E.dlogT T f)) 0

end SpatialDyn
