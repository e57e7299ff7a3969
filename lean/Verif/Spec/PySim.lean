import Verif.Model.PySim
import Verif.Spec.App

/-!
# What the demonstration in Python needs (C148)
-/

namespace SpatialDyn

/-- A message as `Interaction.Complete`, about a link with a number that is not negative. -/
structure Interaction.PyComplete (m : Interaction) (robot : Str) (n : ℕ) : Prop where
  object : ∃ key, m.keyObject = .val key
  key : ∃ s, m.keyDown = .val s
  drag : m.keyObject = .val robot → (∃ k : ℕ, m.idxLink = .val k ∧ k < n) ∧
    (∃ x, m.posMouse = .val x) ∧ ∃ x, m.posClick = .val x

/-- Everything a cycle reads is there. -/
structure SimInput.Readable (i : SimInput) (robot : Str) (n : ℕ) : Prop where
  pos : ∃ k, i.kpKvPos = some k
  ori : ∃ k, i.kpKvOri = some k
  joint : ∃ k, i.kpKvJoint = some k
  msg : ∃ m, i.interaction = some m ∧ m.PyComplete robot n

/-- The functions of `spatialdyn.opspace` that the program calls. -/
def Needed (names : List Str) : Prop :=
  ∀ s ∈ ["near_quaternion", "orientation_error", "is_singular", "inverse_dynamics"], s.toList ∈ names

/-- A cycle reads gains and a message about nothing. -/
structure SimInput.Quiet (i : SimInput) (robot : Str) : Prop where
  pos : ∃ k, i.kpKvPos = some k
  ori : ∃ k, i.kpKvOri = some k
  joint : ∃ k, i.kpKvJoint = some k
  msg : ∃ m, i.interaction = some m ∧ m.Idle robot

end SpatialDyn
