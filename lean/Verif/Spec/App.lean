import Verif.Model.App

/-!
# Vocabulary for the demonstration program
-/

namespace SpatialDyn

/-- A message that names another object than the robot and reports no key that moves the goal. -/
structure Interaction.Idle (m : Interaction) (robot : Str) : Prop where
  other : ∃ key, m.keyObject = .val key ∧ key ≠ robot
  noKey : ∃ s, m.keyDown = .val s ∧ ∀ c ∈ s.head?, c ∉ ['a', 'd', 'w', 's', 'e', 'q']

/-- A message with all its fields whose link, if it is about the robot, exists (negative numbers count
from the end) for a robot with `n` links. -/
structure Interaction.Complete (m : Interaction) (robot : Str) (n : ℕ) : Prop where
  object : ∃ key, m.keyObject = .val key
  key : ∃ s, m.keyDown = .val s
  drag : m.keyObject = .val robot → (∃ k : ℤ, m.idxLink = .val k ∧ -n ≤ k ∧ k < n) ∧
    (∃ x, m.posMouse = .val x) ∧ ∃ x, m.posClick = .val x

/-- How often a key that begins with the given letter is reported. -/
def presses (c : Char) (keys : List Str) : ℕ := keys.countP fun s => s.head? == some c

end SpatialDyn
