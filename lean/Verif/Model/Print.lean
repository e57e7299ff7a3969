import Verif.Model.Document

/-!
# Printed forms

The streaming operators of `src/structs/{joint,rigid_body,articulated_body}.cc` and the `__repr__`
methods of `src/python/spatial_dyn.cc`.

How a stream writes a `double` depends on its precision, flags and locale; the text of a number is
therefore a function handed over.  Integers are written in decimal without grouping, which is the default.
-/

namespace SpatialDyn

/-- `os << int`, `os << size_t`. -/
def intText : ℤ → Str
  | .ofNat n => Nat.toDigits 10 n
  | .negSucc n => '-' :: Nat.toDigits 10 (n + 1)

/-- `operator<<(std::ostream&, const RigidBody&)` (rigid_body.cc 31-35). -/
def linkText (t : Tag) (rb : RB) : Str :=
  "RigidBody(name=\"".toList ++ t.name ++ "\", id=".toList ++ intText rb.id ++ ", id_parent=".toList ++
    intText rb.idParent ++ ", joint=".toList ++ rb.joint.type.name ++ ")".toList

/-- `operator<<(std::ostream&, const Joint&)` (joint.cc 171-176). -/
def jointText (num : Dbl → Str) (j : Joint) : Str :=
  "Joint(type=".toList ++ j.type.name ++ ", q_lim=[".toList ++ num j.qMin ++ " ".toList ++ num j.qMax ++
    "], dq_max=".toList ++ num j.dqMax ++ ", fq_max=".toList ++ num j.fqMax ++ ", f_coulomb=".toList ++
    num j.fCoulomb ++ ", f_viscous=".toList ++ num j.fViscous ++ ", f_stiction=".toList ++
    num j.fStiction ++ ")".toList

/-- Eigen's `operator<<` for a row: the entries are separated by a space and padded on the left to the
width of the widest. -/
def rowText (num : ℝ → Str) (l : List ℝ) : Str :=
  let w := (l.map fun x => (num x).length).foldl max 0
  [' '].intercalate (l.map fun x => List.replicate (w - (num x).length) ' ' ++ num x)

/-- The loop over the rigid bodies (articulated_body.cc 351-355). -/
def linksText (first : Bool) : List (Tag × RB) → Str
  | [] => []
  | x :: l => (if first then "  rigid_bodies: ".toList else "                ".toList) ++
      linkText x.1 x.2 ++ ['\n'] ++ linksText false l

/-- `operator<<(std::ostream&, const ArticulatedBody&)` (articulated_body.cc 346-357). -/
def bodyText (num : ℝ → Str) (n : Named) : Str :=
  "ArticulatedBody(name=\"".toList ++ n.name ++ "\", dof=".toList ++ intText n.body.dof ++ ")".toList ++
    ['\n'] ++
  ("             q: ".toList ++ rowText num n.body.q ++ ['\n']) ++
  ("            dq: ".toList ++ rowText num n.body.dq ++ ['\n']) ++
  ("             g: ".toList ++ rowText num [n.body.g.x, n.body.g.y, n.body.g.z] ++ ['\n']) ++
  linksText true (n.tags.zip n.body.rbs)

/-- `ArticulatedBody.__repr__` (spatial_dyn.cc 226-232). -/
def bodyRepr (n : Named) : Str :=
  "spatialdyn.ArticulatedBody(name=\"".toList ++ n.name ++ "\", dof=".toList ++ intText n.body.dof ++
    ")".toList

/-- `RigidBody.__repr__` (spatial_dyn.cc 254-258). -/
def linkRepr (t : Tag) (rb : RB) : Str := "spatialdyn.".toList ++ linkText t rb

/-- `Joint.__repr__` (spatial_dyn.cc 282-286). -/
def jointRepr (num : Dbl → Str) (j : Joint) : Str := "spatialdyn.".toList ++ jointText num j

end SpatialDyn
