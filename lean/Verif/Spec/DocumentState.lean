import Verif.Model.DocumentState
import Verif.Spec.Accept

/-! What part of a document was read before it was refused. -/

namespace SpatialDyn

/-- The first `j` of the entries that describe the robot as a whole, in the order of reading. -/
def Doc.top (d : Doc) (j : ℕ) : List (Key × Doc) :=
  ([Key.name, .graphics, .T_base_to_world, .inertia_base].take j).filterMap fun k =>
    (Doc.find k d.entries).map fun v => (k, v)

/-- The links of an entry for `rigid_bodies` in JSON: a list, a map, whose keys do not matter, or one link. -/
def Doc.listed : Doc → List Doc
  | .arr l => l
  | .obj l => l.map Prod.snd
  | .null => []
  | d => [d]

/-- A document with these entries and the first `i` links of the list `l`. -/
def Doc.links (d : Doc) (l : List Doc) (i : ℕ) : Doc := .obj (d.top 4 ++ [(.rigid_bodies, .arr (l.take i))])

/-- The robot `m` is `n` with links added at the end: the links, the joint positions and velocities, the
gravity and the loads of `n` are as they were, and the new joints are at rest at zero. -/
structure Named.Extends (n m : Named) : Prop where
  rbs : n.body.rbs <+: m.body.rbs
  tags : n.tags <+: m.tags
  q : m.body.q = n.body.q ++ List.replicate (m.body.dof - n.body.dof) 0
  dq : m.body.dq = n.body.dq ++ List.replicate (m.body.dof - n.body.dof) 0
  g : m.body.g = n.body.g
  load : m.body.load = n.body.load

end SpatialDyn
