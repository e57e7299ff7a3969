import Verif.Model.Document
import Verif.Spec.Fresh

/-! What it means for a document to hold a body, stated without the readers and writers. -/

namespace SpatialDyn

/-- The conversions of Eigen types lose nothing (ctrl_utils, external; numbers are reals here).  For
isometries only rigid ones are asked for. -/
structure Codec.Faithful (C : Codec) : Prop where
  vec3 : ∀ v, C.decVec3 (C.encVec3 v) = .ok v
  vec4 : ∀ v, C.decVec4 (C.encVec4 v) = .ok v
  vec6 : ∀ v, C.decVec6 (C.encVec6 v) = .ok v
  iso : ∀ T : Iso, T.Valid → C.decIso (C.encIso T) = .ok T

/-- Printing and parsing leaves an encoded Eigen value alone (all its numbers are finite). -/
structure Codec.Prints (C : Codec) : Prop where
  vec3 : ∀ v, (C.encVec3 v).text = C.encVec3 v
  vec4 : ∀ v, (C.encVec4 v).text = C.encVec4 v
  vec6 : ∀ v, (C.encVec6 v).text = C.encVec6 v
  iso : ∀ T, (C.encIso T).text = C.encIso T

/-- What the setters of `Joint` guarantee for any arguments, NaN included. -/
structure Joint.Made (j : Joint) : Prop where
  subspace : j.subspace = j.type.subspace
  limits : ¬ j.qMax.Lt j.qMin
  dqMax : ¬ j.dqMax.Lt (.fin 0)
  fqMax : ¬ j.fqMax.Lt (.fin 0)
  coulomb : ¬ j.fCoulomb.Lt (.fin 0)
  viscous : ¬ j.fViscous.Lt (.fin 0)
  stiction : ¬ j.fStiction.Lt (.fin 0)

/-- A finite double. -/
def Dbl.Finite (x : Dbl) : Prop := ∃ r, x = .fin r

/-- Every limit and coefficient of the joint is finite. -/
structure Joint.Finite (j : Joint) : Prop where
  qMin : j.qMin.Finite
  qMax : j.qMax.Finite
  dqMax : j.dqMax.Finite
  fqMax : j.fqMax.Finite
  coulomb : j.fCoulomb.Finite
  viscous : j.fViscous.Finite
  stiction : j.fStiction.Finite

/-- The same shape: the type and the measures that mean something for it (graphics.h 56-79). -/
structure Geometry.Alike (g h : Geometry) : Prop where
  type : h.type = g.type
  scale : g.type = .box ∨ g.type = .mesh → h.scale = g.scale
  radius : g.type = .capsule ∨ g.type = .cylinder ∨ g.type = .sphere → h.radius = g.radius
  length : g.type = .capsule ∨ g.type = .cylinder → h.length = g.length
  mesh : g.type = .mesh → h.mesh = g.mesh

/-- The same picture. -/
structure Graphics.Alike (g h : Graphics) : Prop where
  name : h.name = g.name
  T : h.T = g.T
  geometry : g.geometry.Alike h.geometry
  material : h.material = g.material

/-- The same name and pictures. -/
structure Tag.Alike (t u : Tag) : Prop where
  name : u.name = t.name
  graphics : List.Forall₂ Graphics.Alike t.graphics u.graphics

/-- The same model: names, graphics, tree, poses, inertias, joints; nothing about the state. -/
structure Named.SameModel (n m : Named) : Prop where
  name : m.name = n.name
  graphics : List.Forall₂ Graphics.Alike n.graphics m.graphics
  tags : List.Forall₂ Tag.Alike n.tags m.tags
  rbs : m.body.rbs = n.body.rbs
  T0 : m.body.T0 = n.body.T0
  inertiaBase : m.body.inertiaBase = n.body.inertiaBase
  anc : m.body.anc = n.body.anc
  sub : m.body.sub = n.body.sub

/-- The state of a new body: at rest at the origin, gravity as on earth, no loads. -/
structure Body.AtRest (b : Body) : Prop where
  q : b.q = List.replicate b.dof 0
  dq : b.dq = List.replicate b.dof 0
  g : b.g = ⟨0, 0, -9.81⟩
  load : ∀ k, b.load k = none

/-- A body as the C++ interface builds it: joints through their setters, masses not negative, inertia
tensors symmetric, graphics placed by rigid transforms, one name per rigid body. -/
structure Named.Proper (n : Named) : Prop where
  tags : n.tags.length = n.body.dof
  joint : ∀ rb ∈ n.body.rbs, rb.joint.Made
  mass : ∀ rb ∈ n.body.rbs, 0 ≤ rb.inertia.mass
  symm : ∀ rb ∈ n.body.rbs, rb.inertia.Icom.IsSymm
  graphics : ∀ g ∈ n.graphics, g.T.Valid
  tagGraphics : ∀ t ∈ n.tags, ∀ g ∈ t.graphics, g.T.Valid

end SpatialDyn
