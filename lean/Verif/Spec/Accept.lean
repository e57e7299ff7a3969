import Verif.Spec.Document

/-! What a document says about a body, in terms of its entries only. -/

namespace SpatialDyn

/-- The entries of a map; anything else has none. -/
def Doc.entries : Doc → List (Key × Doc)
  | .obj l => l
  | _ => []

/-- The number a document stands for. -/
def Doc.IsNum (v : Doc) (x : Dbl) : Prop := v = .num x ∨ ∃ i : ℤ, v = .int i ∧ x = .fin i

/-- The entry `k`, if there is one, stands for `x` in the sense of `P`; otherwise `x` is `dflt`. -/
def Says {α : Type*} (l : List (Key × Doc)) (k : Key) (P : Doc → α → Prop) (dflt x : α) : Prop :=
  match Doc.find k l with
  | none => x = dflt
  | some v => P v x

/-- What the document of a joint says. -/
structure JointSays (v : Doc) (j : Joint) : Prop where
  type : ∃ s, Doc.find .type v.entries = some (.str s) ∧ JType.parse s = some j.type
  qMin : Says v.entries .q_min Doc.IsNum .ninf j.qMin
  qMax : Says v.entries .q_max Doc.IsNum .pinf j.qMax
  dqMax : Says v.entries .dq_max Doc.IsNum .pinf j.dqMax
  fqMax : Says v.entries .fq_max Doc.IsNum .pinf j.fqMax
  coulomb : Says v.entries .f_coulomb Doc.IsNum (.fin 0) j.fCoulomb
  viscous : Says v.entries .f_viscous Doc.IsNum (.fin 0) j.fViscous
  stiction : Says v.entries .f_stiction Doc.IsNum (.fin 0) j.fStiction

/-- What the document of an inertia says. -/
structure InertiaSays (C : Codec) (v : Doc) (I : Inertia) : Prop where
  mass : ∃ x, Doc.find .mass v.entries = some x ∧ x.IsNum (.fin I.mass)
  com : ∃ x, Doc.find .com v.entries = some x ∧ C.decVec3 x = .ok I.com
  rot : ∃ x, Doc.find .I_com_flat v.entries = some x ∧ C.decVec6 x = .ok I.flat

/-- What the document of a rigid body says, ids aside. -/
structure BodySays (C : Codec) (v : Doc) (t : Tag) (rb : RB) : Prop where
  name : Says v.entries .name (fun x s => x = .str s) [] t.name
  T : Says v.entries .T_to_parent (fun x T => C.decIso x = .ok T) 1 rb.T
  inertia : Says v.entries .inertia (InertiaSays C) ⟨1, 0, 0⟩ rb.inertia
  joint : Says v.entries .joint JointSays {} rb.joint

/-- The conversion of isometries returns rigid transforms only (ctrl_utils, external). -/
def Codec.Rigid (C : Codec) : Prop := ∀ d T, C.decIso d = .ok T → T.Valid

end SpatialDyn
