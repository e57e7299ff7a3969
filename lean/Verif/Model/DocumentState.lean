import Verif.Model.Document

/-!
# Reading a document into an existing body, with what is left when it is refused

`from_json(json, ab)` (`json.cc:26-45`) and `decode(node, ab)` (`yaml.cc:28-48`) change the body entry by
entry; an exception keeps what was read before.  `decBody` (`Model/Document`) is the same function without
the state after an exception.  `json.get<ArticulatedBody>()` reads into a new object that an exception
destroys.
-/

namespace SpatialDyn

/-- A statement of the reader: it is not reached after an exception, and one that throws changes nothing
(`AddRigidBody` and `set_inertia_base` check before they write: `articulated_body.cc:241-252, 171-176`). -/
def attempt (f : Named → Out Named) (s : Named × Out Unit) : Named × Out Unit :=
  match s.2 with
  | .ok _ => match f s.1 with
    | .ok m => (m, .ok ())
    | .throws => (s.1, .throws)
    | .ub => (s.1, .ub)
  | _ => s

/-- The loop over `rigid_bodies` (`json.cc:40-43`, `yaml.cc:42-45`). -/
noncomputable def readLinks (dec : Doc → Out (Tag × RB)) (l : List Doc) (s : Named × Out Unit) :
    Named × Out Unit :=
  l.foldl (fun s d => attempt
    (fun n => (dec d).bind fun x => n.addRigidBody x.1 x.2 x.2.idParent) s) s

/-- `from_json(json, ab)` (`json.cc:26-45`), `yaml.cc:28-48`: the body afterwards and the outcome. -/
noncomputable def readBody (F : Fmt) (dec : Doc → Out (Tag × RB)) (d : Doc) (n : Named) : Named × Out Unit :=
  let s := attempt (F.opt d .name F.str fun n s => .ok { n with name := s }) (n, .ok ())
  let s := attempt (F.opt d .graphics (decodeVec (decGraphics F)) fun n g => .ok { n with graphics := g }) s
  let s := attempt (F.opt d .T_base_to_world F.codec.decIso
    fun n T => .ok { n with body := n.body.setBase T }) s
  let s := attempt (F.opt d .inertia_base (decInertia F)
    fun n I => (n.body.setInertiaBase I).map fun b => { n with body := b }) s
  match s.2, (F.get d .rigid_bodies).bind fun
      | none => .ok []
      | some v => F.items v with
  | .ok _, .ok l => readLinks dec l s
  | .ok _, .throws => (s.1, .throws)
  | .ok _, .ub => (s.1, .ub)
  | _, _ => s

/-- `from_json` into an existing body. -/
noncomputable def readJson (C : Codec) (d : Doc) (n : Named) : Named × Out Unit :=
  readBody (jsonFmt C) (jsonRigidBody C) d n

/-- `decode` of YAML into an existing body. -/
noncomputable def readYaml (C : Codec) (d : Doc) (n : Named) : Named × Out Unit :=
  readBody (yamlFmt C) (yamlRigidBody C) d n

end SpatialDyn
