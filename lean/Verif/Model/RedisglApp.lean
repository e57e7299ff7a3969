import Verif.Model.Redisgl
import Verif.Model.Urdf

/-!
# The program `apps/redisgl/main.py`

It loads a robot from a URDF file and publishes it for the web page.

`ctrlutils` is external: `vec` is the text that `set_matrix` writes for a vector.  Host, port and password
choose the database and are left out, as is the case that it cannot be reached.
-/

namespace SpatialDyn.Redisgl
open SpatialDyn

/-- `main` (`apps/redisgl/main.py:13-37`): the database afterwards, and how the program ended.  `doc`: the
top-level elements of the file, or nothing when it cannot be read; `dir`: the absolute path of its directory;
`resource`: the option `--resource-path`; `c`: the uninitialised cache of the new body.  `load_model` merges
fixed joints by default (`src/python/spatial_dyn.cc:625-626`). -/
noncomputable def mainPy (X : UrdfExt) (C : Codec) (vec : List ℝ → Doc) (c : Cache) (doc : Option (List Xml))
    (dir : Str) (resource : Option Str) (db : Db) : Db × Out Unit :=
  match loadModel X c doc "iiwa_description".toList with
  | .throws => (db, .throws)
  | .ub => (db, .ub)
  | .ok ab => match (Call.addResource (resource.getD dir)).step C db with
    | .throws => (db, .throws)
    | .ub => (db, .ub)
    | .ok db =>
      let db := (Call.addKeys "dyn".toList).exec C db
      let keyQ := ab.name ++ "::sensor::q".toList
      let db := db.put keyQ (.text (vec ab.body.q))
      ((Call.addRobot "dyn".toList { body := ab, keyQ := keyQ }).exec C db, .ok ())

end SpatialDyn.Redisgl
