import Verif.Model.Options

/-!
# Option records seen by name

Each record read as a partial map from the documented member names to values.
-/

namespace SpatialDyn

/-- Member names of the option records (`options.h`). -/
inductive OptName where
  | gravity | centrifugalCoriolis | friction | jointLimits | method | aba | stictionEpsilon
  | variationalEpsilon | maxIterations

/-- Values of members. -/
inductive OptVal where
  | flag (x : Bool)
  | real (x : ℝ)
  | meth (x : Method)
  | nat (x : ℕ)

/-- Members of `InverseDynamicsOptions` and `ForwardDynamicsOptions`. -/
def IDOpts.member (o : IDOpts) : OptName → Option OptVal
  | .gravity => some (.flag o.gravity)
  | .centrifugalCoriolis => some (.flag o.cc)
  | .friction => some (.flag o.friction)
  | .stictionEpsilon => some (.real o.eps)
  | _ => none

/-- Members of `IntegrationOptions`. -/
def IntOpts.member (o : IntOpts) : OptName → Option OptVal
  | .gravity => some (.flag o.gravity)
  | .centrifugalCoriolis => some (.flag o.cc)
  | .friction => some (.flag o.friction)
  | .jointLimits => some (.flag o.jointLimits)
  | .method => some (.meth o.method)
  | .aba => some (.flag o.aba)
  | .stictionEpsilon => some (.real o.eps)
  | _ => none

/-- Members of `discrete::InverseDynamicsOptions`. -/
def DIDOpts.member (o : DIDOpts) : OptName → Option OptVal
  | .gravity => some (.flag o.gravity)
  | _ => none

/-- Members of `discrete::IntegrationOptions`. -/
def DIntOpts.member (o : DIntOpts) : OptName → Option OptVal
  | .gravity => some (.flag o.gravity)
  | .variationalEpsilon => some (.real o.epsV)
  | .maxIterations => some (.nat o.maxIter)
  | _ => none

/-- `dst` was made from `src`: every member of `dst` has the value of the member of `src` of the
same name, or its default when `src` has no such member. -/
def Carried (src dst dflt : OptName → Option OptVal) : Prop :=
  ∀ k v, dst k = some v → src k = some v ∨ (src k = none ∧ dflt k = some v)

end SpatialDyn
