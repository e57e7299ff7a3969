import Verif.Model.Ext

/-! Driving one joint while some of the others are held. -/

namespace SpatialDyn

/-- The torque of joint `i` is raised by `c`, from `tau` to `tau'`, while the joints of `S` are free and the
others are held: free joints keep their torques, held joints are given the torques that leave their
accelerations as they were. -/
structure Body.Raised (E : Ext) (b : Body) (f : FExt) (o : FDOpts) (i : ℕ) (c : ℝ) (S : Set ℕ)
    (tau tau' : ℕ → ℝ) : Prop where
  raised : tau' i = tau i + c
  free : ∀ j < b.dof, j ∈ S → j ≠ i → tau' j = tau j
  held : ∀ j < b.dof, j ∉ S → j ≠ i → (b.fd E tau' f o).1 j = (b.fd E tau f o).1 j

/-- External forces change from `f` to `f'` while the joints of `S` are free and the others are held. -/
structure Body.Pushed (E : Ext) (b : Body) (f f' : FExt) (o : FDOpts) (S : Set ℕ) (tau tau' : ℕ → ℝ) : Prop where
  free : ∀ j < b.dof, j ∈ S → tau' j = tau j
  held : ∀ j < b.dof, j ∉ S → (b.fd E tau' f' o).1 j = (b.fd E tau f o).1 j

end SpatialDyn
