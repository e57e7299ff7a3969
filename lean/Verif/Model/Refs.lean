import Verif.Model.Machine

/-!
# Results returned by reference

Many functions of the C++ interface return a reference to storage inside the body
(`forward_kinematics.h:131`, `inverse_dynamics.h:61-134`, `forward_dynamics.h:82,94`,
`opspace_dynamics.h:29-59`, `articulated_body.h:122,295,356,403,414`).  A program that keeps such a
reference reads, later, what is stored there at that time.  `Ref` names the storage, `Query.ref` says
which reference a call returns, `Ref.read` reads it.
-/

namespace SpatialDyn

/-- The places references point to. -/
inductive Ref where
  /-- `rigid_bodies_[k]` (`articulated_body.cc:68-71`) -/
  | link (k : ℕ)
  /-- `ancestors_[k]` (`articulated_body.cc:224-227`) -/
  | ancestors (k : ℕ)
  /-- `subtrees_[k]` (`articulated_body.cc:228-231`) -/
  | subtree (k : ℕ)
  /-- `T_data_.T_to_parent[k]` (`articulated_body.cc:188`) -/
  | toParent (k : ℕ)
  /-- `T_data_.T_to_world[k]` (`articulated_body.cc:211`) -/
  | toWorld (k : ℕ)
  /-- `jac_data_.J` (`forward_kinematics.cc:63,82`): one matrix for all links and points -/
  | jacobian
  /-- `Eigen::Ref` to the upper rows of `jac_data_.J` (`forward_kinematics.cc:113-116`) -/
  | linearJacobian
  /-- `Eigen::Ref` to the lower rows of `jac_data_.J` (`forward_kinematics.cc:123-126`) -/
  | angularJacobian
  /-- `cc_data_.C` (`inverse_dynamics.cc:102,141`) -/
  | coriolis
  /-- `grav_data_.G` (`inverse_dynamics.cc:146,168`) -/
  | gravity
  /-- `crba_data_.A` (`inverse_dynamics.cc:225,256`) -/
  | inertia
  /-- `crba_data_.I_c[k]` (`inverse_dynamics.cc:264`) -/
  | composite (k : ℕ)
  /-- `crba_data_.A_inv` (`forward_dynamics.cc:143`) -/
  | factor
  /-- `aba_data_.A_inv` (`forward_dynamics.cc:149,199`) -/
  | inertiaInverseAba
  /-- `opspace_data_.Lambda` (`opspace_dynamics.cc:92`): one matrix for all tasks -/
  | opsInertia
  /-- `opspace_data_.Lambda_inv` (`opspace_dynamics.cc:107`) -/
  | opsInertiaInverse
  /-- `opspace_data_.J_bar` (`opspace_dynamics.cc:122`) -/
  | opsJbar
  /-- `opspace_aba_data_.Lambda` (`opspace_dynamics_aba.cc:30`) -/
  | opsInertiaAba
  /-- `opspace_aba_data_.Lambda_inv` (`opspace_dynamics_aba.cc:39,88`) -/
  | opsInertiaInverseAba

/-- What is stored there. -/
noncomputable def Ref.read (b : Body) : Ref → Ans
  | .link k => .rb (b.rb k)
  | .ancestors k => .ids (b.anc.getD k [])
  | .subtree k => .ids (b.sub.getD k [])
  | .toParent k => .iso (b.c.Tp k)
  | .toWorld k => .iso (b.c.Tw k)
  | .jacobian => .cols (take b.dof b.c.J)
  | .linearJacobian => .cols3 (take b.dof fun i => (b.c.J i).lin)
  | .angularJacobian => .cols3 (take b.dof fun i => (b.c.J i).ang)
  | .coriolis => .vec (take b.dof b.c.C)
  | .gravity => .vec (take b.dof b.c.G)
  | .inertia => .mat (take2 b.dof b.dof b.c.A)
  | .composite k => .inertia (b.c.Ic k)
  | .factor => .mat (take2 b.dof b.dof b.c.Afact)
  | .inertiaInverseAba => .mat (take2 b.dof b.dof b.c.abaInv)
  | .opsInertia => .dmat b.c.ops.Lambda.trunc
  | .opsInertiaInverse => .dmat b.c.ops.LambdaInv.trunc
  | .opsJbar => .dmat b.c.ops.Jbar.trunc
  | .opsInertiaAba => .mat6 b.c.opsAba.Lambda
  | .opsInertiaInverseAba => .mat6 b.c.opsAba.LambdaInv

/-- The reference is to an element of a `std::vector`, or to the coefficients of a matrix, which
`AddRigidBody` moves (`articulated_body.cc:249,267-343`). -/
def Ref.inner : Ref → Bool
  | .link _ | .ancestors _ | .subtree _ | .toParent _ | .toWorld _ | .composite _ => true
  | .linearJacobian | .angularJacobian => true
  | _ => false

/-- Use of a reference obtained when the body had `n` links.  After links were added, elements of
vectors may have moved: undefined behaviour. -/
noncomputable def Ref.use (r : Ref) (n : ℕ) (b : Body) : Out Ans :=
  if r.inner = true ∧ b.dof ≠ n then .ub else .ok (r.read b)

/-- The reference a call returns; `none` for the functions that return a value. -/
def Query.ref (b : Body) : Query → Option Ref
  | .rigidBody i => some (.link (b.resolve i).toNat)
  | .ancestors i => some (.ancestors (b.resolve i).toNat)
  | .subtree i => some (.subtree (b.resolve i).toNat)
  | .tToParent i => some (.toParent (b.resolve i).toNat)
  | .tToWorld i => some (.toWorld (b.resolve i).toNat)
  | .jacobian _ _ => some .jacobian
  | .linearJacobian _ _ => some .linearJacobian
  | .angularJacobian _ => some .angularJacobian
  | .centrifugalCoriolis => some .coriolis
  | .gravity => some .gravity
  | .inertia => some .inertia
  | .compositeInertia i => some (.composite (b.resolve i).toNat)
  | .inertiaInverse => some .factor
  | .inertiaInverseAba => some .inertiaInverseAba
  | .opsInertia _ _ => some .opsInertia
  | .opsInertiaInverse _ => some .opsInertiaInverse
  | .opsJbar _ _ => some .opsJbar
  | .opsInertiaAba _ _ _ => some .opsInertiaAba
  | .opsInertiaInverseAba _ _ => some .opsInertiaInverseAba
  | _ => none

end SpatialDyn
