import Verif.Lemmas.Same
import Verif.Lemmas.Positive
import Verif.Props.Spatial
import Mathlib.LinearAlgebra.Matrix.NonsingularInverse

/-!
# A concrete branching body

Used as a witness that hypotheses of the property theorems can be met: a root turning about z, with
a sliding child and a turning child, moving, with unequal link transforms.
-/

namespace SpatialDyn

open Classical in
/-- External functions of the witnesses: exact inverses, trivial logarithm. -/
noncomputable def ext0 : Ext where
  pinv A _ := (⟨A.cols, A.rows, fun i j => if h : i < A.rows ∧ j < A.rows then
    (toMat A.rows A.e)⁻¹ ⟨i, h.1⟩ ⟨j, h.2⟩ else 0⟩, decide ((toMat A.rows A.e).det = 0))
  pinv6 A _ := A⁻¹
  badSolve := fun _ _ _ _ => 0
  log := fun _ => 0
  dlogT := fun _ f => f

/-- Cache contents of the witness bodies. -/
def cache0 : Cache where
  tpDone := false
  Tp := fun _ => 1
  twDone := false
  Tw := fun _ => 1
  velDone := false
  v := fun _ => 0
  jacDone := false
  jacLink := 0
  jacOffset := 0
  J := fun _ => 0
  ccDone := false
  cC := fun _ => 0
  fC := fun _ => 0
  C := fun _ => 0
  gravDone := false
  fG := fun _ => 0
  G := fun _ => 0
  a := fun _ => 0
  f := fun _ => 0
  crbaDone := false
  Ic := fun _ => ⟨1, 0, 0⟩
  A := fun _ _ => 0
  invDone := false
  Afact := fun _ _ => 0
  abaDone := false
  aba := ⟨fun _ => 0, fun _ => 0, fun _ => 0⟩
  abaInvDone := false
  abaInv := fun _ _ => 0
  ops := ⟨⟨0, 0, fun _ _ => 0⟩, 0, false, ⟨0, 0, fun _ _ => 0⟩, false, ⟨0, 0, fun _ _ => 0⟩,
    ⟨0, 0, fun _ _ => 0⟩, false, false, ⟨0, 0, fun _ _ => 0⟩⟩
  opsAba := ⟨0, 0, 0, false, 0, false, 0⟩
  drnea := ⟨fun _ => 0, 0, false, fun _ => 1, fun _ => 0, false, fun _ => 1, fun _ => 0,
    fun _ => 0⟩

/-- A joint of the given type with default limits. -/
def mkJoint (t : JType) : Joint := { type := t, subspace := t.subspace }

/-- A body with the witness transform and inertia. -/
def mkRB (t : JType) : RB := { T := quarterTurn, inertia := unitInertia, joint := mkJoint t }

namespace Body

/-- The calls that build the witness. -/
noncomputable def demoOps : List Op :=
  [.addRigidBody (mkRB .rz) (-1), .addRigidBody (mkRB .px) 0, .addRigidBody (mkRB .rx) 0,
   .setQ [1, 2, 3], .setDq [1, -1, 2]]

/-- The witness body. -/
noncomputable def demo : Body where
  rbs := [{ mkRB .rz with id := 0, idParent := -1 }, { mkRB .px with id := 1, idParent := 0 },
    { mkRB .rx with id := 2, idParent := 0 }]
  q := [1, 2, 3]
  dq := [1, -1, 2]
  g := ⟨0, 0, -9.81⟩
  load := fun _ => none
  T0 := 1
  inertiaBase := ⟨1, 0, 0⟩
  anc := [[0], [0, 1], [0, 2]]
  sub := [[0, 1, 2], [1], [2]]
  c := ((((init cache0).c.expand 0).expand 1).expand 2).clearQ.clearDq

theorem demo_exec (E : Ext) : execAll E (init cache0) demoOps = some demo := by
  simp [demoOps, execAll, Op.exec, Op.step, addRigidBody, setQ, setDq, Out.map, Out.bind, init, dof,
    pushSub, demo]

theorem exec_append {E : Ext} (h1 h2 : List Op) (b : Body) :
    execAll E b (h1 ++ h2) = (execAll E b h1).bind fun b' => execAll E b' h2 := by
  induction h1 generalizing b with
  | nil => rfl
  | cons op l ih =>
    simp only [List.cons_append, execAll]
    cases op.exec E b with
    | none => rfl
    | some b1 => simp only [Option.bind_some]; exact ih b1

/-- Allowed histories give reachable bodies. -/
theorem reach_execAll {E : Ext} : ∀ (h : List Op) {b b' : Body} {d : Bool}, Reach E b d →
    (∀ op ∈ h, (match op with
      | .addRigidBody rb _ => rb.T.Valid
      | .setBase _ => False
      | .query (.opsInertiaInverseAba ..) => False
      | .query (.opsInertiaAba ..) => False
      | .query (.opsCoriolisAba ..) => False
      | .query (.opsGravityAba ..) => False
      | _ => True : Prop)) → execAll E b h = some b' → ∃ d', Reach E b' d'
  | [], _, _, _, hr, _, hs => by cases hs; exact ⟨_, hr⟩
  | op :: l, b, b', d, hr, ho, hs => by
    unfold execAll at hs
    obtain ⟨b1, h1, h2⟩ := Option.bind_eq_some_iff.1 hs
    have h0 := ho op (List.mem_cons_self ..)
    have hsafe : op.Safe b d := by
      cases op with
      | query x => cases x <;> first | trivial | exact h0.elim
      | addRigidBody rb p => exact h0
      | setBase T => exact h0.elim
      | _ => trivial
    exact reach_execAll l (Reach.step op hr hsafe h1) (fun o h => ho o (List.mem_cons_of_mem _ h)) h2

theorem demo_reach (E : Ext) : ∃ d, Reach E demo d := by
  refine reach_execAll demoOps (Reach.init cache0) ?_ (demo_exec E)
  intro op hop
  simp only [demoOps, List.mem_cons, List.not_mem_nil, or_false] at hop
  rcases hop with rfl | rfl | rfl | rfl | rfl <;> first | trivial | exact quarterTurn_valid

theorem demo_inv (E : Ext) : Inv E demo := by
  obtain ⟨d, h⟩ := demo_reach E
  exact h.inv

theorem demo_lt {i : ℕ} (hi : i < demo.dof) : i = 0 ∨ i = 1 ∨ i = 2 := by
  have : i < 3 := hi
  omega

theorem unitInertia_pd (v : Vec3) (hv : v ≠ 0) : 0 < v.dot (unitInertia.Icom.mulVec v) := by
  have h : v.x ≠ 0 ∨ v.y ≠ 0 ∨ v.z ≠ 0 := by
    by_contra hc
    push Not at hc
    exact hv (Vec3.ext hc.1 hc.2.1 hc.2.2)
  have e : v.dot (unitInertia.Icom.mulVec v) =
      (v.x + v.y) ^ 2 + 2 * v.x ^ 2 + 2 * v.y ^ 2 + 2 * v.z ^ 2 := by
    simp only [unitInertia, Mat3.mulVec, Vec3.dot]; ring
  rw [e]
  rcases h with h | h | h <;> positivity

theorem demo_itot {i : ℕ} (hi : i < demo.dof) : demo.fresh.Itot i = unitInertia := by
  rcases demo_lt hi with rfl | rfl | rfl <;> rfl

theorem demo_phys : demo.fresh.PhysPD := by
  intro i hi
  rw [demo_itot hi]
  exact ⟨by norm_num [unitInertia], unitInertia_phys.2.1, unitInertia_pd⟩

theorem demo_axes : ∀ i < demo.fresh.n, demo.fresh.S i ≠ 0 := by
  intro i hi h
  rcases demo_lt hi with rfl | rfl | rfl
  · have := congrArg (fun m : Motion => m.ang.z) h
    simp [fresh, sysWith, demo, rb, mkRB, mkJoint, JType.subspace] at this
  · have := congrArg (fun m : Motion => m.lin.x) h
    simp [fresh, sysWith, demo, rb, mkRB, mkJoint, JType.subspace] at this
  · have := congrArg (fun m : Motion => m.ang.x) h
    simp [fresh, sysWith, demo, rb, mkRB, mkJoint, JType.subspace] at this

theorem demo_massPD (E : Ext) : demo.fresh.MassPD :=
  (demo_inv E).wf.massPD demo_phys demo_axes

end Body
end SpatialDyn
