import Verif.Props.Posture

/-!
# The Python controller with its defaults
-/

namespace SpatialDyn
open Matrix Body

variable {E : Ext} {C : Ctl} {U : C.Quat → Prop} {b : Body} {d : Bool} {T : Set ℝ}

/-- C63: `opspace_control(ab, pos, ori)` with thresholds and everything else left out makes the origin of
the last link accelerate as `-80 * error - 18 * velocity`, and the link likewise. -/
theorem C63_defaults (h : Careful E T b d) (hm : b.Massive) (hn : DefiniteForm b.dof b.inertia.1)
    (h0 : (0 : ℝ) ∈ T) (hL : C.Law U) (hd : 0 < b.dof) {xd : Vec3} {o : OriArg C} {u v : ℝ × ℝ}
    {J : ℕ → Motion} {x : Vec3} {R : Mat3} (hR : b.Reads (-1) 0 J x R)
    (hs : ¬ b.Singular E (jac6 b.dof J) 0.01) (hreg : b.Regular E T (jac6 b.dof J))
    {r : ((ℕ → ℝ) × ℕ) × Body}
    (hr : b.pyOpspaceControl E C
      { pos := some xd, ori := some o, posThreshold := some u, oriThreshold := some v } = .ok r) (q : FDOpts)
    (hg : q.gravity = true) (hq : q.friction = false)
    (hrest : q.cc = true → ∀ i < b.dof, b.dq.getD i 0 = 0) :
    let V := jacVel b.dof J b.dqFun
    jacVel b.dof J (b.fd E r.1.1 noExt q).1 =
      ⟨(-80 : ℝ) • (x - xd) - (18 : ℝ) • V.lin,
       (-80 : ℝ) • C.oriErr (C.ofRot R) o.goal - (18 : ℝ) • V.ang⟩ := by
  have key := C63_pose h hm hn h0 hL hd (a :=
    { xDes := xd, quatDes := o.goal, qDes := b.q
      kpKvPos := (⟨80, 80, 80⟩, ⟨18, 18, 18⟩), kpKvOri := (80, 18), kpKvJoint := (4, 1), xTask := 0
      quatTask := none, ddxMax := 0, dwMax := 0, xThr := u.1, dxThr := u.2, oriThr := v.1, wThr := v.2
      gravityComp := true, dt := 0 }) le_rfl le_rfl hR hs hreg hr q hg hq hrest
  refine Eq.trans key ?_
  ext <;> simp [Vec3.had, Ctl.turn, Ctl.seen]

/-- C72: the same call moves the joints, where the pose does not notice, as near as possible to
`-4 * (q - q_des) - dq`, the desired posture being the present one when left out. -/
theorem C72_defaults (h : Careful E T b d) (hD : b.Definite) (h0 : (0 : ℝ) ∈ T) (hE : E.LeastSquares 0)
    (hL : C.Law U) (hd : 0 < b.dof) {xd : Vec3} {o : OriArg C} {u v : ℝ × ℝ} {g : Option (List ℝ)}
    {J : ℕ → Motion} {x : Vec3} {R : Mat3} (hR : b.Reads (-1) 0 J x R)
    (hs : ¬ b.Singular E (jac6 b.dof J) 0.01) (hreg : b.Regular E T (jac6 b.dof J))
    {r : ((ℕ → ℝ) × ℕ) × Body}
    (hr : b.pyOpspaceControl E C
      { pos := some xd, ori := some o, joint := g, posThreshold := some u
        oriThreshold := some v } = .ok r) (q : FDOpts)
    (hg : q.gravity = true) (hq : q.friction = false)
    (hrest : q.cc = true → ∀ i < b.dof, b.dq.getD i 0 = 0) :
    let V := jacVel b.dof J b.dqFun
    b.Shares ((jac6 b.dof J).mat 6 b.dof)
      (Motion.six ⟨(-80 : ℝ) • (x - xd) - (18 : ℝ) • V.lin,
        (-80 : ℝ) • C.oriErr (C.ofRot R) o.goal - (18 : ℝ) • V.ang⟩)
      (fun i => -4 * (b.q.getD i 0 - (g.getD b.q).getD i 0) - b.dq.getD i 0)
      (vec b.dof (b.fd E r.1.1 noExt q).1) := by
  have key := C72_pose h hD h0 hE hL hd (a :=
    { xDes := xd, quatDes := o.goal, qDes := g.getD b.q
      kpKvPos := (⟨80, 80, 80⟩, ⟨18, 18, 18⟩), kpKvOri := (80, 18), kpKvJoint := (4, 1), xTask := 0
      quatTask := none, ddxMax := 0, dwMax := 0, xThr := u.1, dxThr := u.2, oriThr := v.1, wThr := v.2
      gravityComp := true, dt := 0 }) le_rfl le_rfl hR hs hreg hr q hg hq hrest
  intro V
  have e1 : (⟨(-80 : ℝ) • (x - xd) - (18 : ℝ) • V.lin,
        (-80 : ℝ) • C.oriErr (C.ofRot R) o.goal - (18 : ℝ) • V.ang⟩ : Motion) =
      ⟨-(⟨80, 80, 80⟩ : Vec3).had (x - xd) - (⟨18, 18, 18⟩ : Vec3).had (C.turn none V).lin,
        -((80 : ℝ) • C.oriErr (C.seen none R) o.goal) - (18 : ℝ) • (C.turn none V).ang⟩ := by
    ext <;> simp [Vec3.had, Ctl.turn, Ctl.seen]
  have e2 : (fun i : Fin b.dof => -4 * (b.q.getD i 0 - (g.getD b.q).getD i 0) - b.dq.getD i 0) =
      fun i : Fin b.dof => -(4 * (b.q.getD i 0 - (g.getD b.q).getD i 0)) - 1 * b.dq.getD i 0 := by
    funext i; ring
  rw [e1, e2]
  exact key

end SpatialDyn
