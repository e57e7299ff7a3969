import Verif.Lemmas.Control

/-!
# Vocabulary for inverse kinematics
-/

namespace SpatialDyn

/-- At joint positions `q` the point of the goal is within a millimetre of its goal and the
orientation of link `l` within a thousandth of its goal. -/
def IkMet (C : Ctl) (b : Body) (a : IkGoal C) (l : ℤ) (q : List ℝ) : Prop :=
  ∃ x R, b.positionQ (fun j => q.getD j 0) a.link a.offset = .ok x ∧
    b.orientationQ (fun j => q.getD j 0) l = .ok R ∧
    (x - a.xDes).dot (x - a.xDes) < 0.001 ^ 2 ∧
    (C.oriErr (C.ofRot R) a.quatDes).dot (C.oriErr (C.ofRot R) a.quatDes) < 0.001 ^ 2

/-- The torques make the tracked point and link accelerate, apart from gravity, friction and velocity
products, as the proportional-derivative laws with gains 100 and 20 ask: in position and orientation
where the Jacobian is not singular, in position where it is. -/
def IkLaw (E : Ext) (C : Ctl) (T : Set ℝ) (a : IkGoal C) (b : Body) (tau : ℕ → ℝ) : Prop :=
  DefiniteForm b.dof b.inertia.1 → ∀ J x R, b.Reads a.link a.offset J x R → ∀ o : FDOpts,
    o.gravity = false → o.friction = false → (o.cc = true → ∀ i < b.dof, b.dq.getD i 0 = 0) →
    let V := jacVel b.dof J b.dqFun
    let A := jacVel b.dof J (b.fd E tau noExt o).1
    (¬ b.Singular E (jac6 b.dof J) 0 → b.Regular E T (jac6 b.dof J) →
      A = ⟨-((100 : ℝ) • (x - a.xDes)) - (20 : ℝ) • V.lin,
        -((100 : ℝ) • C.oriErr (C.ofRot R) a.quatDes) - (20 : ℝ) • V.ang⟩) ∧
    (b.Singular E (jac6 b.dof J) 0 → b.Regular E T (jac3 b.dof J) →
      A.lin = -((100 : ℝ) • (x - a.xDes)) - (20 : ℝ) • V.lin)

/-- `n` iterations, none of them started with the goal met, lead from `b` to `b'`: each integrates the
motion under torques of the law over a millisecond, without gravity. -/
inductive IkRun (E : Ext) (C : Ctl) (T : Set ℝ) (a : IkGoal C) : ℕ → Body → Body → Prop
  | stop (b : Body) : IkRun E C T a 0 b b
  | step {n : ℕ} {b b1 b2 b' : Body} {tau : ℕ → ℝ} : ¬ IkMet C b a (-1) b.q → IkLaw E C T a b tau →
      b.integrate E tau (1 / 1000) noExt (IntOpts.make false) = .ok b1 → b2.q = b1.q →
      b2.dq = b1.dq → Body.StateOnly b b2 → (∃ d, Careful E T b2 d) → IkRun E C T a n b2 b' → IkRun E C T a (n + 1) b b'

end SpatialDyn
