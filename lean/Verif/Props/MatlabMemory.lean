import Verif.Props.Matlab
import Verif.Props.MatlabSession
import Verif.Props.MatlabArgs

/-!
# C93: what a call leaves behind in a MATLAB session
-/

namespace SpatialDyn
namespace Mex

open Function Body

variable {E : Ext} {C : Ctl} {X : UrdfExt} {A : Alloc} {s : Session} {b : Body} {d : Bool}

/-- A command gives an array and leaves behind at address `a` a body with the property `P`; the variables
stay. -/
def Leaves (E : Ext) (C : Ctl) (X : UrdfExt) (A : Alloc) (s : Session) (c : Cmd) (a : ℕ) (P : Body → Prop) :
    Prop :=
  ∃ o t b', s.step E C X A c = .ok (some o, t) ∧ t.vars = s.vars ∧ t.heap a = some b' ∧ P b'

theorem leaves {x a : ℕ} (hx : s.vars x = some a) (h0 : a ≠ 0) (hb : s.heap a = some b) {f : Fn}
    {args : List Val} {o : Arr} {b' : Body} {i : Option ℕ} {P : Body → Prop}
    (hf : f.run E C b s.ik args = .ok ((some o, b'), i)) (hP : P b') :
    Leaves E C X A s (.call x f args) a P := by
  refine ⟨o, { s with heap := update s.heap a (some b'), ik := i, time := s.time + 1 }, b', ?_, rfl,
    update_self .., hP⟩
  rw [step_call hx h0, hb]
  simp only [hf, Out.bind]

/-- C93: the positions of the last column stay set in the robot after a call; a call without columns
leaves the robot as it was. -/
theorem C93_remembers {x a : ℕ} (hx : s.vars x = some a) (h0 : a ≠ 0) (hb : s.heap a = some b)
    (h : Reach E b d) (hm : b.Massive) {Q : Arr} {ds : List ℕ} (hQ : Q.dims = b.dof :: ds) (rest : List Val) :
    Leaves E C X A s (.call x .inertia (.num Q :: rest)) a (fun b' => LeftQ b b' Q) ∧
    Leaves E C X A s (.call x .gravity (.num Q :: rest)) a (fun b' => LeftQ b b' Q) ∧
    (0 < b.dof → Leaves E C X A s (.call x .hessian (.num Q :: rest)) a fun b' => LeftQ b b' Q) := by
  refine ⟨?_, ?_, fun hd => ?_⟩
  · obtain ⟨A', b', h1, h2, -⟩ := C83_inertia h hm hQ rest
    exact leaves hx h0 hb (f := .inertia) (by simp only [Fn.run, h1, Out.bind]; rfl) h2
  · obtain ⟨A', b', h1, h2, -⟩ := C83_gravity h hm hQ rest
    exact leaves hx h0 hb (f := .gravity) (by simp only [Fn.run, h1, Out.bind]; rfl) h2
  · obtain ⟨A', b', h1, h2, -⟩ := C83_hessian h hm hd hQ rest
    exact leaves hx h0 hb (f := .hessian) (by simp only [Fn.run, h1, Out.bind]; rfl) h2

/-- C93: also for the functions that take velocities. -/
theorem C93_remembers_velocities {x a : ℕ} (hx : s.vars x = some a) (h0 : a ≠ 0) (hb : s.heap a = some b)
    (h : Reach E b d) (hm : b.Massive) {Q dQ ddQ : Arr} {n : ℕ} (hQ : Q.dims = [b.dof, n])
    (hdQ : dQ.dims = [b.dof, n]) (hddQ : ddQ.dims = [b.dof, n]) (rest : List Val) :
    Leaves E C X A s (.call x .centrifugalCoriolis (.num Q :: .num dQ :: rest)) a
      (fun b' => LeftQDq b b' Q dQ) ∧
    Leaves E C X A s (.call x .inverseDynamics (.num Q :: .num dQ :: .num ddQ :: rest)) a
      (fun b' => LeftQDq b b' Q dQ) ∧
    Leaves E C X A s (.call x .velocityDerivative (.num Q :: .num dQ :: .num ddQ :: rest)) a
      (fun b' => LeftQDq b b' Q dQ) ∧
    (b.hasChild = false →
      Leaves E C X A s (.call x .positionDerivative (.num Q :: .num dQ :: .num ddQ :: rest)) a
        fun b' => LeftQDq b b' Q dQ) := by
  refine ⟨?_, ?_, ?_, fun hc => ?_⟩
  · obtain ⟨A', b', h1, h2, -⟩ := C83_centrifugal_coriolis h hm hQ hdQ rest
    exact leaves hx h0 hb (f := .centrifugalCoriolis) (by simp only [Fn.run, h1, Out.bind]; rfl) h2
  · obtain ⟨A', b', h1, h2, -⟩ := C83_inverse_dynamics h hm hQ hdQ hddQ rest
    exact leaves hx h0 hb (f := .inverseDynamics) (by simp only [Fn.run, h1, Out.bind]; rfl) h2
  · obtain ⟨A', b', h1, h2, -⟩ := C83_velocity_derivative h hm hQ hdQ hddQ rest
    exact leaves hx h0 hb (f := .velocityDerivative) (by simp only [Fn.run, h1, Out.bind]; rfl) h2
  · obtain ⟨A', b', h1, h2, -⟩ := C83_position_derivative h hm hc hQ hdQ hddQ rest
    exact leaves hx h0 hb (f := .positionDerivative) (by simp only [Fn.run, h1, Out.bind]; rfl) h2

/-- C93: and for `jacobian_dynamic_inverse`. -/
theorem C93_remembers_inverse {x a : ℕ} (hx : s.vars x = some a) (h0 : a ≠ 0) (hb : s.heap a = some b)
    (h : Careful E {0} b d) (hd : 0 < b.dof) {Q : Arr} {ds : List ℕ} (hQ : Q.dims = b.dof :: ds) :
    Leaves E C X A s (.call x .jacobianDynamicInverse [.num Q]) a fun b' => LeftQ b b' Q := by
  obtain ⟨A', b', h1, h2, -⟩ := C83_jacobian_dynamic_inverse h hd hQ
  exact leaves hx h0 hb (f := .jacobianDynamicInverse) (by simp only [Fn.run, h1, Out.bind]; rfl) h2

/-- After `gravity(x, Q)` with two columns the robot of `x` is in the configuration of the second one. -/
example (C : Ctl) (X : UrdfExt) (A : Alloc) (s : Session) {x a : ℕ} (hx : s.vars x = some a) (h0 : a ≠ 0)
    (hb : s.heap a = some flyer0) : ∃ o t b' B, s.step ext0 C X A (.call x .gravity
      [.num ⟨[flyer0.dof, 2], fun k => k⟩]) = .ok (some o, t) ∧ t.heap a = some b' ∧
      flyer0.setQ [6, 7, 8, 9, 10, 11] = .ok B ∧ B.ObsEq b' := by
  obtain ⟨d, h⟩ := flyer_reach ext0
  change Reach ext0 flyer0 d at h
  obtain ⟨o, t, b', h1, -, h2, -, h3⟩ := (C93_remembers (C := C) (X := X) (A := A) hx h0 hb h
    (flyer_definite.massive h.inv.tree) (Q := ⟨[flyer0.dof, 2], fun k => k⟩) (ds := [2]) rfl []).2.1
  obtain ⟨B, hB, hO⟩ := h3 (by simp)
  refine ⟨o, t, b', B, h1, h2, ?_, hO⟩
  rw [← hB]
  congr 1

end Mex
end SpatialDyn
