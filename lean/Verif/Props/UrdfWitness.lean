import Verif.Props.Urdf
import Mathlib.Analysis.SpecialFunctions.Trigonometric.Basic

/-!
# C46, C47, C69–C71: examples of URDF files
-/

namespace SpatialDyn

/-- Numbers that are enough for the examples. -/
noncomputable def xnum : UrdfExt where
  dbl
    | ['0'] => some (.fin 0)
    | ['1'] => some (.fin 1)
    | ['2'] => some (.fin 2)
    | ['3'] => some (.fin 3)
    | ['4'] => some (.fin 4)
    | _ => none
  vec3
    | ['z'] => .ok ⟨0, 0, 1⟩
    | ['m'] => .ok ⟨0, 0, -1⟩
    | ['h'] => .ok ⟨Real.pi / 2, Real.pi / 2, 0⟩
    | _ => .throws
  vec4
    | ['r'] => .ok ⟨1, 0, 0, 1⟩
    | _ => .throws
  join p f := p ++ ['/'] ++ f

noncomputable def n0 : UReal xnum := ⟨['0'], 0, rfl⟩
noncomputable def n1 : UReal xnum := ⟨['1'], 1, rfl⟩
noncomputable def n2 : UReal xnum := ⟨['2'], 2, rfl⟩
noncomputable def n3 : UReal xnum := ⟨['3'], 3, rfl⟩
noncomputable def n4 : UReal xnum := ⟨['4'], 4, rfl⟩
noncomputable def vz : UVec xnum := ⟨['z'], ⟨0, 0, 1⟩, rfl⟩
noncomputable def vm : UVec xnum := ⟨['m'], ⟨0, 0, -1⟩, rfl⟩
noncomputable def vh : UVec xnum := ⟨['h'], ⟨Real.pi / 2, Real.pi / 2, 0⟩, rfl⟩

/-- An inertial with the given rotation. -/
noncomputable def inertialOf (rpy : Option (UVec xnum)) : UInertial xnum :=
  ⟨some ⟨some vz, rpy⟩, n2, n2, n3, n4, n0, n0, n0⟩

/-- A red box. -/
noncomputable def redBox : UVisual xnum :=
  ⟨some ['v'], some ⟨some vz, none⟩, .box vz, some ⟨['r'], some ⟨(['r'], ⟨1, 0, 0, 1⟩), rfl⟩, none⟩, none⟩

/-- A box with a texture inside `<geometry>`. -/
noncomputable def wornBox : UVisual xnum :=
  ⟨none, none, .box vz, none, some ⟨['w'], none, some ['f']⟩⟩

example : ∃ g, parseGraphics xnum [] wornBox.xml = .ok g ∧
    g.material = { name := ['w'], rgba := ⟨1, 1, 1, 1⟩, texture := ['f'] } :=
  ⟨_, parseGraphics_eq _, rfl⟩

/-- Base, arm on a revolute joint, tool fixed to the arm; `a` is the axis of the joint.  Its effort
limit cannot be read. -/
noncomputable def armOf (rpy : Option (UVec xnum)) (a : Option (UVec xnum)) : Robot xnum where
  name := ['R']
  links := [⟨['b'], none, []⟩, ⟨['a'], some (inertialOf rpy), [redBox]⟩, ⟨['t'], some (inertialOf none), [redBox]⟩]
  joints := [
    ⟨['1'], .revolute, ['b'], ['a'], some ⟨some vz, none⟩, a, some ⟨some ⟨['1'], some (.fin 1), rfl⟩, none, none⟩,
      some ⟨some ⟨['0'], some (.fin 0), rfl⟩, some ⟨['3'], some (.fin 3), rfl⟩, none, some ⟨['x'], none, rfl⟩⟩⟩,
    ⟨['2'], .fixed, ['a'], ['t'], some ⟨some vz, some vh⟩, none, none, none⟩]

theorem armOf_names (rpy a : Option (UVec xnum)) : (armOf rpy a).names = [['b'], ['a'], ['t']] := rfl

theorem armOf_sound (rpy a : Option (UVec xnum)) : (armOf rpy a).Sound := by
  refine ⟨⟨by rw [armOf_names]; decide, ?_, ?_, ?_, ?_⟩, by rw [armOf_names]; decide⟩
  · intro j hj
    rw [armOf_names]
    simp only [armOf, List.mem_cons, List.not_mem_nil, or_false] at hj
    rcases hj with rfl | rfl <;> simp
  · show [['a'], ['t']].Nodup
    decide
  · intro j hj
    simp only [armOf, List.mem_cons, List.not_mem_nil, or_false] at hj
    rcases hj with rfl | rfl
    · intro _
      simp [URJoint.lower, URJoint.upper, URJoint.velocity, URJoint.effort, URJoint.damping,
        URJoint.friction, URJoint.coulomb, numOr, Dbl.Lt]
    · intro hk; exact absurd rfl hk
  · intro l hl i hi
    simp only [armOf, List.mem_cons, List.not_mem_nil, or_false] at hl
    rcases hl with rfl | rfl | rfl
    · cases hi
    · cases hi; exact two_pos
    · cases hi; exact two_pos

theorem armOf_root (rpy a : Option (UVec xnum)) : (armOf rpy a).Root ['b'] := by
  rfl

theorem armOf_below (rpy a : Option (UVec xnum)) : ∀ x ∈ (armOf rpy a).names, (armOf rpy a).Below ['b'] x := by
  intro x hx
  have e : (armOf rpy a).names = [['b'], ['a'], ['t']] := rfl
  have ha : Under (armOf rpy a).parent (armOf rpy a).names ['b'] 1 ['a'] :=
    .down (by rw [e]; decide) .here
  rw [e] at hx
  simp only [List.mem_cons, List.not_mem_nil, or_false] at hx
  rcases hx with rfl | rfl | rfl
  · exact ⟨0, .here⟩
  · exact ⟨1, ha⟩
  · exact ⟨2, .down (by rw [e]; decide) ha⟩

/-- The hypotheses of C46, C47 and C70 are met. -/
example : ∃ P car, (armOf none (some vz)).Layout ['b'] P car :=
  (C46_layout (armOf_sound _ _) (armOf_root _ _)).1

/-- No material is inside `<geometry>`. -/
example : ∀ l ∈ (armOf none (some vz)).links, ∀ v ∈ l.visuals, v.inner = none := by
  simp [armOf, redBox]

/-- The arm is loaded without an effort limit. -/
example (c : Cache) (simple : Bool) : ∃ n i, loadModel xnum c (some [(armOf none (some vz)).xml]) [] simple =
    .ok n ∧ (n.tags.getD i {}).name = ['a'] ∧ (n.body.rb i).joint.fqMax = .pinf := by
  obtain ⟨n, h1, h2⟩ := C69_violated_number (path := []) (armOf_sound none (some vz)) (by simp [armOf])
    (armOf_root _ _) (top := [(armOf none (some vz)).xml]) rfl c simple
  obtain ⟨i, -, h3, -, -, -, h4⟩ := h2 _ (.head _) (by simp)
    (armOf_below none (some vz) _ (by rw [armOf_names]; simp)) _ rfl
  exact ⟨n, i, h1, h3, h4 _ rfl rfl⟩

/-- With simplification the arm is one body: the tool is carried by it. -/
example (c : Cache) : ∃ n, loadModel xnum c (some [(armOf none (some vz)).xml]) [] true = .ok n ∧
    n.tags.map Tag.name = [['a']] := by
  obtain ⟨P, car, hL⟩ := (C46_layout (armOf_sound none (some vz)) (armOf_root _ _)).1
  obtain ⟨I, J, G, -, h⟩ := C46_loaded (path := []) ext0 (armOf_sound none (some vz)) (by simp [armOf])
    (armOf_root _ _) hL (top := [(armOf none (some vz)).xml]) rfl c
  obtain ⟨n, h1, -, h2⟩ := h true
  refine ⟨n, h1, ?_⟩
  have hb := armOf_below none (some vz)
  rw [armOf_names] at hb
  have hca : car ['a'] = ['a'] := hL.moving _ (.head _) (hb _ (by simp)) (by simp)
  have hct : car ['t'] = ['a'] := by
    have := hL.fixed _ (.tail _ (.head _)) (hb _ (by simp)) rfl
    exact this.trans hca
  rw [← List.perm_singleton, List.perm_ext_iff_of_nodup h2.distinct (by simp)]
  intro x
  rw [h2.bodies]
  simp only [if_true, List.mem_singleton]
  constructor
  · rintro ⟨k1, k2, k3⟩
    have := Robot.below_mem (rob := armOf none (some vz)) (by rw [armOf_names]; simp) k1
    rw [armOf_names] at this
    simp only [List.mem_cons, List.not_mem_nil, or_false] at this
    rcases this with rfl | rfl | rfl
    · exact absurd rfl k2
    · rfl
    · rw [hct] at k3; exact absurd k3 (by decide)
  · rintro rfl
    exact ⟨hb _ (by simp), by decide, hca⟩

theorem tiltR : (originPose (inertialOf (some vh)).origin).R = ⟨0, 1, 0, 0, 0, -1, -1, 0, 0⟩ := by
  simp [inertialOf, originPose, rpyMatrix, vh]

/-- **C47, inertia, violated.** With the inertial frame turned by a quarter turn about x and then one
about y, the tensor `diag(2, 3, 4)` arrives turned the wrong way: the inertia of the body is not the one
described. -/
theorem C47_violated_tensor (c : Cache) :
    ∃ n, loadModel xnum c (some [(armOf (some vh) (some vz)).xml]) [] false = .ok n ∧
      ∃ i < n.body.dof, (n.tags.getD i {}).name = ['a'] ∧
        ∃ v, (n.body.rb i).inertia.app v ≠ ((armOf (some vh) (some vz)).described ['a']).app v := by
  have hS := armOf_sound (some vh) (some vz)
  obtain ⟨P, car, hL⟩ := (C46_layout hS (armOf_root _ _)).1
  obtain ⟨I, J, G, hR, h⟩ := C46_loaded (path := []) ext0 hS (by simp [armOf])
    (armOf_root _ _) hL (top := [(armOf (some vh) (some vz)).xml]) rfl c
  obtain ⟨n, h1, -, h2⟩ := h false
  have hb := armOf_below (some vh) (some vz)
  have hm : (['a'] : Str) ∈ n.tags.map Tag.name :=
    (h2.bodies _).2 ⟨hb _ (by rw [armOf_names]; simp), by decide, rfl⟩
  obtain ⟨i, hi, e⟩ := List.getElem_of_mem hm
  rw [List.length_map] at hi
  have e1 : (n.tags.getD i {}).name = ['a'] := by
    rw [List.getD_eq_getElem?_getD, List.getElem?_eq_getElem hi]
    simpa using e
  have hlt : i < n.body.dof := by rw [← h2.count]; exact hi
  refine ⟨n, h1, i, hlt, e1, ⟨0, ⟨1, 0, 0⟩⟩, ?_⟩
  have hin := (h2.body i hlt).inertia ⟨0, ⟨1, 0, 0⟩⟩
  rw [e1] at hin
  have hPv : (P ['a']).Valid :=
    Robot.layout_valid hS (by rw [armOf_names]; simp) hL (hb _ (by rw [armOf_names]; simp))
  have hc : (armOf (some vh) (some vz)).carried ['b'] id ['a'] = [['a']] := by
    unfold Robot.carried
    rw [List.filter_congr (q := fun y => y == (['a'] : Str)) (fun y _ => by
      rw [Bool.eq_iff_iff]
      simp only [id, decide_eq_true_eq, beq_iff_eq, and_iff_right_iff_imp]
      rintro rfl
      exact hb _ (by rw [armOf_names]; simp)), armOf_names]
    decide
  simp only [Bool.false_eq_true, if_false, hc, List.map_cons, List.map_nil, List.sum_cons, List.sum_nil,
    add_zero, hPv.inv_mul, actI_one] at hin
  rw [hin]
  have q1 := hR.mass _ (.tail _ (.head _)) (inertialOf (some vh)) rfl
  have q2 := hR.com _ (.tail _ (.head _)) (inertialOf (some vh)) rfl
  have q3 := hR.tensor _ (.tail _ (.head _)) (inertialOf (some vh)) rfl
  have hI : I ['a'] = ⟨2, ⟨0, 0, 1⟩, ⟨4, 0, 0, 0, 2, 0, 0, 0, 3⟩⟩ := by
    ext1
    · exact q1
    · exact q2
    · refine q3.trans ?_
      rw [tiltR]
      ext <;> simp [inertialOf, UInertial.tensor, Mat3.T, n0, n2, n3, n4]
  have hD : (armOf (some vh) (some vz)).described ['a'] = ⟨2, ⟨0, 0, 1⟩, ⟨3, 0, 0, 0, 4, 0, 0, 0, 2⟩⟩ := by
    show (inertialOf (some vh)).inertia = _
    unfold UInertial.inertia
    rw [tiltR]
    ext <;> simp [inertialOf, UInertial.tensor, Mat3.T, n0, n2, n3, n4, originPose, vz]
  rw [hI, hD]
  intro hx
  have := congrArg (fun f : Force => f.ang.x) hx
  norm_num [Inertia.app, Vec3.cross, Mat3.mulVec] at this

/-! ## Other files -/

/-- Links without content and revolute joints without content. -/
def plain (ls : List Str) (js : List (Str × Str)) : Robot xnum where
  name := ['R']
  links := ls.map fun x => ⟨x, none, []⟩
  joints := js.map fun j => ⟨['j'], .revolute, j.1, j.2, none, none, none, none⟩

theorem plain_names (ls : List Str) (js : List (Str × Str)) : (plain ls js).names = ls := by
  simp [plain, Robot.names, Function.comp_def]

theorem plain_consistent {ls : List Str} {js : List (Str × Str)} (h1 : ls.Nodup)
    (h2 : ∀ j ∈ js, j.1 ∈ ls ∧ j.2 ∈ ls) (h3 : (js.map Prod.snd).Nodup) : (plain ls js).Consistent := by
  refine ⟨by rw [plain_names]; exact h1, ?_, ?_, ?_, ?_⟩
  · intro j hj
    obtain ⟨k, hk, rfl⟩ := List.mem_map.1 hj
    rw [plain_names]
    exact h2 k hk
  · simpa [plain, Function.comp_def] using h3
  · intro j hj
    obtain ⟨k, hk, rfl⟩ := List.mem_map.1 hj
    intro _
    simp [URJoint.lower, URJoint.upper, URJoint.velocity, URJoint.effort, URJoint.damping,
      URJoint.friction, URJoint.coulomb, numOr, Dbl.Lt]
  · intro l hl i hi
    obtain ⟨k, hk, rfl⟩ := List.mem_map.1 hl
    cases hi

/-- Two trees in one file: the link `s` is lost. -/
example (c : Cache) : ∃ n, loadModel xnum c (some [(plain [['b'], ['a'], ['s']] [(['b'], ['a'])]).xml]) [] true =
    .ok n ∧ (['s'] : Str) ∉ n.tags.map Tag.name ∧ (['s'] : Str) ≠ ['b'] := by
  refine C46_violated_dropped (rob := plain [['b'], ['a'], ['s']] [(['b'], ['a'])])
    ⟨plain_consistent (by decide) (by decide) (by decide), by rw [plain_names]; decide⟩ (by simp [plain])
    rfl ?_ rfl c true
  rintro ⟨n, hn⟩
  cases hn with
  | down hm hu =>
    have : (plain [['b'], ['a'], ['s']] [(['b'], ['a'])]).parent ['s'] = [] := rfl
    rw [this] at hu
    cases hu with
    | down hm' _ => rw [plain_names] at hm'; exact absurd hm' (by decide)

/-- A single link. -/
example (c : Cache) : loadModel xnum c (some [(plain [['b']] []).xml]) [] true = .throws :=
  C46_violated_single (rob := plain [['b']] []) (plain_consistent (by decide) (by decide) (by decide)) rfl rfl c true

/-- A ring. -/
example (c : Cache) : loadModel xnum c
    (some [(plain [['b'], ['a']] [(['b'], ['a']), (['a'], ['b'])]).xml]) [] true = .ub := by
  refine C69_violated_ring (rob := plain [['b'], ['a']] [(['b'], ['a']), (['a'], ['b'])])
    ⟨plain_consistent (by decide) (by decide) (by decide), by rw [plain_names]; decide⟩ (by simp [plain])
    (by simp [plain]) ?_ rfl c true
  intro x hx
  rw [plain_names] at hx
  simp only [List.mem_cons, List.not_mem_nil, or_false] at hx
  rcases hx with rfl | rfl <;> rfl

/-- An empty name. -/
example (c : Cache) : loadModel xnum c (some [(plain [[], ['a']] [([], ['a'])]).xml]) [] true = .ub :=
  C69_violated_empty_name (rob := plain [[], ['a']] [([], ['a'])])
    (plain_consistent (by decide) (by decide) (by decide)) (by simp [plain]) rfl rfl rfl rfl c true

/-- A joint of type `screw` is left out. -/
example (c : Cache) : loadModel xnum c (some [(plain [['b'], ['a'], ['s']] [(['b'], ['a'])]).xmlWith
    [.elem .joint [(.name, ['k']), (.type, "screw".toList)]
      [.elem .parent [(.link, ['a'])] [], .elem .child [(.link, ['s'])] []]]]) [] true =
    loadModel xnum c (some [(plain [['b'], ['a'], ['s']] [(['b'], ['a'])]).xml]) [] true :=
  C69_violated_unknown_type (plain_consistent (by decide) (by decide) (by decide)) (by simp [plain])
    (by simp [plain]) _ _ _ _ (by rw [plain_names]; decide) (by rw [plain_names]; decide) (by decide) c true

/-- A joint whose parent is not a link. -/
example (c : Cache) : loadModel xnum c (some [(plain [['b'], ['a']] [(['b'], ['a'])]).xmlWith
    [.elem .joint [(.name, ['k']), (.type, "fixed".toList)]
      [.elem .parent [(.link, ['x'])] [], .elem .child [(.link, ['a'])] []]]]) [] true = .throws :=
  C69_bad_joint (rob := plain [['b'], ['a']] [(['b'], ['a'])])
    (plain_consistent (by decide) (by decide) (by decide)) (by simp [plain]) _ _ _ _ [] (by simp)
    (.inl (by rw [plain_names]; decide)) rfl c true

/-- A joint without child. -/
example (c : Cache) : loadModel xnum c (some [(plain [['b'], ['a']] [(['b'], ['a'])]).xmlWith
    [.elem .joint [(.name, ['k']), (.type, "fixed".toList)] [.elem .parent [(.link, ['a'])] []]]]) [] true = .ub :=
  C69_violated_no_child (rob := plain [['b'], ['a']] [(['b'], ['a'])])
    (plain_consistent (by decide) (by decide) (by decide)) (by simp [plain]) _ _ _
    (by rw [plain_names]; decide) rfl c true

/-- An axis along −z ends up along x. -/
example (c : Cache) : ∃ n, loadModel xnum c (some [(armOf none (some vm)).xml]) [] true = .ok n ∧
    ∃ i < n.body.dof, (n.body.rb i).joint.subspace = ⟨0, ⟨1, 0, 0⟩⟩ := by
  obtain ⟨n, h1, h2⟩ := C47_violated_axis (path := []) (armOf_sound none (some vm)) (by simp [armOf])
    (armOf_root _ _) (top := [(armOf none (some vm)).xml]) rfl c true
  obtain ⟨i, hi, -, h3⟩ := h2 _ (.head _) (by simp) (armOf_below _ _ _ (by rw [armOf_names]; simp))
  obtain ⟨h4, -⟩ := h3 (by simp [URJoint.axisDir, vm]) (by simp [URJoint.axisDir, vm])
  exact ⟨n, h1, i, hi, h4.1⟩

/-- A frame that is not turned: the inertia is the one described. -/
example : ∀ l ∈ [(⟨['a'], some (inertialOf none), []⟩ : URLink xnum)], ∃ i, l.inertial = some i ∧
    (originPose i.origin).R.T * i.tensor * (originPose i.origin).R =
      (originPose i.origin).R * i.tensor * (originPose i.origin).R.T := by
  intro l hl
  rw [List.mem_singleton] at hl
  subst hl
  exact ⟨_, rfl, C47_inertia_straight _ rfl⟩

/-- The red box of the arm is shown white. -/
example : (⟨['r'], some ⟨(['r'], ⟨1, 0, 0, 1⟩), rfl⟩, none⟩ : UMaterial xnum).stored ≠ {} := by
  intro h
  have := congrArg (fun m : Material => m.name) h
  simp [UMaterial.stored] at this

end SpatialDyn
