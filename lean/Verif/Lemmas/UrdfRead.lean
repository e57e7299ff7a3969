import Verif.Lemmas.UrdfAdd
import Verif.Lemmas.Coherence

/-!
# Reading the elements of a URDF file
-/

namespace SpatialDyn

variable {X : UrdfExt} {path : Str}

theorem ofRpy_eq (v : Vec3) : ofRpy v = rpyMatrix v.x v.y v.z := by
  unfold ofRpy rpyMatrix JType.Tjoint
  ext <;> simp <;> ring

theorem originPose_valid (o : Option (UOrigin X)) : (originPose o).Valid := by
  rcases o with _ | ⟨a, _ | b⟩
  · exact Mat3.isRot_one
  · exact Mat3.isRot_one
  · show (rpyMatrix _ _ _).IsRot
    rw [← ofRpy_eq]
    exact Mat3.IsRot.mul (Mat3.IsRot.mul (JType.Tjoint_valid _ _) (JType.Tjoint_valid _ _))
      (JType.Tjoint_valid _ _)

@[simp] theorem Xml.attr_nil (n : XName) (k : List Xml) (a : XAttr) : (Xml.elem n [] k).attr a = none := rfl

theorem Xml.attr_cons (n : XName) (k : List Xml) (a b : XAttr) (s : Str) (l : List (XAttr × Str)) :
    (Xml.elem n ((b, s) :: l) k).attr a = if a = b then some s else (Xml.elem n l k).attr a := by
  by_cases h : a = b
  · subst h; simp [Xml.attr]
  · have : (a == b) = false := by simpa using h
    simp [Xml.attr, List.lookup_cons, this, h]

theorem Xml.first_cons (n m : XName) (a : List (XAttr × Str)) (k : List Xml) (y : Xml) :
    (Xml.elem n a (y :: k)).first m = if y.name = m then some y else (Xml.elem n a k).first m := by
  by_cases h : y.name = m
  · simp [Xml.first, Xml.firstIn, Xml.kids, h]
  · simp [Xml.first, Xml.firstIn, Xml.kids, h]

@[simp] theorem Xml.first_nil (n m : XName) (a : List (XAttr × Str)) :
    (Xml.elem n a []).first m = none := rfl

@[simp] theorem Xml.name_elem (n : XName) (a : List (XAttr × Str)) (k : List Xml) :
    (Xml.elem n a k).name = n := rfl

@[simp] theorem UOrigin.xml_name (o : UOrigin X) : o.xml.name = .origin := rfl
@[simp] theorem UInertial.xml_name (o : UInertial X) : o.xml.name = .inertial := rfl
@[simp] theorem UVisual.xml_name (o : UVisual X) : o.xml.name = .visual := rfl
@[simp] theorem UMaterial.xml_name (o : UMaterial X) : o.xml.name = .material := rfl
@[simp] theorem URLink.xml_name (o : URLink X) : o.xml.name = .link := rfl
@[simp] theorem URJoint.xml_name (o : URJoint X) : o.xml.name = .joint := rfl
@[simp] theorem UDynamics.xml_name (o : UDynamics X) : o.xml.name = .dynamics := rfl
@[simp] theorem ULimit.xml_name (o : ULimit X) : o.xml.name = .limit := rfl

theorem parseOrigin_eq {x : Xml} {o : Option (UOrigin X)} (h : x.first .origin = o.map UOrigin.xml) :
    parseOrigin X x = .ok ((originPose o).t, (originPose o).R) := by
  unfold parseOrigin
  rw [h]
  rcases o with _ | ⟨_ | a, _ | b⟩
  · rfl
  all_goals simp [Out.ifSome, UOrigin.xml, optAttr, Xml.attr_cons, Out.bind, Out.map, originPose, ofRpy_eq, UVec.reads]

theorem UInertial.first_origin (i : UInertial X) : i.xml.first .origin = i.origin.map UOrigin.xml := by
  unfold UInertial.xml
  rcases i.origin with _ | o <;> simp [Xml.first_cons]

theorem UInertial.first_mass (i : UInertial X) :
    i.xml.first .mass = some (.elem .mass [(.value, i.mass.text)] []) := by
  unfold UInertial.xml
  rcases i.origin with _ | o <;> simp [Xml.first_cons]

theorem UInertial.first_inertia (i : UInertial X) :
    i.xml.first .inertia = some (.elem .inertia [(.ixx, i.ixx.text), (.ixy, i.ixy.text), (.ixz, i.ixz.text),
       (.iyy, i.iyy.text), (.iyz, i.iyz.text), (.izz, i.izz.text)] []) := by
  unfold UInertial.xml
  rcases i.origin with _ | o <;> simp [Xml.first_cons]

theorem parseReal_eq {x : Xml} {k : XAttr} (v : UReal X) (h : x.attr k = some v.text) :
    parseReal X x k = .ok v.val := by
  simp [parseReal, parseDbl, h, Out.ofOption, Out.bind, v.reads, Dbl.real]

/-- The tensor as it is stored. -/
noncomputable def UInertial.read (i : UInertial X) : Inertia :=
  ⟨i.mass.val, (originPose i.origin).t,
    (originPose i.origin).R.T * i.tensor * (originPose i.origin).R⟩

theorem UInertial.read_symm (i : UInertial X) : i.read.Icom.IsSymm := by
  unfold UInertial.read UInertial.tensor
  generalize (originPose i.origin).R = R
  show Mat3.T _ = _
  ext <;> simp [Mat3.T] <;> ring

theorem parseInertial_eq (i : UInertial X) (h : 0 < i.mass.val) :
    parseInertial X i.xml = .ok i.read := by
  unfold parseInertial
  rw [parseOrigin_eq i.first_origin]
  simp only [Out.bind, parseElement, i.first_mass, i.first_inertia, Out.ofOption]
  rw [parseReal_eq i.mass (by simp [Xml.attr_cons])]
  simp only
  rw [parseReal_eq i.ixx (by simp [Xml.attr_cons])]
  simp only
  rw [parseReal_eq i.iyy (by simp [Xml.attr_cons])]
  simp only
  rw [parseReal_eq i.izz (by simp [Xml.attr_cons])]
  simp only
  rw [parseReal_eq i.ixy (by simp [Xml.attr_cons])]
  simp only
  rw [parseReal_eq i.ixz (by simp [Xml.attr_cons])]
  simp only
  rw [parseReal_eq i.iyz (by simp [Xml.attr_cons])]
  simp only
  rw [if_neg (not_lt.2 h.le)]
  exact congrArg Out.ok (C05_flat_round_trip i.read i.read_symm)

/-! ## Visuals -/

theorem parseAttribute_eq {x : Xml} {k : XAttr} {s : Str} (h : x.attr k = some s) :
    parseAttribute x k = .ok s := by simp [parseAttribute, h, Out.ofOption]

theorem parseGeometry_eq (s : UShape X) : parseGeometry X path s.xml = .ok (s.geometry path) := by
  rcases s with s | ⟨r, l⟩ | r | ⟨f, _ | s⟩
  · simp only [parseGeometry, UShape.xml, Xml.name_elem]
    rw [parseAttribute_eq (s := s.text) (by simp [Xml.attr_cons])]
    simp [Out.bind, s.reads, UShape.geometry]
  · simp only [parseGeometry, UShape.xml, Xml.name_elem]
    rw [parseReal_eq r (by simp [Xml.attr_cons]), parseReal_eq l (by simp [Xml.attr_cons])]
    rfl
  · simp only [parseGeometry, UShape.xml, Xml.name_elem]
    rw [parseReal_eq r (by simp [Xml.attr_cons])]
    rfl
  · simp only [parseGeometry, UShape.xml, Xml.name_elem, optAttr]
    rw [parseAttribute_eq (s := f) (by simp [Xml.attr_cons])]
    simp [Out.bind, UShape.geometry, Xml.attr_cons, Out.ifSome]
  · simp only [parseGeometry, UShape.xml, Xml.name_elem, optAttr]
    rw [parseAttribute_eq (s := f) (by simp [Xml.attr_cons])]
    simp [Out.bind, UShape.geometry, Xml.attr_cons, Out.ifSome, s.reads]

theorem UShape.xml_name_ne (s : UShape X) : s.xml.name ≠ .material := by
  rcases s with s | ⟨r, l⟩ | r | ⟨f, s⟩ <;> simp [UShape.xml]

/-- A visual as it is stored. -/
noncomputable def UVisual.read (path : Str) (v : UVisual X) : Graphics :=
  { name := v.name.getD [], T := originPose v.origin, geometry := v.shape.geometry path,
    material := (v.inner.map UMaterial.stored).getD {} }

theorem UVisual.first_origin (v : UVisual X) : v.xml.first .origin = v.origin.map UOrigin.xml := by
  unfold UVisual.xml
  rcases v.origin with _ | o <;> rcases v.material with _ | m <;> simp [Xml.first_cons]

theorem UVisual.first_geometry (v : UVisual X) :
    v.xml.first .geometry = some (.elem .geometry [] (v.shape.xml :: (v.inner.map UMaterial.xml).toList)) := by
  unfold UVisual.xml
  rcases v.origin with _ | o <;> rcases v.material with _ | m <;> simp [Xml.first_cons]

theorem parseMaterial_eq (s : UShape X) (m : Option (UMaterial X)) :
    parseMaterial X (.elem .geometry [] (s.xml :: (m.map UMaterial.xml).toList)) =
      .ok ((m.map UMaterial.stored).getD {}) := by
  rcases m with _ | m
  · simp [parseMaterial, Xml.first_cons, s.xml_name_ne, Out.ifSome]
  · have e : (Xml.elem .geometry [] (s.xml :: [m.xml])).first .material = some m.xml := by
      simp [Xml.first_cons, s.xml_name_ne]
    unfold parseMaterial
    simp only [Option.map_some, Option.toList_some, e, Out.ifSome, Option.getD_some]
    rw [parseAttribute_eq (s := m.name) (by simp [UMaterial.xml, Xml.attr_cons])]
    rcases m with ⟨n, _ | ⟨⟨s, v⟩, hv⟩, _ | t⟩ <;>
      simp [UMaterial.xml, UMaterial.stored, Xml.first_cons, Out.bind, parseAttribute_eq, Xml.attr_cons] <;>
      simp_all

theorem parseGraphics_eq (v : UVisual X) : parseGraphics X path v.xml = .ok (v.read path) := by
  unfold parseGraphics
  rw [parseOrigin_eq v.first_origin]
  simp only [Out.bind, parseElement, v.first_geometry, Out.ofOption, Xml.kids]
  rw [parseGeometry_eq]
  have hn : v.xml.attr .name = v.name := by
    unfold UVisual.xml
    rcases v.name with _ | s <;> simp [optAttr, Xml.attr_cons]
  simp only [parseMaterial_eq, hn, UVisual.read]

theorem mapOut_map {α β : Type*} {f : α → Out β} {g : α → β} :
    ∀ {l : List α}, (∀ a ∈ l, f a = .ok (g a)) → mapOut f l = .ok (l.map g)
  | [], _ => rfl
  | a :: l, h => by
    rw [mapOut, h a (by simp), Out.bind, mapOut_map fun b hb => h b (List.mem_cons_of_mem _ hb)]
    rfl

/-! ## Links -/

/-- Inertia of a link as it is stored. -/
noncomputable def URLink.inertia (l : URLink X) : Inertia :=
  (l.inertial.map UInertial.read).getD ({} : RB).inertia

/-- A link as it is stored. -/
noncomputable def URLink.read (path : Str) (l : URLink X) : ULink :=
  ⟨⟨l.name, l.visuals.map (UVisual.read path)⟩, { ({} : RB) with inertia := l.inertia }, []⟩

theorem URLink.first_inertial (l : URLink X) : l.xml.first .inertial = l.inertial.map UInertial.xml := by
  unfold URLink.xml
  rcases l.inertial with _ | o
  · have : ∀ vs : List (UVisual X), (Xml.elem .link [(.name, l.name)] (vs.map UVisual.xml)).first .inertial = none := by
      intro vs
      induction vs with
      | nil => rfl
      | cons v vs ih => rw [List.map_cons, Xml.first_cons]; simpa using ih
    simpa using this l.visuals
  · simp [Xml.first_cons]

theorem URLink.all_visual (l : URLink X) : l.xml.all .visual = l.visuals.map UVisual.xml := by
  unfold URLink.xml Xml.all Xml.kids
  rw [List.filter_append]
  have h1 : ((l.inertial.map UInertial.xml).toList.filter fun y => y.name = .visual) = [] := by
    rcases l.inertial with _ | i <;> simp
  have h2 : ((l.visuals.map UVisual.xml).filter fun y => y.name = .visual) = l.visuals.map UVisual.xml := by
    rw [List.filter_eq_self]
    intro y hy
    obtain ⟨v, -, rfl⟩ := List.mem_map.1 hy
    simp
  rw [h1, h2]; rfl

theorem parseRigidBody_eq (l : URLink X) (h : ∀ i, l.inertial = some i → 0 < i.mass.val) :
    parseRigidBody X path l.xml = .ok (l.read path) := by
  unfold parseRigidBody
  rw [parseAttribute_eq (s := l.name) (by simp [URLink.xml, Xml.attr_cons]), l.first_inertial,
    l.all_visual]
  have hm : mapOut (parseGraphics X path) (l.visuals.map UVisual.xml) =
      .ok (l.visuals.map (UVisual.read path)) := by
    have : ∀ vs : List (UVisual X), mapOut (parseGraphics X path) (vs.map UVisual.xml) =
      .ok (vs.map (UVisual.read path)) := by
      intro vs
      induction vs with
      | nil => rfl
      | cons v vs ih => simp [mapOut, parseGraphics_eq, ih, Out.bind]
    exact this _
  rw [hm]
  rcases hi : l.inertial with _ | i
  · simp [Out.bind, Out.ifSome, URLink.read, URLink.inertia, hi]
  · simp [Out.bind, Out.ifSome, URLink.read, URLink.inertia, hi, parseInertial_eq i (h i hi)]

theorem Robot.xmlWith_nil (rob : Robot X) : rob.xmlWith [] = rob.xml := by
  unfold Robot.xmlWith Robot.xml
  rw [List.append_nil]

theorem Robot.all_link (rob : Robot X) {more : List Xml} (hm : ∀ y ∈ more, y.name = .joint) :
    (rob.xmlWith more).all .link = rob.links.map URLink.xml := by
  unfold Robot.xmlWith Xml.all Xml.kids
  rw [List.append_assoc, List.filter_append]
  have h1 : ((rob.links.map URLink.xml).filter fun y => y.name = .link) = rob.links.map URLink.xml := by
    rw [List.filter_eq_self]
    intro y hy
    obtain ⟨v, -, rfl⟩ := List.mem_map.1 hy
    simp
  have h2 : ((rob.joints.map URJoint.xml ++ more).filter fun y => y.name = .link) = [] := by
    rw [List.filter_eq_nil_iff]
    intro y hy
    rcases List.mem_append.1 hy with hy | hy
    · obtain ⟨v, -, rfl⟩ := List.mem_map.1 hy
      simp
    · simp [hm y hy]
  rw [h1, h2, List.append_nil]

theorem Robot.all_joint (rob : Robot X) {more : List Xml} (hm : ∀ y ∈ more, y.name = .joint) :
    (rob.xmlWith more).all .joint = rob.joints.map URJoint.xml ++ more := by
  unfold Robot.xmlWith Xml.all Xml.kids
  rw [List.append_assoc, List.filter_append]
  have h1 : ((rob.joints.map URJoint.xml ++ more).filter fun y => y.name = .joint) =
      rob.joints.map URJoint.xml ++ more := by
    rw [List.filter_eq_self]
    intro y hy
    rcases List.mem_append.1 hy with hy | hy
    · obtain ⟨v, -, rfl⟩ := List.mem_map.1 hy
      simp
    · simp [hm y hy]
  have h2 : ((rob.links.map URLink.xml).filter fun y => y.name = .joint) = [] := by
    rw [List.filter_eq_nil_iff]
    intro y hy
    obtain ⟨v, -, rfl⟩ := List.mem_map.1 hy
    simp
  rw [h1, h2, List.nil_append]

/-- The map after the links have been read. -/
noncomputable def linkMap (path : Str) (ls : List (URLink X)) : UMap := fun x =>
  (ls.find? fun l => l.name = x).map (URLink.read path)

theorem loadLinks_eq (ls : List (URLink X)) (hm : ∀ l ∈ ls, ∀ i, l.inertial = some i → 0 < i.mass.val) :
    ∀ (pre : List (URLink X)), ((pre ++ ls).map URLink.name).Nodup →
    loadLinks X path (ls.map URLink.xml) (linkMap path pre) (pre.map URLink.name) =
      .ok (linkMap path (pre ++ ls), (pre ++ ls).map URLink.name) := by
  induction ls with
  | nil => intro pre _; simp [loadLinks]
  | cons l ls ih =>
    intro pre hn
    rw [List.map_cons, loadLinks, parseRigidBody_eq l (hm l (by simp))]
    have hnot : ∀ y ∈ pre, y.name ≠ l.name := by
      intro y hy e
      rw [List.map_append, List.nodup_append] at hn
      exact hn.2.2 _ (List.mem_map_of_mem hy) _ (by simp) e
    have hno : linkMap path pre l.name = none := by
      unfold linkMap
      rw [List.find?_eq_none.2 (by simpa using hnot)]
      rfl
    have hup : Function.update (linkMap path pre) l.name (some (l.read path)) = linkMap path (pre ++ [l]) := by
      funext x
      by_cases hx : x = l.name
      · subst hx
        rw [Function.update_self]
        unfold linkMap
        rw [List.find?_append, List.find?_eq_none.2 (by simpa using hnot)]
        simp
      · rw [Function.update_of_ne hx]
        unfold linkMap
        rw [List.find?_append]
        have hx' : ¬ l.name = x := fun e => hx e.symm
        simp [hx']
    have := ih (fun y hy => hm y (List.mem_cons_of_mem _ hy)) (pre ++ [l]) (by simpa using hn)
    simp only [Out.bind]
    show (if (linkMap path pre l.name).isSome = true then _ else loadLinks X path (ls.map URLink.xml)
      (Function.update (linkMap path pre) l.name (some (l.read path))) (pre.map URLink.name ++ [l.name])) = _
    rw [hno, hup]
    simpa using this

/-! ## Joints -/

namespace URJoint

theorem first_parent (j : URJoint X) : j.xml.first .parent = some (.elem .parent [(.link, j.parent)] []) := by
  unfold URJoint.xml
  rcases j.origin with _ | o <;> simp [Xml.first_cons]

theorem first_child (j : URJoint X) : j.xml.first .child = some (.elem .child [(.link, j.child)] []) := by
  unfold URJoint.xml
  rcases j.origin with _ | o <;> simp [Xml.first_cons]

theorem first_origin (j : URJoint X) : j.xml.first .origin = j.origin.map UOrigin.xml := by
  unfold URJoint.xml
  rcases j.origin with _ | o <;> rcases j.axis with _ | a <;> rcases j.dynamics with _ | d <;>
    rcases j.limit with _ | m <;> simp [Xml.first_cons]

theorem first_axis (j : URJoint X) :
    j.xml.first .axis = j.axis.map fun a => Xml.elem .axis [(.xyz, a.text)] [] := by
  unfold URJoint.xml
  rcases j.origin with _ | o <;> rcases j.axis with _ | a <;> rcases j.dynamics with _ | d <;>
    rcases j.limit with _ | m <;> simp [Xml.first_cons]

theorem first_dynamics (j : URJoint X) : j.xml.first .dynamics = j.dynamics.map UDynamics.xml := by
  unfold URJoint.xml
  rcases j.origin with _ | o <;> rcases j.axis with _ | a <;> rcases j.dynamics with _ | d <;>
    rcases j.limit with _ | m <;> simp [Xml.first_cons]

theorem first_limit (j : URJoint X) : j.xml.first .limit = j.limit.map ULimit.xml := by
  unfold URJoint.xml
  rcases j.origin with _ | o <;> rcases j.axis with _ | a <;> rcases j.dynamics with _ | d <;>
    rcases j.limit with _ | m <;> simp [Xml.first_cons]

theorem queryDbl_eq {x : Xml} {k : XAttr} {o : Option (UNum X)} (h : x.attr k = o.map UNum.text)
    (d : Dbl) : queryDbl X x k d = numOr o d := by
  unfold queryDbl numOr
  rw [h]
  rcases o with _ | v
  · rfl
  · simp [v.reads]

theorem opt_damping (j : URJoint X) :
    optDbl X (j.xml.first .dynamics) .damping (.fin 0) = j.damping := by
  rw [first_dynamics, damping]
  rcases j.dynamics with _ | d
  · rfl
  · refine queryDbl_eq ?_ _
    obtain ⟨_ | a, _ | b, _ | c⟩ := d <;> simp [UDynamics.xml, optAttr, Xml.attr_cons]

theorem opt_friction (j : URJoint X) :
    optDbl X (j.xml.first .dynamics) .friction (.fin 0) = j.friction := by
  rw [first_dynamics, friction]
  rcases j.dynamics with _ | d
  · rfl
  · refine queryDbl_eq ?_ _
    obtain ⟨_ | a, _ | b, _ | c⟩ := d <;> simp [UDynamics.xml, optAttr, Xml.attr_cons]

theorem opt_coulomb (j : URJoint X) :
    optDbl X (j.xml.first .dynamics) .coulomb (.fin 0) = j.coulomb := by
  rw [first_dynamics, coulomb]
  rcases j.dynamics with _ | d
  · rfl
  · refine queryDbl_eq ?_ _
    obtain ⟨_ | a, _ | b, _ | c⟩ := d <;> simp [UDynamics.xml, optAttr, Xml.attr_cons]

theorem opt_lower (j : URJoint X) : optDbl X (j.xml.first .limit) .lower .ninf = j.lower := by
  rw [first_limit, lower]
  rcases j.limit with _ | d
  · rfl
  · refine queryDbl_eq ?_ _
    obtain ⟨_ | a, _ | b, _ | c, _ | e⟩ := d <;> simp [ULimit.xml, optAttr, Xml.attr_cons]

theorem opt_upper (j : URJoint X) : optDbl X (j.xml.first .limit) .upper .pinf = j.upper := by
  rw [first_limit, upper]
  rcases j.limit with _ | d
  · rfl
  · refine queryDbl_eq ?_ _
    obtain ⟨_ | a, _ | b, _ | c, _ | e⟩ := d <;> simp [ULimit.xml, optAttr, Xml.attr_cons]

theorem opt_velocity (j : URJoint X) : optDbl X (j.xml.first .limit) .velocity .pinf = j.velocity := by
  rw [first_limit, velocity]
  rcases j.limit with _ | d
  · rfl
  · refine queryDbl_eq ?_ _
    obtain ⟨_ | a, _ | b, _ | c, _ | e⟩ := d <;> simp [ULimit.xml, optAttr, Xml.attr_cons]

theorem opt_effort (j : URJoint X) : optDbl X (j.xml.first .limit) .effort .pinf = j.effort := by
  rw [first_limit, effort]
  rcases j.limit with _ | d
  · rfl
  · refine queryDbl_eq ?_ _
    obtain ⟨_ | a, _ | b, _ | c, _ | e⟩ := d <;> simp [ULimit.xml, optAttr, Xml.attr_cons]

open Classical in
/-- Number of the axis as it is stored. -/
noncomputable def axisNo (j : URJoint X) : ℕ :=
  if 0.8 < j.axisDir.normalized.y then 1 else if 0.8 < j.axisDir.normalized.z then 2 else 0

theorem axisNum_eq (j : URJoint X) : axisNum X j.xml = .ok j.axisNo := by
  unfold axisNum axisNo axisDir
  rw [first_axis]
  rcases j.axis with _ | a
  · have h : ¬ (0.8 : ℝ) < 0 := by norm_num
    have h1 : (⟨1, 0, 0⟩ : Vec3).normalized = ⟨1, 0, 0⟩ := by
      unfold Vec3.normalized
      have e : (⟨1, 0, 0⟩ : Vec3).dot ⟨1, 0, 0⟩ = 1 := by simp [Vec3.dot]
      rw [e, if_pos one_pos]
      simp
    simp [Out.ifSome, h1, h]
  · simp only [Out.ifSome, Option.map_some]
    rw [parseAttribute_eq (s := a.text) (by simp [Xml.attr_cons])]
    simp [Out.bind, a.reads]

/-- Type of a moving joint as it is stored. -/
noncomputable def moveType (j : URJoint X) : JType :=
  if j.kind = .prismatic then prismaticType j.axisNo else revoluteType j.axisNo

/-- A joint as it is stored. -/
noncomputable def read (j : URJoint X) : Joint :=
  if j.kind = .fixed then {} else
  { type := j.moveType, subspace := j.moveType.subspace
    qMin := if j.kind = .continuous then .ninf else j.lower
    qMax := if j.kind = .continuous then .pinf else j.upper
    dqMax := j.velocity, fqMax := j.effort, fCoulomb := j.coulomb, fViscous := j.damping
    fStiction := j.friction }

theorem text_prismatic (k : UKind) : k.text = sPrismatic ↔ k = .prismatic := by cases k <;> decide
theorem text_continuous (k : UKind) : k.text = sContinuous ↔ k = .continuous := by cases k <;> decide
theorem text_moves (k : UKind) :
    (k.text = sRevolute ∨ k.text = sContinuous ∨ k.text = sPrismatic) ↔ k ≠ .fixed := by
  cases k <;> decide
theorem text_fixed (k : UKind) : k.text = sFixed ↔ k = .fixed := by cases k <;> decide

theorem moveJoint_eq (j : URJoint X) (h : j.Sound) (hk : j.kind ≠ .fixed) :
    moveJoint X j.xml j.kind.text j.axisNo = .ok j.read := by
  obtain ⟨h1, h2, h3, h4, h5, h6⟩ := h hk
  unfold moveJoint
  simp only [opt_damping, opt_friction, opt_coulomb, opt_lower, opt_upper, opt_velocity, opt_effort,
    text_prismatic, ne_eq, text_continuous, Joint.setType]
  unfold read moveType
  rw [if_neg hk]
  by_cases hcont : j.kind = .continuous
  · simp [hcont, Out.bind, Joint.Res.out, Joint.setDqMax, Joint.setFqMax, Joint.setFCoulomb,
      Joint.setFStiction, Joint.setFViscous, h2, h3, h4, h5, h6]
  · simp [hcont, Out.bind, Joint.Res.out, Joint.setDqMax, Joint.setFqMax, Joint.setFCoulomb,
      Joint.setFStiction, Joint.setFViscous, Joint.setQLimits, h1 hcont, h2, h3, h4, h5, h6]

/-- A link below a joint as it is stored. -/
noncomputable def place (j : URJoint X) (l : ULink) : ULink :=
  { l with rb := { l.rb with joint := j.read, T := originPose j.origin }, parent := j.parent }

theorem loadJoint_eq (j : URJoint X) (h : j.Sound) {U : UMap} {l p : ULink} (hp : U j.parent = some p)
    (hc : U j.child = some l) :
    loadJoint X j.xml U = .ok (Function.update U j.child (some (j.place l))) := by
  unfold loadJoint
  simp only [parseElement, first_parent, Out.ofOption, Out.bind, first_child]
  rw [parseAttribute_eq (s := j.parent) (by simp [Xml.attr_cons]),
    parseAttribute_eq (s := j.child) (by simp [Xml.attr_cons])]
  simp only [UMap.at, hp, hc, Out.ofOption]
  rw [parseOrigin_eq j.first_origin, axisNum_eq]
  simp only
  rw [parseAttribute_eq (s := j.name) (by simp [URJoint.xml, Xml.attr_cons]),
    parseAttribute_eq (s := j.kind.text) (by simp [URJoint.xml, Xml.attr_cons])]
  simp only
  by_cases hk : j.kind = .fixed
  · rw [if_neg fun e => (text_moves _).1 e hk, if_pos ((text_fixed _).2 hk)]
    simp [place, read, hk, Joint.setType, JType.subspace]
  · rw [if_pos ((text_moves _).2 hk), moveJoint_eq j h hk]
    rfl

end URJoint

/-- The map after the joints have been read. -/
noncomputable def jointMap (U : UMap) (js : List (URJoint X)) : UMap := fun x =>
  match js.find? fun j => j.child = x with
  | none => U x
  | some j => (U x).map j.place

theorem loadJoints_append : ∀ (a b : List Xml) (U : UMap),
    loadJoints X (a ++ b) U = (loadJoints X a U).bind (loadJoints X b)
  | [], _, _ => rfl
  | x :: a, b, U => by
    rw [List.cons_append, loadJoints, loadJoints]
    cases loadJoint X x U with
    | ok V => exact loadJoints_append a b V
    | throws => rfl
    | ub => rfl

theorem loadJoints_eq (js : List (URJoint X)) (hj : ∀ j ∈ js, j.Sound) :
    ∀ (U : UMap), (∀ j ∈ js, (U j.parent).isSome ∧ (U j.child).isSome) →
      (js.map URJoint.child).Nodup →
      loadJoints X (js.map URJoint.xml) U = .ok (jointMap U js) := by
  induction js with
  | nil => intro U _ _; rfl
  | cons j js ih =>
    intro U hU hn
    obtain ⟨h1, h2⟩ := hU j (by simp)
    obtain ⟨p, hp⟩ := Option.isSome_iff_exists.1 h1
    obtain ⟨l, hl⟩ := Option.isSome_iff_exists.1 h2
    rw [List.map_cons, loadJoints, j.loadJoint_eq (hj j (by simp)) hp hl, Out.bind]
    rw [List.map_cons, List.nodup_cons] at hn
    rw [ih (fun k hk => hj k (List.mem_cons_of_mem _ hk)) _ (fun k hk => ?_) hn.2]
    · congr 1
      funext x
      unfold jointMap
      by_cases hx : j.child = x
      · subst hx
        rw [List.find?_eq_none.2 (fun k hk => by
          simpa using fun e => hn.1 (List.mem_map.2 ⟨k, hk, e⟩))]
        simp [hl]
      · have hx' : x ≠ j.child := fun e => hx e.symm
        simp [hx, Function.update_of_ne hx']
    · have := hU k (List.mem_cons_of_mem _ hk)
      constructor
      · by_cases e : k.parent = j.child
        · rw [e, Function.update_self]; rfl
        · rw [Function.update_of_ne e]; exact this.1
      · by_cases e : k.child = j.child
        · rw [e, Function.update_self]; rfl
        · rw [Function.update_of_ne e]; exact this.2

end SpatialDyn
