import Verif.Lemmas.UrdfLoad

/-!
# C46, C47: URDF files

`X` are the external functions (number parsing); numbers of a description carry the value that they
are read as.  `top` are the elements at the top level of the file.
-/

namespace SpatialDyn

variable {X : UrdfExt} {path : Str} {rob : Robot X} {r : Str} {P : Str → Iso} {car : Str → Str}

/-! ## C46 -/

/-- **C46.** A sound description is loaded, with and without simplification, as the tree below its
root: one body for every link that carries itself, parents first, parent indices and poses at `q = 0`
as described, and every body has mass, inertia and graphics of all the links that it carries.  With
simplification a link below a fixed joint is carried by the carrier of its parent; without, every link
carries itself. -/
theorem C46_loaded (E : Ext) (h : rob.Sound) (hj : rob.joints ≠ []) (hr : rob.Root r)
    (hL : rob.Layout r P car) {top : List Xml} (htop : Xml.firstIn .robot top = some rob.xml)
    (c : Cache) :
    ∃ I J G, rob.ReadsAs path I J G ∧ ∀ simple : Bool, ∃ n,
      loadModel X c (some top) path simple = .ok n ∧ Reach E n.body false ∧
      rob.LoadedAs r P (if simple then car else id) I J G n :=
  ⟨_, _, _, Robot.readsAs h, fun simple => Robot.load_ok E h hj hr hL htop c simple⟩

/-- **C46, poses and carriers.** The poses at `q = 0` and the carriers exist and are unique for the
links below the root. -/
theorem C46_layout (h : rob.Sound) (hr : rob.Root r) :
    (∃ P car, rob.Layout r P car) ∧ ∀ P car P' car', rob.Layout r P car → rob.Layout r P' car' →
      ∀ x, rob.Below r x → P x = P' x ∧ car x = car' x :=
  ⟨Robot.layout_exists h hr, fun _ _ _ _ hL hL' _ hx =>
    Robot.layout_unique h (List.mem_of_find?_eq_some hr) hL hL' hx⟩

/-- **C46, total mass.** If all links hang below the root, the bodies and the base together weigh as
much as all links, with and without simplification. -/
theorem C46_total_mass (h : rob.Sound) (hj : rob.joints ≠ []) (hr : rob.Root r)
    (htree : ∀ x ∈ rob.names, rob.Below r x) {top : List Xml}
    (htop : Xml.firstIn .robot top = some rob.xml) (c : Cache) :
    ∃ I J G, rob.ReadsAs path I J G ∧ ∀ simple : Bool, ∃ n,
      loadModel X c (some top) path simple = .ok n ∧
      n.body.inertiaBase.mass + (n.body.rbs.map fun rb => rb.inertia.mass).sum =
        (rob.names.map fun x => (I x).mass).sum := by
  obtain ⟨P, car, hL⟩ := Robot.layout_exists h hr
  have hrm : r ∈ rob.names := List.mem_of_find?_eq_some hr
  refine ⟨_, _, _, Robot.readsAs h, fun simple => ?_⟩
  obtain ⟨n, h1, -, h2⟩ := Robot.load_ok (path := path) ext0 h hj hr hL htop c simple
  refine ⟨n, h1, h2.total ?_ htree fun x hx => ?_⟩
  · cases simple
    · rfl
    · exact hL.rootCar
  · cases simple
    · exact ⟨htree x hx, rfl⟩
    · exact Robot.carrier_below h hrm hL (htree x hx)

/-- **C46, other trees are lost.** A link that does not hang below the first root is silently left
out: no body has its name, and it contributes nothing. -/
theorem C46_violated_dropped (h : rob.Sound) (hj : rob.joints ≠ []) (hr : rob.Root r) {x : Str}
    (hx : ¬ rob.Below r x) {top : List Xml} (htop : Xml.firstIn .robot top = some rob.xml)
    (c : Cache) (simple : Bool) :
    ∃ n, loadModel X c (some top) path simple = .ok n ∧ x ∉ n.tags.map Tag.name ∧ x ≠ r := by
  obtain ⟨P, car, hL⟩ := Robot.layout_exists h hr
  obtain ⟨n, h1, -, h2⟩ := Robot.load_ok (path := path) ext0 h hj hr hL htop c simple
  exact ⟨n, h1, fun hm => hx ((h2.bodies x).1 hm).1, fun e => hx (e ▸ ⟨0, .here⟩)⟩

/-- **C46, a single link is refused.** A description without joints is not loaded. -/
theorem C46_violated_single (h : rob.Consistent) (hj : rob.joints = []) {top : List Xml}
    (htop : Xml.firstIn .robot top = some rob.xml) (c : Cache) (simple : Bool) :
    loadModel X c (some top) path simple = .throws := by
  have h4 : loadLinks X path (rob.xml.all .link) (fun _ => none) [] =
      .ok (linkMap path rob.links, rob.names) := by
    rw [← Robot.xmlWith_nil, Robot.all_link _ (by simp)]
    exact loadLinks_eq rob.links h.masses [] h.names
  have h3 : rob.xml.first .joint = none := by
    unfold Xml.first Xml.firstIn
    rw [List.find?_eq_none]
    intro y hy
    unfold Robot.xml Xml.kids at hy
    rw [hj] at hy
    obtain ⟨v, -, rfl⟩ := List.mem_map.1 (by simpa using hy)
    simp
  unfold loadModel
  simp only [Out.ofOption, Out.bind, htop, h4, parseElement, h3]
  rw [parseAttribute_eq (s := rob.name) (by simp [Robot.xml, Xml.attr_cons])]
  rcases rob.xml.first .link with _ | y <;> rfl

/-! ## C47 -/

/-- The body below a moving joint has the joint that was read. -/
theorem moving_joint_body (h : rob.Sound) (hj : rob.joints ≠ []) (hr : rob.Root r) {top : List Xml}
    (htop : Xml.firstIn .robot top = some rob.xml) (c : Cache) (simple : Bool) :
    ∃ n, loadModel X c (some top) path simple = .ok n ∧ ∀ j ∈ rob.joints, j.kind ≠ .fixed →
      rob.Below r j.child → ∃ i < n.body.dof, (n.tags.getD i {}).name = j.child ∧
        (n.body.rb i).joint = (rob.map path).joint j.child := by
  obtain ⟨P, car, hL⟩ := Robot.layout_exists h hr
  have hrm : r ∈ rob.names := List.mem_of_find?_eq_some hr
  obtain ⟨n, h1, -, h2⟩ := Robot.load_ok (path := path) ext0 h hj hr hL htop c simple
  refine ⟨n, h1, fun j hjm hk hb => ?_⟩
  have hcar : (if simple then car else id) j.child = j.child := by
    cases simple
    · rfl
    · exact hL.moving j hjm hb hk
  have hne : j.child ≠ r := by
    intro e
    have h3 := (Robot.root_of h hr).top
    rw [← e, Robot.parent_of h.toConsistent hjm] at h3
    exact h.nonempty (h3 ▸ (h.ends j hjm).1)
  have hm : j.child ∈ n.tags.map Tag.name := (h2.bodies _).2 ⟨hb, hne, hcar⟩
  obtain ⟨i, hi', e⟩ := List.getElem_of_mem hm
  rw [List.length_map] at hi'
  have e1 : (n.tags.getD i {}).name = j.child := by
    rw [List.getD_eq_getElem?_getD, List.getElem?_eq_getElem hi']
    simpa using e
  have hlt : i < n.body.dof := by rw [← h2.count]; exact hi'
  exact ⟨i, hlt, e1, by rw [(h2.body i hlt).joint, e1]⟩

/-- **C47, numbers of joints.** Limits, damping and friction of every moving joint below the root are
those of the description; a continuous joint has no position limits. -/
theorem C47_numbers (h : rob.Sound) (hj : rob.joints ≠ []) (hr : rob.Root r) {top : List Xml}
    (htop : Xml.firstIn .robot top = some rob.xml) (c : Cache) (simple : Bool) :
    ∃ n, loadModel X c (some top) path simple = .ok n ∧ ∀ j ∈ rob.joints, j.kind ≠ .fixed →
      rob.Below r j.child → ∃ i < n.body.dof, (n.tags.getD i {}).name = j.child ∧
        j.Numbers (n.body.rb i).joint := by
  obtain ⟨n, h1, h2⟩ := moving_joint_body (path := path) h hj hr htop c simple
  refine ⟨n, h1, fun j hjm hk hb => ?_⟩
  obtain ⟨i, hi, e, e'⟩ := h2 j hjm hk hb
  exact ⟨i, hi, e, e' ▸ (Robot.readsAs (path := path) h).numbers j hjm hk⟩

/-- **C47, axes.** A moving joint whose axis is a positive multiple of a coordinate axis moves along
(prismatic) or about (revolute, continuous) that axis.  Missing: all other axes, see
`C47_violated_axis`. -/
theorem C47_axis_partial (h : rob.Sound) (hj : rob.joints ≠ []) (hr : rob.Root r) {top : List Xml}
    (htop : Xml.firstIn .robot top = some rob.xml) (c : Cache) (simple : Bool) :
    ∃ n, loadModel X c (some top) path simple = .ok n ∧ ∀ j ∈ rob.joints, j.kind ≠ .fixed →
      rob.Below r j.child → ∃ i < n.body.dof, (n.tags.getD i {}).name = j.child ∧
        ∀ s : ℝ, 0 < s → ∀ u : Vec3, u = ⟨1, 0, 0⟩ ∨ u = ⟨0, 1, 0⟩ ∨ u = ⟨0, 0, 1⟩ →
          j.axisDir = s • u → j.MovesAlong (n.body.rb i).joint u := by
  obtain ⟨n, h1, h2⟩ := moving_joint_body (path := path) h hj hr htop c simple
  refine ⟨n, h1, fun j hjm hk hb => ?_⟩
  obtain ⟨i, hi, e, e'⟩ := h2 j hjm hk hb
  have hR := Robot.readsAs (path := path) h
  refine ⟨i, hi, e, fun s hs u hu ha => ?_⟩
  rw [e']
  rcases hu with rfl | rfl | rfl
  · exact hR.snap j hjm hk (by rw [ha]; simp) (by rw [ha]; simp)
  · exact (hR.axis j hjm hk s hs).1 ha
  · exact (hR.axis j hjm hk s hs).2 ha

/-- **C47, axes, violated.** A moving joint whose axis points against the y or z axis (or anywhere with
no positive y or z part) is made to move along x instead: neither along its axis nor against it. -/
theorem C47_violated_axis (h : rob.Sound) (hj : rob.joints ≠ []) (hr : rob.Root r) {top : List Xml}
    (htop : Xml.firstIn .robot top = some rob.xml) (c : Cache) (simple : Bool) :
    ∃ n, loadModel X c (some top) path simple = .ok n ∧ ∀ j ∈ rob.joints, j.kind ≠ .fixed →
      rob.Below r j.child → ∃ i < n.body.dof, (n.tags.getD i {}).name = j.child ∧
        (j.axisDir.y ≤ 0 → j.axisDir.z ≤ 0 → j.MovesAlong (n.body.rb i).joint ⟨1, 0, 0⟩ ∧
          ∀ s : ℝ, j.axisDir.y ≠ 0 ∨ j.axisDir.z ≠ 0 → s ≠ 0 →
            ¬ j.MovesAlong (n.body.rb i).joint (s • j.axisDir)) := by
  obtain ⟨n, h1, h2⟩ := moving_joint_body (path := path) h hj hr htop c simple
  refine ⟨n, h1, fun j hjm hk hb => ?_⟩
  obtain ⟨i, hi, e, e'⟩ := h2 j hjm hk hb
  refine ⟨i, hi, e, fun hy hz => ?_⟩
  have hx := (Robot.readsAs (path := path) h).snap j hjm hk hy hz
  rw [e']
  refine ⟨hx, fun s hs h0 hm => ?_⟩
  have := hx.1.symm.trans hm.1
  have hv : (⟨1, 0, 0⟩ : Vec3) = s • j.axisDir := by
    by_cases hp : j.kind = .prismatic
    · simpa [hp] using this
    · simpa [hp] using this
  have e1 : 0 = s * j.axisDir.y := congrArg Vec3.y hv
  have e2 : 0 = s * j.axisDir.z := congrArg Vec3.z hv
  rcases hs with hs | hs
  · exact mul_ne_zero h0 hs e1.symm
  · exact mul_ne_zero h0 hs e2.symm

/-- **C47, inertia.** If turning the tensor back is the same as turning it, as when the inertial frame
is parallel to the link, then mass and inertia of every body are those described.  Missing: turned
inertial frames, see `C47_violated_tensor`. -/
theorem C47_inertia_partial (h : rob.Sound) (hj : rob.joints ≠ []) (hr : rob.Root r)
    (hL : rob.Layout r P car)
    (hI : ∀ l ∈ rob.links, ∃ i, l.inertial = some i ∧
      (originPose i.origin).R.T * i.tensor * (originPose i.origin).R =
        (originPose i.origin).R * i.tensor * (originPose i.origin).R.T) {top : List Xml}
    (htop : Xml.firstIn .robot top = some rob.xml) (c : Cache) (simple : Bool) :
    ∃ J G n, loadModel X c (some top) path simple = .ok n ∧
      rob.LoadedAs r P (if simple then car else id) rob.described J G n := by
  obtain ⟨n, h1, -, h2⟩ := Robot.load_ok (path := path) ext0 h hj hr hL htop c simple
  refine ⟨_, _, n, h1, h2.congr fun x hx => ?_⟩
  obtain ⟨l, hl, rfl⟩ := List.mem_map.1 hx
  obtain ⟨i, hi, e⟩ := hI l hl
  have hR := Robot.readsAs (path := path) h
  unfold Robot.described
  rw [find_of_nodup h.names hl, Option.bind_some, hi]
  ext1
  · exact hR.mass l hl i hi
  · exact hR.com l hl i hi
  · rw [hR.tensor l hl i hi, e]; rfl

/-- An inertial frame that is not turned meets the hypothesis of `C47_inertia_partial`. -/
theorem C47_inertia_straight (i : UInertial X) (hi : i.origin.bind UOrigin.rpy = none) :
    (originPose i.origin).R.T * i.tensor * (originPose i.origin).R =
      (originPose i.origin).R * i.tensor * (originPose i.origin).R.T := by
  have e : (originPose i.origin).R = 1 := by unfold originPose; rw [hi]; rfl
  rw [e, show Mat3.T 1 = 1 from rfl]

/-! ## C70: visuals -/

/-- **C70.** If all links hang below the root, the model shows every visual of the description with its
name and shape at its world pose for `q = 0`, and nothing else, with and without simplification; the
material is the one inside `<geometry>`.  Missing: materials where the format has them, see
`C70_violated_material`. -/
theorem C70_shown_partial (h : rob.Sound) (hj : rob.joints ≠ []) (hr : rob.Root r)
    (hL : rob.Layout r P car) (htree : ∀ x ∈ rob.names, rob.Below r x) {top : List Xml}
    (htop : Xml.firstIn .robot top = some rob.xml) (c : Cache) (simple : Bool) :
    ∃ n, loadModel X c (some top) path simple = .ok n ∧ n.shown.Perm (rob.shown path P) := by
  have hrm : r ∈ rob.names := List.mem_of_find?_eq_some hr
  obtain ⟨n, h1, -, h2⟩ := Robot.load_ok (path := path) ext0 h hj hr hL htop c simple
  refine ⟨n, h1, h2.shown (Robot.readsAs h).graphics ?_ (fun x hx => Robot.layout_valid h hrm hL (htree x hx))
    hrm htree fun x hx => ?_⟩
  · cases simple
    · rfl
    · exact hL.rootCar
  · cases simple
    · exact ⟨htree x hx, rfl⟩
    · exact Robot.carrier_below h hrm hL (htree x hx)

theorem forall₂_right {α β : Type*} {R : α → β → Prop} {l : List α} {m : List β}
    (h : List.Forall₂ R l m) : ∀ y ∈ m, ∃ x ∈ l, R x y := by
  induction h with
  | nil => simp
  | cons hR _ ih =>
    intro y hy
    rcases List.mem_cons.1 hy with rfl | hy
    · exact ⟨_, List.mem_cons_self, hR⟩
    · obtain ⟨x, hx, h1⟩ := ih y hy
      exact ⟨x, List.mem_cons_of_mem _ hx, h1⟩

/-- **C70, materials, violated.** The material of a visual is never read: without materials inside
`<geometry>` all graphics have the default material. -/
theorem C70_violated_material (h : rob.Sound) (hj : rob.joints ≠ []) (hr : rob.Root r)
    (hin : ∀ l ∈ rob.links, ∀ v ∈ l.visuals, v.inner = none)
    {top : List Xml} (htop : Xml.firstIn .robot top = some rob.xml) (c : Cache) (simple : Bool) :
    ∃ n, loadModel X c (some top) path simple = .ok n ∧ (∀ g ∈ n.graphics, g.material = {}) ∧
      ∀ i < n.body.dof, ∀ g ∈ (n.tags.getD i {}).graphics, g.material = {} := by
  obtain ⟨P, car, hL⟩ := Robot.layout_exists h hr
  obtain ⟨n, h1, -, h2⟩ := Robot.load_ok (path := path) ext0 h hj hr hL htop c simple
  have key : ∀ x, ∀ g ∈ (rob.carried r (if simple then car else id) x).flatMap (fun y =>
      ((rob.map path).graphics y).map fun g => { g with T := (P x).inv * P y * g.T }),
      g.material = {} := by
    intro x g hg
    obtain ⟨y, hy, hg⟩ := List.mem_flatMap.1 hg
    obtain ⟨g', hg', rfl⟩ := List.mem_map.1 hg
    obtain ⟨l, hl, rfl⟩ := List.mem_map.1 (List.mem_filter.1 hy).1
    obtain ⟨v, hv, hvg⟩ := forall₂_right ((Robot.readsAs (path := path) h).graphics l hl) g' hg'
    show g'.material = {}
    rw [hvg.material, hin l hl v hv]
    rfl
  exact ⟨n, h1, fun g hg => key r g (h2.baseGraphics.subset hg),
    fun i hi g hg => key _ g ((h2.body i hi).graphics.subset hg)⟩

/-! ## C71: links without inertial -/

/-- Without simplification every link below the root has a body with the mass read for it. -/
theorem single_mass (h : rob.Sound) (hj : rob.joints ≠ []) (hr : rob.Root r) {top : List Xml}
    (htop : Xml.firstIn .robot top = some rob.xml) (c : Cache) : ∃ I J G, rob.ReadsAs path I J G ∧
    ∀ l ∈ rob.links, rob.Below r l.name → l.name ≠ r →
      ∃ n, loadModel X c (some top) path false = .ok n ∧ ∃ i < n.body.dof,
        (n.tags.getD i {}).name = l.name ∧ (n.body.rb i).inertia.mass = (I l.name).mass := by
  obtain ⟨P, car, hL⟩ := Robot.layout_exists h hr
  obtain ⟨n, h1, -, h2⟩ := Robot.load_ok (path := path) ext0 h hj hr hL htop c false
  refine ⟨_, _, _, Robot.readsAs (path := path) h, fun l hl hb hlr => ?_⟩
  have hm : l.name ∈ n.tags.map Tag.name := (h2.bodies _).2 ⟨hb, hlr, rfl⟩
  obtain ⟨i, hi', e⟩ := List.getElem_of_mem hm
  rw [List.length_map] at hi'
  have e1 : (n.tags.getD i {}).name = l.name := by
    rw [List.getD_eq_getElem?_getD, List.getElem?_eq_getElem hi']
    simpa using e
  have hlt : i < n.body.dof := by rw [← h2.count]; exact hi'
  refine ⟨n, h1, i, hlt, e1, ?_⟩
  rw [(h2.body i hlt).mass, e1]
  have hc : rob.carried r id l.name = [l.name] := by
    unfold Robot.carried
    rw [List.filter_congr (q := fun y => y == l.name) (fun y _ => by
      rw [Bool.eq_iff_iff]
      simp only [id, decide_eq_true_eq, beq_iff_eq, and_iff_right_iff_imp]
      rintro rfl
      exact hb)]
    rw [List.filter_beq, h.names.count, if_pos (show l.name ∈ rob.names from List.mem_map_of_mem hl)]
    rfl
  simp only [Bool.false_eq_true, if_false, hc, List.map_cons, List.map_nil, List.sum_cons, List.sum_nil, add_zero]

/-- **C71, violated.** A link without `<inertial>` weighs 1 kg, in a point at its origin. -/
theorem C71_violated_bare (h : rob.Sound) (hj : rob.joints ≠ []) (hr : rob.Root r)
    {top : List Xml} (htop : Xml.firstIn .robot top = some rob.xml) (c : Cache) {l : URLink X}
    (hl : l ∈ rob.links) (hb : rob.Below r l.name) (hlr : l.name ≠ r) (hi : l.inertial = none) :
    ∃ n, loadModel X c (some top) path false = .ok n ∧ ∃ i < n.body.dof,
      (n.tags.getD i {}).name = l.name ∧ (n.body.rb i).inertia.mass = 1 := by
  obtain ⟨I, J, G, h1, h2⟩ := single_mass (path := path) h hj hr htop c
  obtain ⟨n, e1, i, hlt, e2, e3⟩ := h2 l hl hb hlr
  exact ⟨n, e1, i, hlt, e2, by rw [e3, h1.bare l hl hi]⟩

/-- **C71.** A link with `<inertial>` weighs what it says, also when it says zero.  Missing: links
without `<inertial>`. -/
theorem C71_stated_partial (h : rob.Sound) (hj : rob.joints ≠ []) (hr : rob.Root r)
    {top : List Xml} (htop : Xml.firstIn .robot top = some rob.xml) (c : Cache) {l : URLink X}
    (hl : l ∈ rob.links) (hb : rob.Below r l.name) (hlr : l.name ≠ r) {i : UInertial X}
    (hi : l.inertial = some i) :
    ∃ n, loadModel X c (some top) path false = .ok n ∧ ∃ k < n.body.dof,
      (n.tags.getD k {}).name = l.name ∧ (n.body.rb k).inertia.mass = i.mass.val := by
  obtain ⟨I, J, G, h1, h2⟩ := single_mass (path := path) h hj hr htop c
  obtain ⟨n, e1, k, hlt, e2, e3⟩ := h2 l hl hb hlr
  exact ⟨n, e1, k, hlt, e2, by rw [e3, h1.mass l hl i hi]⟩

/-! ## C69: files that are not proper descriptions -/

/-- **C69.** A file is refused when it cannot be read, has no `<robot>`, no name or no `<link>`.  Missing: files without a root, joints without `<child>`, empty names, unknown joint types
(see the theorems `C69_violated_…`). -/
theorem C69_refused_partial (c : Cache) (simple : Bool) :
    loadModel X c none path simple = .throws ∧
    (∀ top, Xml.firstIn .robot top = none → loadModel X c (some top) path simple = .throws) ∧
    (∀ top x, Xml.firstIn .robot top = some x → x.attr .name = none →
      loadModel X c (some top) path simple = .throws) ∧
    (∀ top x, Xml.firstIn .robot top = some x → x.first .link = none →
      loadModel X c (some top) path simple = .throws) := by
  refine ⟨rfl, fun top h => ?_, fun top x h h' => ?_, fun top x h h' => ?_⟩
  · simp only [loadModel, Out.ofOption, Out.bind, h]
  · simp only [loadModel, Out.ofOption, Out.bind, h, parseAttribute, h']
  · simp only [loadModel, Out.ofOption, Out.bind, h, parseAttribute, parseElement, h']
    cases x.attr .name <;> rfl

/-- **C69.** After a description whose links are sound, a joint whose parent or child is not a link, or
whose type is `floating` or `planar`, is refused. -/
theorem C69_bad_joint (h : rob.Consistent) (hl : rob.links ≠ []) (nm ty p ch : Str) (rest : List Xml)
    (hrest : ∀ y ∈ rest, y.name = .joint)
    (hbad : p ∉ rob.names ∨ ch ∉ rob.names ∨ ty = "floating".toList ∨ ty = "planar".toList)
    {top : List Xml} (htop : Xml.firstIn .robot top = some (rob.xmlWith
      (.elem .joint [(.name, nm), (.type, ty)] [.elem .parent [(.link, p)] [], .elem .child [(.link, ch)] []]
        :: rest))) (c : Cache) (simple : Bool) :
    loadModel X c (some top) path simple = .throws := by
  rw [Robot.loadModel_with h hl (by simpa using hrest) (by simp) htop, loadJoints]
  have : ∀ U : UMap, (∀ x, x ∉ rob.names → U x = none) →
      loadJoint X (.elem .joint [(.name, nm), (.type, ty)]
        [.elem .parent [(.link, p)] [], .elem .child [(.link, ch)] []]) U = .throws := by
    intro U hU
    unfold loadJoint
    simp only [parseElement, Xml.first_cons, Xml.name_elem, Xml.first_nil, if_true, reduceCtorEq, if_false,
      Out.ofOption, Out.bind]
    rw [parseAttribute_eq (s := p) (by simp [Xml.attr_cons]),
      parseAttribute_eq (s := ch) (by simp [Xml.attr_cons])]
    simp only [UMap.at]
    cases hp : U p with
    | none => rfl
    | some a =>
      simp only [Out.ofOption]
      cases hc : U ch with
      | none => rfl
      | some b =>
        simp only
        rw [parseOrigin_eq (o := none) (by simp [Xml.first_cons])]
        have ha : axisNum X (.elem .joint [(.name, nm), (.type, ty)]
            [.elem .parent [(.link, p)] [], .elem .child [(.link, ch)] []]) = .ok 0 := by
          simp [axisNum, Xml.first_cons, Out.ifSome]
        rw [ha]
        simp only
        rw [parseAttribute_eq (s := nm) (by simp [Xml.attr_cons]),
          parseAttribute_eq (s := ty) (by simp [Xml.attr_cons])]
        have hty : ty = sFloating ∨ ty = sPlanar := by
          rcases hbad with hb | hb | hb
          · rw [hU p hb] at hp; cases hp
          · rw [hU ch hb] at hc; cases hc
          · exact hb
        simp only
        rcases hty with rfl | rfl
        · rw [if_neg (by decide), if_neg (by decide), if_pos rfl]
        · rw [if_neg (by decide), if_neg (by decide), if_neg (by decide), if_pos rfl]
  rw [this _ fun x hx => Robot.map_none hx]
  rfl

/-- **C69, no root, violated.** When every link has a joint above it (the joints form a ring), a
missing element of the list of links is dereferenced. -/
theorem C69_violated_ring (h : rob.Sound) (hl : rob.links ≠ []) (hj : rob.joints ≠ [])
    (hr : ∀ x ∈ rob.names, (rob.above x).isSome) {top : List Xml}
    (htop : Xml.firstIn .robot top = some rob.xml) (c : Cache) (simple : Bool) :
    loadModel X c (some top) path simple = .ub := by
  rw [Robot.loadModel_eq h.toConsistent hl hj htop]
  have : rob.names.find? (fun y => (rob.map path).parent y = []) = none := by
    rw [List.find?_eq_none]
    intro x hx
    rw [Robot.map_parent h.toConsistent]
    have := hr x hx
    simp only [decide_eq_true_eq]
    intro e
    rw [Robot.parent_empty h] at e
    cases ha : rob.above x <;> simp_all
  unfold sortLinks
  rw [this]
  rfl

/-- **C69, empty name, violated.** When the first link has an empty name and no joint above it, the
recursion over the children of a link never ends. -/
theorem C69_violated_empty_name (h : rob.Consistent) (hj : rob.joints ≠ []) {l : URLink X}
    {ls : List (URLink X)} (hl : rob.links = l :: ls) (hn : l.name = []) (ha : rob.above [] = none)
    {top : List Xml} (htop : Xml.firstIn .robot top = some rob.xml) (c : Cache) (simple : Bool) :
    loadModel X c (some top) path simple = .ub := by
  rw [Robot.loadModel_eq h (by rw [hl]; simp) hj htop]
  have hp : (rob.map path).parent [] = [] := by
    rw [Robot.map_parent h]
    unfold Robot.parent
    rw [ha]
    rfl
  have hnames : rob.names = [] :: ls.map URLink.name := by
    unfold Robot.names
    rw [hl, List.map_cons, hn]
  have : rob.names.find? (fun y => (rob.map path).parent y = []) = some [] := by
    rw [hnames, List.find?_cons_of_pos (by simpa using hp)]
  unfold sortLinks
  rw [this]
  dsimp only
  rw [dfs_empty_name (by rw [hnames]; simp) hp]
  rfl

/-- **C69, no child, violated.** A joint without `<child>` makes the parser use a null pointer. -/
theorem C69_violated_no_child (h : rob.Consistent) (hl : rob.links ≠ []) (nm ty p : Str)
    (hp : p ∈ rob.names) {top : List Xml} (htop : Xml.firstIn .robot top = some (rob.xmlWith
      [.elem .joint [(.name, nm), (.type, ty)] [.elem .parent [(.link, p)] []]])) (c : Cache)
    (simple : Bool) : loadModel X c (some top) path simple = .ub := by
  rw [Robot.loadModel_with h hl (by simp) (by simp) htop, loadJoints]
  obtain ⟨l, hl, rfl⟩ := List.mem_map.1 hp
  have : loadJoint X (.elem .joint [(.name, nm), (.type, ty)] [.elem .parent [(.link, l.name)] []])
      (rob.map path) = .ub := by
    unfold loadJoint
    simp only [parseElement, Xml.first_cons, Xml.name_elem, Xml.first_nil, if_true, reduceCtorEq, if_false,
      Out.ofOption, Out.bind]
    rw [parseAttribute_eq (s := l.name) (by simp [Xml.attr_cons])]
    simp only [UMap.at, Robot.map_link h hl, Out.ofOption]
  rw [this]
  rfl

/-- **C69, numbers, violated.** A position, velocity or effort limit that cannot be read is silently
left out: the joint has no such limit. -/
theorem C69_violated_number (h : rob.Sound) (hj : rob.joints ≠ []) (hr : rob.Root r) {top : List Xml}
    (htop : Xml.firstIn .robot top = some rob.xml) (c : Cache) (simple : Bool) :
    ∃ n, loadModel X c (some top) path simple = .ok n ∧ ∀ j ∈ rob.joints, j.kind ≠ .fixed →
      rob.Below r j.child → ∀ m, j.limit = some m → ∃ i < n.body.dof,
        (n.tags.getD i {}).name = j.child ∧ (let k := (n.body.rb i).joint
        (∀ t, m.lower = some t → X.dbl t.text = none → k.qMin = .ninf) ∧
        (∀ t, m.upper = some t → X.dbl t.text = none → k.qMax = .pinf) ∧
        (∀ t, m.velocity = some t → X.dbl t.text = none → k.dqMax = .pinf) ∧
        (∀ t, m.effort = some t → X.dbl t.text = none → k.fqMax = .pinf)) := by
  obtain ⟨n, h1, h2⟩ := C47_numbers (path := path) h hj hr htop c simple
  refine ⟨n, h1, fun j hjm hk hb m hm => ?_⟩
  obtain ⟨i, hi, e, hN⟩ := h2 j hjm hk hb
  refine ⟨i, hi, e, ?_, ?_, ?_, ?_⟩ <;> intro t ht hx <;> rw [t.reads] at hx
  · rw [hN.lower]
    simp [URJoint.lower, numOr, hm, ht, hx]
  · rw [hN.upper]
    simp [URJoint.upper, numOr, hm, ht, hx]
  · rw [hN.velocity]
    simp [URJoint.velocity, numOr, hm, ht, hx]
  · rw [hN.effort]
    simp [URJoint.effort, numOr, hm, ht, hx]

/-- **C69, unknown type, violated.** A joint of an unknown type is silently left out, however it
connects its links: the file is loaded as if the joint were not there. -/
theorem C69_violated_unknown_type (h : rob.Consistent) (hl : rob.links ≠ []) (hj : rob.joints ≠ [])
    (nm ty p ch : Str) (hp : p ∈ rob.names) (hc : ch ∈ rob.names)
    (hty : ty ∉ ["revolute".toList, "continuous".toList, "prismatic".toList, "fixed".toList,
      "floating".toList, "planar".toList]) (c : Cache) (simple : Bool) :
    loadModel X c (some [rob.xmlWith [.elem .joint [(.name, nm), (.type, ty)]
      [.elem .parent [(.link, p)] [], .elem .child [(.link, ch)] []]]]) path simple =
    loadModel X c (some [rob.xml]) path simple := by
  rw [Robot.loadModel_with h hl (more := [.elem .joint [(.name, nm), (.type, ty)]
      [.elem .parent [(.link, p)] [], .elem .child [(.link, ch)] []]]) (by simp) (by simp)
      (by simp [Xml.firstIn, Robot.xmlWith]),
    Robot.loadModel_eq h hl hj (by simp [Xml.firstIn, Robot.xml])]
  obtain ⟨lp, hlp, rfl⟩ := List.mem_map.1 hp
  obtain ⟨lc, hlc, rfl⟩ := List.mem_map.1 hc
  have : loadJoint X (.elem .joint [(.name, nm), (.type, ty)]
      [.elem .parent [(.link, lp.name)] [], .elem .child [(.link, lc.name)] []]) (rob.map path) =
      .ok (rob.map path) := by
    unfold loadJoint
    simp only [parseElement, Xml.first_cons, Xml.name_elem, Xml.first_nil, if_true, reduceCtorEq, if_false,
      Out.ofOption, Out.bind]
    rw [parseAttribute_eq (s := lp.name) (by simp [Xml.attr_cons]),
      parseAttribute_eq (s := lc.name) (by simp [Xml.attr_cons])]
    simp only [UMap.at, Robot.map_link h hlp, Robot.map_link h hlc, Out.ofOption]
    rw [parseOrigin_eq (o := none) (by simp [Xml.first_cons])]
    have ha : axisNum X (.elem .joint [(.name, nm), (.type, ty)]
        [.elem .parent [(.link, lp.name)] [], .elem .child [(.link, lc.name)] []]) = .ok 0 := by
      simp [axisNum, Xml.first_cons, Out.ifSome]
    rw [ha]
    simp only
    rw [parseAttribute_eq (s := nm) (by simp [Xml.attr_cons]),
      parseAttribute_eq (s := ty) (by simp [Xml.attr_cons])]
    simp only [List.mem_cons, List.not_mem_nil, or_false, not_or] at hty
    obtain ⟨t1, t2, t3, t4, t5, t6⟩ := hty
    simp only
    rw [if_neg (by rintro (e | e | e); exacts [t1 e, t2 e, t3 e]), if_neg (show ¬ ty = sFixed from t4),
      if_neg (show ¬ ty = sFloating from t5), if_neg (show ¬ ty = sPlanar from t6)]
  rw [loadJoints, this]
  rfl

end SpatialDyn
