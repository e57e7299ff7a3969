import Verif.Lemmas.UrdfProper
import Verif.Lemmas.Field
import Verif.Props.UrdfWitness
import Verif.Props.Forward

/-!
# C102, C103: what can be done with a body loaded from URDF

Writing it as JSON and reading it back, and computing its dynamics.
-/

namespace SpatialDyn
open Finset Body

variable {X : UrdfExt} {path : Str} {rob : Robot X} {r : Str} {E : Ext} {C : Codec}

/-- A moving joint with finite limits and coefficients. -/
structure URJoint.Bounded (j : URJoint X) : Prop where
  kind : j.kind = .revolute ∨ j.kind = .prismatic
  lower : j.lower.Finite
  upper : j.upper.Finite
  velocity : j.velocity.Finite
  effort : j.effort.Finite
  damping : j.damping.Finite
  friction : j.friction.Finite
  coulomb : j.coulomb.Finite

theorem URJoint.read_finite (j : URJoint X) : j.read.Finite ↔ j.Bounded := by
  unfold URJoint.read
  by_cases hk : j.kind = .fixed
  · rw [if_pos hk]
    refine ⟨fun h => ?_, fun h => ?_⟩
    · obtain ⟨a, ha⟩ := h.qMin
      cases ha
    · rcases h.kind with h | h <;> rw [hk] at h <;> cases h
  · rw [if_neg hk]
    by_cases hc : j.kind = .continuous
    · refine ⟨fun h => ?_, fun h => ?_⟩
      · obtain ⟨a, ha⟩ := h.qMin
        simp [hc] at ha
      · rcases h.kind with h | h <;> rw [hc] at h <;> cases h
    · refine ⟨fun h => ⟨?_, ?_, ?_, h.dqMax, h.fqMax, h.viscous, h.stiction, h.coulomb⟩,
        fun h => ⟨?_, ?_, h.velocity, h.effort, h.coulomb, h.damping, h.friction⟩⟩
      · cases e : j.kind <;> simp_all
      · simpa [hc] using h.qMin
      · simpa [hc] using h.qMax
      · simpa [hc] using h.lower
      · simpa [hc] using h.upper

/-- The carrier of a link is not further from the root than the link. -/
theorem Robot.car_depth (h : rob.Sound) (hr : r ∈ rob.names) {P : Str → Iso} {car : Str → Str}
    (hL : rob.Layout r P car) {k : ℕ} {x : Str} (hu : Under rob.parent rob.names r k x) :
    ∃ k' ≤ k, Under rob.parent rob.names r k' (car x) := by
  have hb : rob.Below r x := ⟨k, hu⟩
  induction hu with
  | here => exact ⟨0, le_rfl, by rw [hL.rootCar]; exact .here⟩
  | @down k y hm hu ih =>
    by_cases hyr : y = r
    · exact ⟨0, Nat.zero_le _, by rw [hyr, hL.rootCar]; exact .here⟩
    · obtain ⟨j, hj, rfl⟩ := below_joint h hr hb hyr
      by_cases hk : j.kind = .fixed
      · obtain ⟨k', hk', hu'⟩ := ih ⟨k, hu⟩
        refine ⟨k', by omega, ?_⟩
        rw [hL.fixed j hj hb hk, ← parent_of h.toConsistent hj]
        exact hu'
      · exact ⟨k + 1, le_rfl, by rw [hL.moving j hj hb hk]; exact .down hm hu⟩

/-- A merged link is carried by another one. -/
theorem Robot.car_ne (h : rob.Sound) (hr : rob.Root r) {P : Str → Iso} {car : Str → Str}
    (hL : rob.Layout r P car) {j : URJoint X} (hj : j ∈ rob.joints) (hb : rob.Below r j.child)
    (hfix : j.kind = .fixed) : car j.child ≠ j.child := by
  intro b3
  have e1 : car j.child = car j.parent := hL.fixed j hj hb hfix
  have hp := parent_of h.toConsistent hj
  obtain ⟨k, hu⟩ := hb
  cases hu with
  | here =>
    have h3 := (root_of h hr).top
    rw [hp] at h3
    exact h.nonempty (h3 ▸ (h.ends j hj).1)
  | down hm hu =>
    rw [hp] at hu
    obtain ⟨k', hk', hu'⟩ := car_depth h (List.mem_of_find?_eq_some hr) hL hu
    rw [← e1, b3] at hu'
    have := (root_of h hr).unique hu' (.down hm (hp ▸ hu))
    omega

/-! ## C102 -/

/-- **C102, JSON.** A body loaded from a description, written as JSON and read back is the same body
in the same state. -/
theorem C102_json (hC : C.Faithful) (h : rob.Sound) (hj : rob.joints ≠ []) (hr : rob.Root r)
    {top : List Xml} (htop : Xml.firstIn .robot top = some rob.xml) (c c' : Cache) (simple : Bool) :
    ∃ n m, loadModel X c (some top) path simple = .ok n ∧
      fromJson C (encBody C n) (Named.init c') = .ok m ∧ n.SameModel m ∧ n.body.ObsEq m.body := by
  obtain ⟨P, car, hL⟩ := Robot.layout_exists h hr
  obtain ⟨n, h1, hR, h2⟩ := Robot.load_ok (path := path) ext0 h hj hr hL htop c simple
  have hp := Robot.LoadedAs.proper h (List.mem_of_find?_eq_some hr) hL h2
  obtain ⟨m, k1, k2, k3, -⟩ := C44_round_trip hC hR hp c'
  have ed : m.body.dof = n.body.dof := by unfold Body.dof; rw [k2.rbs]
  have hs := h2.rest
  exact ⟨n, m, h1, k1, k2, k2.rbs.symm, by rw [hs.q, k3.q, ed], by rw [hs.dq, k3.dq, ed],
    by rw [hs.g, k3.g], funext fun k => by rw [hs.load, k3.load], k2.T0.symm, k2.anc.symm, k2.sub.symm⟩

/-- The joints that become joints of the loaded body: all moving joints below the root, and the fixed
ones too unless they are merged. -/
def Robot.Kept (rob : Robot X) (r : Str) (simple : Bool) (j : URJoint X) : Prop :=
  j ∈ rob.joints ∧ rob.Below r j.child ∧ (simple = true → j.kind ≠ .fixed)

/-- **C102, text** (partial: only when every joint of the loaded body is bounded; otherwise reading
fails).  A body loaded from a description survives pickling, or printing to a file and parsing, exactly if
all its joints are revolute or prismatic and have finite lower and upper limits, velocity and effort. -/
theorem C102_text_partial (hC : C.Faithful) (hP : C.Prints) (h : rob.Sound) (hj : rob.joints ≠ [])
    (hr : rob.Root r) {top : List Xml} (htop : Xml.firstIn .robot top = some rob.xml) (c c' : Cache)
    (simple : Bool) : ∃ n, loadModel X c (some top) path simple = .ok n ∧
      ((∀ j, rob.Kept r simple j → j.Bounded) → ∃ m, pickle C c' n = .ok m ∧ n.SameModel m ∧
        n.body.ObsEq m.body) ∧
      ((∃ j, rob.Kept r simple j ∧ ¬ j.Bounded) → pickle C c' n = .throws) := by
  obtain ⟨P, car, hL⟩ := Robot.layout_exists h hr
  obtain ⟨n, h1, hR, h2⟩ := Robot.load_ok (path := path) ext0 h hj hr hL htop c simple
  have hrm := List.mem_of_find?_eq_some hr
  have hp := Robot.LoadedAs.proper h hrm hL h2
  refine ⟨n, h1, fun hb => ?_, fun ⟨j, hk, hb⟩ => ?_⟩
  · have hf : ∀ rb ∈ n.body.rbs, rb.joint.Finite := by
      intro rb hrb
      obtain ⟨i, hi, rfl⟩ := List.getElem_of_mem hrb
      have e : n.body.rb i = n.body.rbs[i] := by simp [Body.rb, hi]
      have hB := h2.body i hi
      obtain ⟨b1, b2, b3⟩ := hB.below
      obtain ⟨j, hjm, ej⟩ := Robot.below_joint h hrm b1 b2
      rw [← e, hB.joint, ← ej, Robot.map_joint h.toConsistent hjm, URJoint.read_finite]
      refine hb j ⟨hjm, ej ▸ b1, fun hs hfix => ?_⟩
      subst hs
      rw [← ej] at b3 b1
      exact Robot.car_ne h hr hL hjm b1 hfix b3
    obtain ⟨m, k1, k2, k3, -⟩ := C58_pickle_partial hC hP hR hp c' hf
    have ed : m.body.dof = n.body.dof := by unfold Body.dof; rw [k2.rbs]
    have hs := h2.rest
    exact ⟨m, k1, k2, k2.rbs.symm, by rw [hs.q, k3.q, ed], by rw [hs.dq, k3.dq, ed],
      by rw [hs.g, k3.g], funext fun k => by rw [hs.load, k3.load], k2.T0.symm, k2.anc.symm,
      k2.sub.symm⟩
  · refine C58_violated hC hP hR hp c' ?_
    obtain ⟨hjm, hbl, hk⟩ := hk
    have hne : j.child ≠ r := by
      intro e
      have h3 := (Robot.root_of h hr).top
      rw [← e, Robot.parent_of h.toConsistent hjm] at h3
      exact h.nonempty (h3 ▸ (h.ends j hjm).1)
    have hcar : (if simple then car else id) j.child = j.child := by
      cases simple
      · rfl
      · exact hL.moving j hjm hbl (hk rfl)
    have hm : j.child ∈ n.tags.map Tag.name := (h2.bodies _).2 ⟨hbl, hne, hcar⟩
    obtain ⟨i, hi', e⟩ := List.getElem_of_mem hm
    rw [List.length_map] at hi'
    have e1 : (n.tags.getD i {}).name = j.child := by
      rw [List.getD_eq_getElem?_getD, List.getElem?_eq_getElem hi']
      simpa using e
    have hlt : i < n.body.dof := by rw [← h2.count]; exact hi'
    have hlt' : i < n.body.rbs.length := hlt
    refine ⟨n.body.rb i, by simp [Body.rb, hlt'], ?_⟩
    rw [(h2.body i hlt).joint, e1, Robot.map_joint h.toConsistent hjm, URJoint.read_finite]
    exact hb

/-- C102 does not hold as stated: a robot with a continuous joint cannot be unpickled, nor can one with
a fixed joint that was not merged. -/
theorem C102_violated (hC : C.Faithful) (hP : C.Prints) (h : rob.Sound) (hr : rob.Root r)
    {top : List Xml} (htop : Xml.firstIn .robot top = some rob.xml) (c c' : Cache)
    (simple : Bool) {j : URJoint X} (hjm : j ∈ rob.joints) (hb : rob.Below r j.child)
    (hk : j.kind = .continuous ∨ j.kind = .fixed ∧ simple = false) :
    ∃ n, loadModel X c (some top) path simple = .ok n ∧ pickle C c' n = .throws := by
  obtain ⟨n, h1, -, h2⟩ := C102_text_partial (path := path) hC hP h (List.ne_nil_of_mem hjm) hr htop c c' simple
  refine ⟨n, h1, h2 ⟨j, ⟨hjm, hb, fun hs hf => ?_⟩, fun hB => ?_⟩⟩
  · rcases hk with hk | ⟨-, hk⟩
    · rw [hk] at hf; cases hf
    · rw [hs] at hk; cases hk
  · rcases hk with hk | ⟨hk, -⟩ <;> rcases hB.kind with e | e <;> rw [hk] at e <;> cases e

/-- C102 does not hold as stated: the arm, whose joint says nothing about its velocity, cannot be
unpickled, with and without merging; its JSON document can be read. -/
example (c c' : Cache) (simple : Bool) :
    ∃ n m, loadModel xnum c (some [(armOf none (some vz)).xml]) [] simple = .ok n ∧
      pickle codec0 c' n = .throws ∧ fromJson codec0 (encBody codec0 n) (Named.init c') = .ok m ∧
      n.SameModel m := by
  have hs := armOf_sound none (some vz)
  obtain ⟨n, h1, -, h2⟩ := C102_text_partial (path := []) codec0_faithful codec0_prints hs
    (by simp [armOf]) (armOf_root _ _) (top := [(armOf none (some vz)).xml]) rfl c c' simple
  obtain ⟨n', m, k1, k2, k3, -⟩ := C102_json (path := []) codec0_faithful hs
    (by simp [armOf]) (armOf_root _ _) (top := [(armOf none (some vz)).xml]) rfl c c' simple
  rw [h1] at k1
  cases k1
  refine ⟨n, m, h1, h2 ⟨_, ⟨.head _, ?_, fun _ => by simp⟩, fun hB => ?_⟩, k2, k3⟩
  · exact armOf_below none (some vz) _ (by rw [armOf_names]; simp)
  · obtain ⟨a, ha⟩ := hB.velocity
    simp [URJoint.velocity, numOr] at ha

/-! ## C103 -/

/-- Every link that a joint moves has a positive definite tensor, and no tensor is negative. -/
structure Robot.Solid (rob : Robot X) : Prop where
  psd : ∀ l ∈ rob.links, ∀ i, l.inertial = some i → i.tensor.PSD
  pd : ∀ j ∈ rob.joints, j.kind ≠ .fixed → ∃ l ∈ rob.links, l.name = j.child ∧ ∃ i,
    l.inertial = some i ∧ ∀ v : Vec3, v ≠ 0 → 0 < v.dot (i.tensor.mulVec v)

theorem rot_form (R A : Mat3) (v : Vec3) : v.dot ((R * A * R.T).mulVec v) =
    (R.T.mulVec v).dot (A.mulVec (R.T.mulVec v)) := by
  simp [Vec3.dot, Mat3.mulVec, Mat3.T]
  ring

theorem rot_form' (R A : Mat3) (v : Vec3) : v.dot ((R.T * A * R).mulVec v) =
    (R.mulVec v).dot (A.mulVec (R.mulVec v)) := by
  have := rot_form R.T A v
  rwa [Mat3.T_T] at this

theorem rot_ne {R : Mat3} (h : R.T * R = 1) {v : Vec3} (hv : v ≠ 0) : R.mulVec v ≠ 0 := by
  intro e
  apply hv
  have : (R.T * R).mulVec v = R.T.mulVec (R.mulVec v) := (Mat3.mulVec_mulVec ..).symm
  rw [h, e] at this
  simpa using this

theorem Robot.loaded_inertia (h : rob.Sound) (hS : rob.Solid) (hrm : r ∈ rob.names) {P : Str → Iso}
    {car car' : Str → Str} (hL : rob.Layout r P car) {n : Named}
    (hl : rob.LoadedAs r P car' (rob.map path).inertia (rob.map path).joint (rob.map path).graphics n) :
    ∀ i < n.body.dof, 0 < (n.body.rb i).inertia.mass ∧ (n.body.rb i).inertia.Icom.IsSymm ∧
      ((n.body.rb i).joint.type ≠ .undefined → (n.body.rb i).joint.subspace ≠ 0 ∧
        ∀ v : Vec3, v ≠ 0 → 0 < v.dot ((n.body.rb i).inertia.Icom.mulVec v)) := by
  intro i hi
  have hb := hl.body i hi
  obtain ⟨b1, b2, b3⟩ := hb.below
  set x := (n.tags.getD i {}).name with hx
  have hxm := below_mem hrm b1
  have hmem : x ∈ rob.carried r car' x := List.mem_filter.2 ⟨hxm, by simpa using ⟨b1, b3⟩⟩
  have hR := readsAs (path := path) h
  have hpos : ∀ y ∈ rob.carried r car' x, 0 < ((rob.map path).inertia y).mass := fun y hy =>
    (map_good h.toConsistent (mem_carried hrm hy).1).mass
  have hmass : 0 < (n.body.rb i).inertia.mass := by
    rw [hb.mass]
    refine lt_of_lt_of_le (hpos x hmem) (List.single_le_sum (fun a ha => ?_) _ (List.mem_map.2 ⟨x, hmem, rfl⟩))
    obtain ⟨y, hy, rfl⟩ := List.mem_map.1 ha
    exact (hpos y hy).le
  have hpsd : ∀ y ∈ rob.names, ((rob.map path).inertia y).Icom.PSD := by
    intro y hy
    obtain ⟨l, hl, rfl⟩ := List.mem_map.1 hy
    cases e : l.inertial with
    | none => rw [hR.bare l hl e]; intro v; simp [Vec3.dot, Mat3.mulVec]
    | some t =>
      rw [hR.tensor l hl t e]
      intro v
      rw [rot_form']
      exact hS.psd l hl t e _
  refine ⟨hmass, Inertia.symm_of_sum hb.inertia fun y hy =>
    Inertia.actI_symm _ (map_good h.toConsistent (mem_carried hrm hy).1).symm, fun ht => ?_⟩
  obtain ⟨j, hjm, ej⟩ := below_joint h hrm b1 b2
  have hjt : (n.body.rb i).joint = j.read := by rw [hb.joint, ← ej, map_joint h.toConsistent hjm]
  have hk : j.kind ≠ .fixed := by
    intro hk
    rw [hjt] at ht
    unfold URJoint.read at ht
    rw [if_pos hk] at ht
    exact ht rfl
  refine ⟨?_, fun v hv => ?_⟩
  · rw [hjt]
    unfold URJoint.read
    rw [if_neg hk]
    have := moveType_ne j
    show j.moveType.subspace ≠ 0
    generalize j.moveType = t at this
    intro e
    cases t <;> simp [JType.subspace, Motion.ext_iff, Vec3.ext_iff] at e this
  · refine Inertia.pd_of_sum hb.inertia (fun y hy => (hpos y hy).le) (fun y hy => ?_) hmem (fun w hw => ?_) v hv
    · intro w
      show 0 ≤ w.dot ((_ * _ * Mat3.T _).mulVec w)
      rw [rot_form]
      exact hpsd y (mem_carried hrm hy).1 _
    · show 0 < w.dot ((_ * _ * Mat3.T _).mulVec w)
      have hv := layout_valid h hrm hL b1
      rw [rot_form]
      obtain ⟨l, hlm, e1, t, e2, hpd⟩ := hS.pd j hjm hk
      rw [show x = l.name from (e1.trans ej).symm, hR.tensor l hlm t e2, rot_form']
      have o1 : ∀ {T : Iso}, T.Valid → T.R.T * T.R = 1 := fun h => h.1
      refine hpd _ (rot_ne (o1 (originPose_valid _)) (rot_ne (R := Mat3.T _) ?_ hw))
      rw [Mat3.T_T]
      rw [e1.trans ej]
      exact (hv.inv.mul hv).mul_T

/-- **C103** (partial: only with merging of fixed joints, the default).  If every moved link has a positive
definite tensor, the body loaded from the description has a positive definite joint-space inertia and
inverse dynamics undoes forward dynamics, in every state, with any loads. -/
theorem C103_dynamics_partial (h : rob.Sound) (hj : rob.joints ≠ []) (hr : rob.Root r) (hS : rob.Solid)
    {top : List Xml} (htop : Xml.firstIn .robot top = some rob.xml) (c : Cache) :
    ∃ n, loadModel X c (some top) path true = .ok n ∧ Reach E n.body false ∧
      ∀ b d, Reach E b d → b.rbs = n.body.rbs → (∀ k L, b.load k = some L → L.Phys) →
        (∀ w : ℕ → ℝ, (∃ i < b.dof, w i ≠ 0) →
          0 < ∑ i ∈ range b.dof, ∑ k ∈ range b.dof, w i * b.inertia.1 i k * w k) ∧
        ∀ (tau : ℕ → ℝ) (fext : FExt) (o : FDOpts) (eps : ℝ), o.friction = false → ∀ i < b.dof,
          (b.inverseDynamics (b.fd E tau fext o).1 fext ⟨o.gravity, o.cc, false, eps⟩).1 i = tau i := by
  obtain ⟨P, car, hL⟩ := Robot.layout_exists h hr
  have hrm := List.mem_of_find?_eq_some hr
  obtain ⟨n, h1, hR, h2⟩ := Robot.load_ok (path := path) E h hj hr hL htop c true
  refine ⟨n, h1, hR, fun b d hb er hload => ?_⟩
  have ed : b.dof = n.body.dof := by unfold Body.dof; rw [er]
  have erb : ∀ i, b.rb i = n.body.rb i := fun i => by unfold Body.rb; rw [er]
  have key := Robot.loaded_inertia h hS hrm hL h2
  have hmv : ∀ i < n.body.dof, (n.body.rb i).joint.type ≠ .undefined := by
    intro i hi
    have hB := h2.body i hi
    obtain ⟨b1, b2, b3⟩ := hB.below
    obtain ⟨j, hjm, ej⟩ := Robot.below_joint h hrm b1 b2
    rw [hB.joint, ← ej, Robot.map_joint h.toConsistent hjm, Ne, Robot.read_fixed]
    intro hfix
    rw [← ej] at b3 b1
    exact Robot.car_ne h hr hL hjm b1 hfix b3
  have hD : b.Definite := by
    refine ⟨fun k hk => ?_, fun k hk => ?_, fun k hk => ?_, fun k _ L => hload k L, fun k hk => ?_⟩ <;>
      rw [ed] at hk <;> rw [erb]
    · exact (key k hk).1
    · exact (key k hk).2.1
    · exact ((key k hk).2.2 (hmv k hk)).2
    · exact ((key k hk).2.2 (hmv k hk)).1
  exact ⟨C24_positive_definite hb hD, fun tau fext o eps hf i hi =>
    C29_inverse_forward hb (hD.massive hb.inv.tree) (hD.form hb) tau fext o eps hf i hi⟩

/-- The tensor of the arm and the tool. -/
theorem armOf_solid (rpy a : Option (UVec xnum)) : (armOf rpy a).Solid := by
  have hpd : ∀ o : Option (UVec xnum), ∀ v : Vec3, v ≠ 0 →
      0 < v.dot ((inertialOf o).tensor.mulVec v) := by
    intro o v hv
    have h : 0 < v.x ^ 2 + v.y ^ 2 + v.z ^ 2 := by
      by_contra hn
      apply hv
      have hx : v.x = 0 := by nlinarith [sq_nonneg v.x, sq_nonneg v.y, sq_nonneg v.z]
      have hy : v.y = 0 := by nlinarith [sq_nonneg v.x, sq_nonneg v.y, sq_nonneg v.z]
      have hz : v.z = 0 := by nlinarith [sq_nonneg v.x, sq_nonneg v.y, sq_nonneg v.z]
      exact Vec3.ext hx hy hz
    simp [UInertial.tensor, inertialOf, n0, n2, n3, n4, Vec3.dot, Mat3.mulVec]
    nlinarith [sq_nonneg v.x, sq_nonneg v.y, sq_nonneg v.z]
  have hpsd : ∀ o : Option (UVec xnum), (inertialOf o).tensor.PSD := by
    intro o v
    by_cases hv : v = 0
    · subst hv; simp [Vec3.dot, Mat3.mulVec]
    · exact (hpd o v hv).le
  refine ⟨fun l hl i hi => ?_, fun j hj hk => ?_⟩
  · simp only [armOf, List.mem_cons, List.not_mem_nil, or_false] at hl
    rcases hl with rfl | rfl | rfl <;> cases hi <;> exact hpsd _
  · simp only [armOf, List.mem_cons, List.not_mem_nil, or_false] at hj
    rcases hj with rfl | rfl
    · exact ⟨_, .tail _ (.head _), rfl, _, rfl, hpd _⟩
    · exact absurd rfl hk

/-- The hypotheses of C103 are met by the arm. -/
example (c : Cache) : ∃ n, loadModel xnum c (some [(armOf none (some vz)).xml]) [] true = .ok n ∧
    (0 < n.body.dof → 0 < ∑ i ∈ range n.body.dof, ∑ k ∈ range n.body.dof,
      (1 : ℝ) * n.body.inertia.1 i k * 1) := by
  obtain ⟨n, h1, h2, h3⟩ := C103_dynamics_partial (path := []) (E := ext0) (armOf_sound none (some vz))
    (by simp [armOf]) (armOf_root _ _) (armOf_solid _ _) (top := [(armOf none (some vz)).xml]) rfl c
  refine ⟨n, h1, fun hd => ?_⟩
  · have hload : ∀ k L, n.body.load k = some L → L.Phys := by
      obtain ⟨P, car, hL⟩ := Robot.layout_exists (armOf_sound none (some vz)) (armOf_root _ _)
      obtain ⟨n', k1, -, k2⟩ := Robot.load_ok (path := []) ext0 (armOf_sound none (some vz))
        (by simp [armOf]) (armOf_root _ _) hL (top := [(armOf none (some vz)).xml]) rfl c true
      rw [h1] at k1
      cases k1
      intro k L e
      rw [k2.rest.load k] at e
      cases e
    exact (h3 n.body false h2 rfl hload).1 (fun _ => 1) ⟨0, hd, one_ne_zero⟩

theorem massive_of_pos {b : Body} (ht : b.Tree) (hm : ∀ k < b.dof, 0 < (b.rb k).inertia.mass)
    (hs : ∀ k < b.dof, (b.rb k).inertia.Icom.IsSymm) (hl : ∀ k, b.load k = none) : b.Massive := by
  have hparts : ∀ k, b.parts k = [(b.rb k).inertia] := fun k => by unfold parts; rw [hl]; rfl
  have hpos : ∀ k < b.dof, 0 < b.linkMass k := fun k hk => by
    unfold linkMass
    rw [hparts]
    simpa using hm k hk
  refine ⟨fun k hk I hI => ?_, fun k hk I hI => ?_, fun k hk _ => hpos k hk, fun k hk _ => ?_⟩
  · rw [hparts, List.mem_singleton] at hI
    exact hI ▸ hs k hk
  · rw [hparts, List.mem_singleton] at hI
    exact hI ▸ (hm k hk).le
  · classical
    rw [ht.sum_sub hk]
    refine sum_pos' (fun l hl => ?_) ⟨k, mem_range.2 hk, ?_⟩
    · split
      · exact (hpos l (mem_range.1 hl)).le
      · exact le_rfl
    · rw [if_pos .refl]; exact hpos k hk

/-- C103 does not hold without merging: a fixed joint becomes a joint that no torque moves.  Its row of
the joint-space inertia is zero, and whatever torque is asked for, inverse dynamics of the answer of
forward dynamics gives zero there. -/
theorem C103_violated (h : rob.Sound) (hr : rob.Root r) (hS : rob.Solid) {top : List Xml}
    (htop : Xml.firstIn .robot top = some rob.xml) (c : Cache) {j : URJoint X} (hjm : j ∈ rob.joints)
    (hb : rob.Below r j.child) (hk : j.kind = .fixed) :
    ∃ n, loadModel X c (some top) path false = .ok n ∧ ∃ i < n.body.dof,
      (∀ k < n.body.dof, n.body.inertia.1 i k = 0) ∧ ¬ Nonsingular n.body.dof n.body.inertia.1 ∧
      ∀ (tau : ℕ → ℝ) (fext : FExt) (o : FDOpts) (eps : ℝ),
        (n.body.inverseDynamics (n.body.fd E tau fext o).1 fext ⟨o.gravity, o.cc, false, eps⟩).1 i = 0 := by
  obtain ⟨P, car, hL⟩ := Robot.layout_exists h hr
  have hrm := List.mem_of_find?_eq_some hr
  obtain ⟨n, h1, hR, h2⟩ := Robot.load_ok (path := path) E h (List.ne_nil_of_mem hjm) hr hL htop c false
  have key := Robot.loaded_inertia h hS hrm hL h2
  have hne : j.child ≠ r := by
    intro e
    have h3 := (Robot.root_of h hr).top
    rw [← e, Robot.parent_of h.toConsistent hjm] at h3
    exact h.nonempty (h3 ▸ (h.ends j hjm).1)
  have hm : j.child ∈ n.tags.map Tag.name := (h2.bodies _).2 ⟨hb, hne, rfl⟩
  obtain ⟨i, hi', e⟩ := List.getElem_of_mem hm
  rw [List.length_map] at hi'
  have e1 : (n.tags.getD i {}).name = j.child := by
    rw [List.getD_eq_getElem?_getD, List.getElem?_eq_getElem hi']
    simpa using e
  have hlt : i < n.body.dof := by rw [← h2.count]; exact hi'
  have hS0 : (n.body.rb i).joint.subspace = 0 := by
    rw [(h2.body i hlt).joint, e1, Robot.map_joint h.toConsistent hjm]
    unfold URJoint.read
    rw [if_pos hk]
  have hM : n.body.Massive := massive_of_pos hR.inv.tree (fun k hk => (key k hk).1)
    (fun k hk => (key k hk).2.1) h2.rest.load
  have hJ : ∀ k, n.body.fresh.Jw k i = 0 := by
    intro k
    unfold Sys.Jw Sys.axis
    rw [show n.body.fresh.S i = 0 from hS0]
    split
    · ext <;> simp [Iso.actM]
    · rfl
  have hz : ∀ F, n.body.fresh.genForce F i = 0 := by
    intro F
    unfold Sys.genForce
    refine sum_eq_zero fun k _ => ?_
    rw [hJ]
    simp [Motion.dot]
  have hmass : ∀ k, n.body.fresh.massSpec i k = 0 := by
    intro k
    unfold Sys.massSpec
    refine sum_eq_zero fun l _ => ?_
    rw [hJ]
    simp [Motion.dot]
  have hrow : ∀ k < n.body.dof, n.body.inertia.1 i k = 0 := fun k hk => by
    rw [inertia_entry hR hM i k hlt hk, hmass]
  refine ⟨n, h1, i, hlt, hrow, fun hn => ?_, fun tau fext o eps => ?_⟩
  · apply hn.det_ne
    exact Matrix.det_eq_zero_of_row_eq_zero ⟨i, hlt⟩ fun k => hrow k k.2
  · rw [inverseDynamics_val hR.inv hM.symI (hM.posMass hR.inv.tree) _ _ _ i hlt]
    unfold Sys.addFriction Sys.idSpec Sys.coriolisSpec Sys.gravitySpec Sys.extSpec
    simp [hmass, hz]

/-- C103 does not hold for the arm whose tool is not merged. -/
example (c : Cache) : ∃ n, loadModel xnum c (some [(armOf none (some vz)).xml]) [] false = .ok n ∧
    ¬ Nonsingular n.body.dof n.body.inertia.1 := by
  obtain ⟨n, h1, i, hi, -, h2, -⟩ := C103_violated (path := []) (E := ext0) (armOf_sound none (some vz))
    (armOf_root _ _) (armOf_solid _ _) (top := [(armOf none (some vz)).xml]) rfl c (.tail _ (.head _))
    (armOf_below _ _ _ (by rw [armOf_names]; simp)) rfl
  exact ⟨n, h1, h2⟩

end SpatialDyn
