import Verif.Lemmas.WeldUrdf

/-!
# C133: merging the links below fixed joints changes nothing

`Welds f c Z w b`: `b` is `w` with the links below fixed joints merged into the links they are welded
to.  This is what loading with `simplify = true` does to the links of a URDF file.
-/

namespace SpatialDyn
open Finset Body

variable {E : Ext} {w b : Body} {d d' : Bool} {f : ℕ → ℕ} {c : ℕ → Option ℕ} {Z : ℕ → Iso}

/-- C133: every link of the unmerged robot is where the merged robot has it: at a fixed place on the
link that it is part of, or on the base. -/
theorem C133_pose (h : Reach E w d) (h' : Reach E b d') (hw : Welds f c Z w b) {k : ℕ}
    (hk : k < w.dof) :
    (∀ i, c k = some i → ∃ X, (b.tToWorld (i : ℕ)).map Prod.fst = .ok X ∧
      (w.tToWorld (k : ℕ)).map Prod.fst = .ok (X * Z k)) ∧
    (c k = none → (w.tToWorld (k : ℕ)).map Prod.fst = .ok (w.T0 * Z k)) := by
  have key : ∀ {b : Body} {d : Bool}, Reach E b d → ∀ {k : ℕ}, k < b.dof →
      (b.tToWorld (k : ℕ)).map Prod.fst = .ok (b.freshTw k) := by
    intro b d h k hk
    unfold Body.tToWorld
    rw [index_ofNat hk]
    show Out.ok _ = _
    rw [h.inv.viewTw k hk]
  have e := hw.tw h.inv.tree h'.inv.tree hk
  refine ⟨fun i hc => ⟨_, key h' (hw.carrier_lt h.inv.tree hk hc), ?_⟩, fun hc => ?_⟩
  · rw [key h hk, e, hc]; rfl
  · rw [key h hk, e, hc, ← hw.T0]; rfl

/-- C133: and moves there as part of it: the point `x` of link `k` has the Jacobian that its place
`Z k x` on the merged link has, and zeros at the fixed joints. -/
theorem C133_jacobian (h : Reach E w d) (h' : Reach E b d') (hw : Welds f c Z w b) {k i : ℕ}
    (hk : k < w.dof) (hc : c k = some i) (x : Vec3) :
    ∃ J J', b.jacobian (i : ℕ) ((Z k).app x) = .ok J ∧ w.jacobian (k : ℕ) x = .ok J' ∧
      (∀ j < b.dof, J'.1 (f j) = J.1 j) ∧ ∀ l < w.dof, (∀ j < b.dof, l ≠ f j) → J'.1 l = 0 := by
  have hi := hw.carrier_lt h.inv.tree hk hc
  have hl : b.LinkIdx i i := ⟨hi, .inl rfl⟩
  have hl' : w.LinkIdx k k := ⟨hk, .inl rfl⟩
  obtain ⟨J, hJ⟩ := jacobian_total b hl ((Z k).app x)
  obtain ⟨J', hJ'⟩ := jacobian_total w hl' x
  refine ⟨J, J', hJ, hJ', fun j hj => ?_, fun l hl2 hn => ?_⟩
  · rw [jacobian_val h'.inv hl hJ, jacobian_val h.inv hl' hJ', hw.jw h.inv h'.inv hk hj, hc,
      hw.tw h.inv.tree h'.inv.tree hk, hc]
    show (b.fresh.Jw i j).atPoint ((b.freshTw i * Z k).app x) = _
    congr 1
    ext <;> simp [Iso.app, Mat3.mulVec] <;> ring
  · rw [jacobian_val h.inv hl' hJ', hw.jw_fixed hl2 hn]
    ext <;> simp [Motion.atPoint]

/-- C133: the joint-space inertia has the same entries at the moving joints, and zeros at the fixed
ones. -/
theorem C133_inertia (h : Reach E w d) (h' : Reach E b d') (hw : Welds f c Z w b) (hm : w.Massive)
    (hm' : b.Massive) :
    (∀ i < b.dof, ∀ j < b.dof, w.inertia.1 (f i) (f j) = b.inertia.1 i j) ∧
    ∀ l < w.dof, (∀ j < b.dof, l ≠ f j) → ∀ k < w.dof, w.inertia.1 l k = 0 ∧ w.inertia.1 k l = 0 := by
  refine ⟨fun i hi j hj => ?_, fun l hl hn k hk => ?_⟩
  · rw [inertia_entry h hm _ _ (hw.lt i hi) (hw.lt j hj), inertia_entry h' hm' i j hi hj]
    exact hw.mass h.inv h'.inv hm hm' hi hj
  · rw [inertia_entry h hm l k hl hk, inertia_entry h hm k l hk hl]
    exact ⟨(hw.mass_fixed hl hn).2, (hw.mass_fixed hl hn).1⟩

/-- C133: velocity products and gravity need the same torques at the moving joints; so do external
forces, the forces on welded links being forces on the link they are part of. -/
theorem C133_torques (h : Reach E w d) (h' : Reach E b d') (hw : Welds f c Z w b) (hm : w.Massive)
    (hm' : b.Massive) {F F' : FExt}
    (hF : ∀ i < b.dof, (F i).getD 0 = ∑ k ∈ range w.dof with c k = some i, (F' k).getD 0) {i : ℕ}
    (hi : i < b.dof) :
    w.centrifugalCoriolis.1 (f i) = b.centrifugalCoriolis.1 i ∧
    w.gravity.1 (f i) = b.gravity.1 i ∧
    (w.externalTorques F').1 (f i) = (b.externalTorques F).1 i := by
  have hj := hw.lt i hi
  refine ⟨?_, ?_, ?_⟩
  · rw [(centrifugalCoriolis_run h'.inv).2 i hi, (centrifugalCoriolis_run h.inv).2 _ hj]
    exact hw.coriolis h.inv h'.inv hm hm' hi
  · rw [(gravity_run h'.inv).2 i hi, (gravity_run h.inv).2 _ hj]
    exact hw.gravity h.inv h'.inv hm hm' hi
  · rw [(externalTorques_run h'.inv F).2 i hi, (externalTorques_run h.inv F').2 _ hj]
    exact hw.ext h.inv h'.inv hF hi

/-- C133: `InverseDynamics` asks for the same torques at the moving joints, whatever accelerations
are given for the fixed ones, friction included. -/
theorem C133_inverse_dynamics (h : Reach E w d) (h' : Reach E b d') (hw : Welds f c Z w b)
    (hm : w.Massive) (hm' : b.Massive) {F F' : FExt}
    (hF : ∀ i < b.dof, (F i).getD 0 = ∑ k ∈ range w.dof with c k = some i, (F' k).getD 0)
    {a a' : ℕ → ℝ} (ha : ∀ i < b.dof, a' (f i) = a i) (o : IDOpts) :
    (∀ i < b.dof, (w.inverseDynamics a' F' o).1 (f i) = (b.inverseDynamics a F o).1 i) ∧
    (o.friction = false → ∀ l < w.dof, (∀ i < b.dof, l ≠ f i) →
      (w.inverseDynamics a' F' o).1 l = 0) := by
  refine ⟨fun i hi => ?_, fun hf l hl hn => ?_⟩
  · rw [inverseDynamics_val h.inv hm.symI (hm.posMass h.inv.tree) _ _ _ _ (hw.lt i hi),
      inverseDynamics_val h'.inv hm'.symI (hm'.posMass h'.inv.tree) _ _ _ i hi]
    have e := hw.id h.inv h'.inv hm hm' ha hF o.cc o.gravity hi
    have e2 : w.fresh.dq (f i) = b.fresh.dq i := (hw.dq i hi).symm
    have e3 : w.fresh.fr (f i) = b.fresh.fr i := congrArg fric (hw.joint i hi).symm
    unfold Sys.addFriction Sys.friction
    cases o.friction
    · exact e
    · simp only [if_true]
      rw [e, e2, e3]
  · rw [inverseDynamics_val h.inv hm.symI (hm.posMass h.inv.tree) _ _ _ l hl]
    unfold Sys.addFriction
    rw [hf]
    exact hw.id_fixed a' F' o.cc o.gravity hl hn

/-- C133: the accelerations that `ForwardDynamics` answers for the merged robot are those that the
torques cause in the unmerged one. -/
theorem C133_forward_dynamics (h : Reach E w d) (h' : Reach E b d') (hw : Welds f c Z w b)
    (hm : w.Massive) (hm' : b.Massive) (hn : DefiniteForm b.dof b.inertia.1) {F F' : FExt}
    (hF : ∀ i < b.dof, (F i).getD 0 = ∑ k ∈ range w.dof with c k = some i, (F' k).getD 0)
    (tau : ℕ → ℝ) (o : FDOpts) (eps : ℝ) (hf : o.friction = false) {a' : ℕ → ℝ} :
    (∀ i < b.dof, a' (f i) = (b.fd E tau F o).1 i) ↔
      ∀ i < b.dof, (w.inverseDynamics a' F' ⟨o.gravity, o.cc, false, eps⟩).1 (f i) = tau i := by
  have key : ∀ i < b.dof, (w.inverseDynamics a' F' ⟨o.gravity, o.cc, false, eps⟩).1 (f i) =
      (b.inverseDynamics (fun i => a' (f i)) F ⟨o.gravity, o.cc, false, eps⟩).1 i :=
    (C133_inverse_dynamics h h' hw hm hm' hF (fun _ _ => rfl) _).1
  have hcongr : ∀ {x y : ℕ → ℝ}, (∀ i < b.dof, x i = y i) → ∀ i < b.dof,
      (b.inverseDynamics x F ⟨o.gravity, o.cc, false, eps⟩).1 i =
        (b.inverseDynamics y F ⟨o.gravity, o.cc, false, eps⟩).1 i := by
    intro x y hxy i hi
    rw [inverseDynamics_val h'.inv hm'.symI (hm'.posMass h'.inv.tree) _ _ _ i hi,
      inverseDynamics_val h'.inv hm'.symI (hm'.posMass h'.inv.tree) _ _ _ i hi]
    show b.fresh.idSpec x F _ _ i = b.fresh.idSpec y F _ _ i
    unfold Sys.idSpec
    rw [sum_congr rfl fun j hj => by rw [hxy j (mem_range.1 hj)]]
  constructor
  · intro ha i hi
    rw [key i hi, hcongr ha i hi]
    exact C29_inverse_forward h' hm' hn tau F o eps hf i hi
  · intro ht i hi
    refine Sys.solve_unique (x := fun i => a' (f i)) (fresh_det h' hm' hn) (fun k hk => ?_) i hi
    have e := (key k hk).symm.trans ((ht k hk).trans
      (C29_inverse_forward h' hm' hn tau F o eps hf k hk).symm)
    rw [inverseDynamics_val h'.inv hm'.symI (hm'.posMass h'.inv.tree) _ _ _ k hk,
      inverseDynamics_val h'.inv hm'.symI (hm'.posMass h'.inv.tree) _ _ _ k hk] at e
    change b.fresh.idSpec _ F _ _ k = b.fresh.idSpec _ F _ _ k at e
    unfold Sys.idSpec at e
    have e2 := add_right_cancel (add_right_cancel (add_right_cancel e))
    exact e2

/-! ## The two ways of loading a description -/

variable {X : UrdfExt} {path : Str} {rob : Robot X} {r : Str} {P : Str → Iso} {car : Str → Str}

/-- C133: loaded with `simplify = true` a robot is the one loaded with `simplify = false`, with the
links below fixed joints merged.  Links with the same name correspond; a link is part of its carrier
`car`, of the base if that is the root; the poses are those of the description.  In corresponding
states the statements above apply to the two. -/
theorem C133_urdf (h : rob.Sound) (hj : rob.joints ≠ []) (hr : rob.Root r) (hL : rob.Layout r P car)
    {top : List Xml} (htop : Xml.firstIn .robot top = some rob.xml) (cw cb : Cache) :
    ∃ nw nb f c, loadModel X cw (some top) path false = .ok nw ∧
      loadModel X cb (some top) path true = .ok nb ∧
      Reach E nw.body false ∧ Reach E nb.body false ∧
      (∀ i < nb.body.dof, f i < nw.body.dof ∧
        (nw.tags.getD (f i) {}).name = (nb.tags.getD i {}).name) ∧
      (∀ k < nw.body.dof, ∀ i, c k = some i ↔
        i < nb.body.dof ∧ (nb.tags.getD i {}).name = car (nw.tags.getD k {}).name) ∧
      (∀ k < nw.body.dof, c k = none ↔ car (nw.tags.getD k {}).name = r) ∧
      ∀ w b : Body, ∀ dw db, Reach E w dw → Reach E b db → w.rbs = nw.body.rbs → b.rbs = nb.body.rbs →
        (∀ k, w.load k = none) → (∀ k, b.load k = none) → b.g = w.g → b.T0 = w.T0 →
        (∀ i < b.dof, b.q.getD i 0 = w.q.getD (f i) 0) →
        (∀ i < b.dof, b.dq.getD i 0 = w.dq.getD (f i) 0) →
        w.Massive ∧ b.Massive ∧
        Welds f c (fun k => (P (car (nw.tags.getD k {}).name)).inv * P (nw.tags.getD k {}).name) w b := by
  have hrm : r ∈ rob.names := List.mem_of_find?_eq_some hr
  obtain ⟨nw, w1, w2, w3⟩ := Robot.load_ok (path := path) E h hj hr hL htop cw false
  obtain ⟨nb, b1, b2, b3⟩ := Robot.load_ok (path := path) E h hj hr hL htop cb true
  simp only [Bool.false_eq_true, if_false] at w3
  simp only [if_true] at b3
  refine ⟨nw, nb, fun i => (nw.slot (nb.nm i)).getD 0, fun k => nb.slot (car (nw.nm k)), w1, b1, w2, b2,
    fun i hi => ?_, fun k hk i => ⟨fun e => ⟨(b3.slot_some e).1, (b3.slot_some e).2⟩, fun ⟨hi, e⟩ => ?_⟩,
    fun k hk => ⟨fun e => ?_, fun e => ?_⟩, fun w b dw db hw hb ew eb lw lb hg h0 hq hdq => ?_⟩
  · obtain ⟨m1, m2, -⟩ := b3.nm_below hi
    obtain ⟨k, hk⟩ := w3.slot_mem ⟨m1, m2, rfl⟩
    simp only [hk, Option.getD_some]
    exact w3.slot_some hk
  · show nb.slot (car (nw.nm k)) = some i
    rw [← show nb.nm i = car (nw.nm k) from e]
    exact b3.slot_nm hi
  · by_contra hne
    obtain ⟨c1, c2⟩ := Robot.carrier_below h hrm hL (w3.nm_below hk).1
    obtain ⟨i, hi⟩ := b3.slot_mem ⟨c1, hne, c2⟩
    change nb.slot (car (nw.nm k)) = none at e
    rw [hi] at e
    cases e
  · show nb.slot (car (nw.nm k)) = none
    rw [show car (nw.nm k) = r from e]
    exact b3.slot_root
  · have hpos : ∀ {car' : Str → Str} {n : Named}, rob.LoadedAs r P car' (rob.map path).inertia
        (rob.map path).joint (rob.map path).graphics n → ∀ i < n.body.dof,
        0 < (n.body.rb i).inertia.mass ∧ (n.body.rb i).inertia.Icom.IsSymm := by
      intro car' n hl i hi
      have hb := hl.body i hi
      obtain ⟨m1, m2, m3⟩ := hb.below
      have hmem : (n.tags.getD i {}).name ∈ rob.carried r car' (n.tags.getD i {}).name :=
        List.mem_filter.2 ⟨Robot.below_mem hrm m1, by simpa using ⟨m1, m3⟩⟩
      have hp : ∀ y ∈ rob.carried r car' (n.tags.getD i {}).name,
          0 < ((rob.map path).inertia y).mass := fun y hy =>
        (Robot.map_good h.toConsistent (Robot.mem_carried hrm hy).1).mass
      refine ⟨?_, Inertia.symm_of_sum hb.inertia fun y hy => Inertia.actI_symm _
        (Robot.map_good h.toConsistent (Robot.mem_carried hrm hy).1).symm⟩
      rw [hb.mass]
      refine lt_of_lt_of_le (hp _ hmem) (List.single_le_sum (fun a ha => ?_) _
        (List.mem_map.2 ⟨_, hmem, rfl⟩))
      obtain ⟨y, hy, rfl⟩ := List.mem_map.1 ha
      exact (hp y hy).le
    have hM : ∀ {car' : Str → Str} {n : Named}, rob.LoadedAs r P car' (rob.map path).inertia
        (rob.map path).joint (rob.map path).graphics n → ∀ {b : Body} {d : Bool}, Reach E b d →
        b.rbs = n.body.rbs → (∀ k, b.load k = none) → b.Massive := by
      intro car' n hl b d hb e lb
      have ed : b.dof = n.body.dof := by unfold Body.dof; rw [e]
      have er : ∀ i, b.rb i = n.body.rb i := fun i => by unfold Body.rb; rw [e]
      exact massive_of_pos hb.inv.tree (fun k hk => by rw [er]; exact (hpos hl k (ed ▸ hk)).1)
        (fun k hk => by rw [er]; exact (hpos hl k (ed ▸ hk)).2) lb
    exact ⟨hM w3 hw ew lw, hM b3 hb eb lb,
      Robot.LoadedAs.welds h hr hL w3 b3 w2.inv.tree b2.inv.tree ew eb lw lb hg h0 hq hdq⟩

/-- The arm with a tool bolted to it: the hypotheses of C133 are met by the two ways of loading it, and
the tool is a link of one of them only. -/
example (c : Cache) : ∃ nw nb f k Z, loadModel xnum c (some [(armOf none (some vz)).xml]) [] false = .ok nw ∧
    loadModel xnum c (some [(armOf none (some vz)).xml]) [] true = .ok nb ∧
    Reach ext0 nw.body false ∧ Reach ext0 nb.body false ∧ nw.body.Massive ∧ nb.body.Massive ∧
    Welds f k Z nw.body nb.body ∧ 0 < nb.body.dof ∧ ∃ l < nw.body.dof, ∀ i < nb.body.dof, l ≠ f i := by
  have hS := armOf_sound none (some vz)
  have hr := armOf_root none (some vz)
  have hj : (armOf none (some vz)).joints ≠ [] := by simp [armOf]
  have hb := armOf_below none (some vz)
  rw [armOf_names] at hb
  obtain ⟨P, car, hL⟩ := Robot.layout_exists hS hr
  obtain ⟨nw, nb, f, k, h1, h2, h3, h4, h5, -, -, h8⟩ := C133_urdf (path := []) (E := ext0) hS hj hr hL
    (top := [(armOf none (some vz)).xml]) rfl c c
  obtain ⟨nw', w1, -, w3⟩ := Robot.load_ok (path := []) ext0 hS hj hr hL
    (top := [(armOf none (some vz)).xml]) rfl c false
  obtain ⟨nb', b1, -, b3⟩ := Robot.load_ok (path := []) ext0 hS hj hr hL
    (top := [(armOf none (some vz)).xml]) rfl c true
  rw [h1] at w1
  rw [h2] at b1
  cases w1
  cases b1
  simp only [Bool.false_eq_true, if_false] at w3
  simp only [if_true] at b3
  obtain ⟨m1, m2, m3⟩ := h8 nw.body nb.body false false h3 h4 rfl rfl w3.rest.load b3.rest.load
    (by rw [w3.rest.g, b3.rest.g]) (by rw [w3.base, b3.base])
    (fun i hi => by rw [w3.rest.q, b3.rest.q]; simp [List.getD_eq_getElem?_getD, List.getElem?_replicate,
      hi, (h5 i hi).1])
    (fun i hi => by rw [w3.rest.dq, b3.rest.dq]; simp [List.getD_eq_getElem?_getD,
      List.getElem?_replicate, hi, (h5 i hi).1])
  refine ⟨nw, nb, f, k, _, h1, h2, h3, h4, m1, m2, m3, ?_, ?_⟩
  · obtain ⟨i, hi⟩ := b3.slot_mem ⟨hb ['a'] (by simp), by decide,
      hL.moving _ (.head _) (hb ['a'] (by simp)) (by decide)⟩
    exact lt_of_le_of_lt (Nat.zero_le _) (b3.slot_some hi).1
  · obtain ⟨l, hl⟩ := w3.slot_mem ⟨hb ['t'] (by simp), by decide, rfl⟩
    obtain ⟨l1, l2⟩ := w3.slot_some hl
    refine ⟨l, l1, fun i hi e => ?_⟩
    have e2 : nw.nm (f i) = nb.nm i := (h5 i hi).2
    have e3 := (b3.nm_below hi).2.2
    rw [← e2, ← e, l2] at e3
    have e4 := hL.fixed _ (.tail _ (.head _)) (hb ['t'] (by simp)) rfl
    have e5 := hL.moving _ (.head _) (hb ['a'] (by simp)) (by decide)
    exact absurd (e3.symm.trans (e4.trans e5)) (by decide)

end SpatialDyn
