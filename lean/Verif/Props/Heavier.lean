import Verif.Props.Response

/-! C126: a load makes a robot heavier, in every direction. -/

namespace SpatialDyn
open Finset Matrix Body

variable {E : Ext} {b : Body} {d : Bool}

theorem LinkIdx.resolve_eq {i : ℤ} {k : ℕ} (hk : b.LinkIdx i k) : b.resolve i = (k : ℤ) := by
  obtain ⟨h1, h2⟩ := hk
  unfold resolve
  split <;> omega

theorem addLoad_phys (hd : b.Definite) {i : ℤ} {k : ℕ} (hk : b.LinkIdx i k) {I : Inertia} (hI : I.Phys)
    (hI0 : 0 < I.mass) : (b.addLoad I i).Definite := by
  refine ⟨hd.mass, hd.symm, hd.pd, fun l hl L hL => ?_, hd.axes⟩
  have e : (b.addLoad I i).load = Function.update b.load (b.resolve i)
    (some (match b.load (b.resolve i) with | none => I | some L => L.add I)) := rfl
  rw [e, LinkIdx.resolve_eq hk] at hL
  by_cases hkl : l = k
  · subst hkl
    rw [Function.update_self] at hL
    cases hb : b.load l with
    | none => rw [hb] at hL; cases hL; exact hI
    | some L0 =>
      rw [hb] at hL; cases hL
      have h0 := hd.load l hl L0 hb
      exact C04_inertia_add_phys L0 I _ (by
        unfold Inertia.add?
        rw [if_neg (by have := h0.1; linarith : ¬ L0.mass + I.mass = 0)]) h0 hI
  · rw [Function.update_of_ne (by exact_mod_cast hkl)] at hL
    exact hd.load l hl L hL

theorem addLoad_momentum (hd : b.Definite) {i : ℤ} {k : ℕ} (hk : b.LinkIdx i k) {I : Inertia}
    (hI0 : 0 < I.mass) {l : ℕ} (hl : l < b.dof) (m : Motion) :
    (b.addLoad I i).linkMomentum l m = b.linkMomentum l m + if l = k then I.app m else 0 := by
  have e : (b.addLoad I i).load = Function.update b.load (b.resolve i)
    (some (match b.load (b.resolve i) with | none => I | some L => L.add I)) := rfl
  have ep : (b.addLoad I i).parts l = (b.rb l).inertia :: ((b.addLoad I i).load l).toList := rfl
  unfold linkMomentum
  rw [ep, e, LinkIdx.resolve_eq hk, show b.parts l = (b.rb l).inertia :: (b.load l).toList from rfl]
  by_cases hkl : l = k
  · subst hkl
    rw [Function.update_self, if_pos rfl]
    cases hb : b.load l with
    | none => simp
    | some L0 =>
      have h0 := hd.load l hl L0 hb
      simp only [Option.toList_some, List.map_cons, List.map_nil, List.sum_cons, List.sum_nil, add_zero]
      rw [Inertia.add_app L0 I (by have := h0.1; show L0.mass + I.mass ≠ 0; linarith)]
      abel
  · rw [Function.update_of_ne (by exact_mod_cast hkl), if_neg hkl, add_zero]

theorem addLoad_linkVel {I : Inertia} {i : ℤ} {w : ℕ → ℝ} {k : ℕ} {x : Motion} (hx : b.LinkVel w k x) :
    (b.addLoad I i).LinkVel w k x := by
  induction hx with
  | root hr => exact .root hr
  | link hp _ ih => exact .link hp ih

/-- C126: adding a load to a link adds to the form of `Inertia` exactly twice the kinetic energy of the
load. -/
theorem C126_energy (h : Reach E b d) (hd : b.Definite) {i : ℤ} {k : ℕ} (hk : b.LinkIdx i k) {I : Inertia}
    (hI : I.Phys) (hI0 : 0 < I.mass) (w : ℕ → ℝ) {x : Motion} (hx : b.LinkVel w k x) :
    ∑ i' ∈ range b.dof, ∑ j ∈ range b.dof, w i' * (b.addLoad I i).inertia.1 i' j * w j =
      ∑ i' ∈ range b.dof, ∑ j ∈ range b.dof, w i' * b.inertia.1 i' j * w j + x.dot (I.app x) := by
  have h' : Reach E (b.addLoad I i) _ := h.step (.addLoad I i) trivial rfl
  have hd' := addLoad_phys hd hk hI hI0
  choose! y hy using linkVel_exists h.inv.tree w
  have hy' : ∀ l < (b.addLoad I i).dof, (b.addLoad I i).LinkVel w l (y l) := fun l hl => addLoad_linkVel (hy l hl)
  have e1 := inertia_form h (hd.massive h.inv.tree) w hy
  have e2 := inertia_form h' (hd'.massive h'.inv.tree) w hy'
  rw [e1]
  refine e2.trans ?_
  show ∑ l ∈ range b.dof, _ = _
  have hxy : y k = x := by
    have hTv : (b.freshTw k).Valid := by
      have := h.inv.wf.Tw_valid k hk.1; rwa [fresh_Tw hk.1] at this
    rw [← hTv.inv_actM (y k), (hy k hk.1).world h.inv hk.1, ← hx.world h.inv hk.1, hTv.inv_actM]
  have key : ∀ l ∈ range b.dof, (y l).dot ((b.addLoad I i).linkMomentum l (y l)) =
      (y l).dot (b.linkMomentum l (y l)) + if l = k then x.dot (I.app x) else 0 := by
    intro l hl
    rw [addLoad_momentum hd hk hI0 (mem_range.1 hl), Motion.dot_add]
    congr 1
    by_cases hlk : l = k
    · rw [if_pos hlk, if_pos hlk, hlk, hxy]
    · rw [if_neg hlk, if_neg hlk]; simp [Motion.dot]
  rw [sum_congr rfl key, sum_add_distrib, sum_ite_eq' (range b.dof) k, if_pos (mem_range.2 hk.1)]

/-- C126: so the inertia of the robot with the load is at least that without it, in every direction. -/
theorem C126_heavier (h : Reach E b d) (hd : b.Definite) {i : ℤ} {k : ℕ} (hk : b.LinkIdx i k) {I : Inertia}
    (hI : I.Phys) (hI0 : 0 < I.mass) (w : ℕ → ℝ) :
    ∑ i' ∈ range b.dof, ∑ j ∈ range b.dof, w i' * b.inertia.1 i' j * w j ≤
      ∑ i' ∈ range b.dof, ∑ j ∈ range b.dof, w i' * (b.addLoad I i).inertia.1 i' j * w j := by
  obtain ⟨x, hx⟩ := linkVel_exists h.inv.tree w k hk.1
  rw [C126_energy h hd hk hI hI0 w hx]
  linarith [(C03_inertia_energy I x).2 hI]

/-- C126: the same change of torques and external forces accelerates the robot with the load less: the power
of the change on its own response is at most that of the robot without the load. -/
theorem C126_yields_less (h : Reach E b d) (hd : b.Definite) {i : ℤ} {k : ℕ} (hk : b.LinkIdx i k) {I : Inertia}
    (hI : I.Phys) (hI0 : 0 < I.mass) (tau tau' : ℕ → ℝ) (f f' : FExt) (o o' : FDOpts) (hf : o.friction = false)
    (hf' : o'.friction = false) {u u' : ℕ → ℝ} {x x' : ℕ → Motion} {T : ℕ → Iso}
    (hu : ∀ j < b.dof, u j = (b.fd E tau' f' o).1 j - (b.fd E tau f o).1 j)
    (hu' : ∀ j < b.dof, u' j = ((b.addLoad I i).fd E tau' f' o').1 j - ((b.addLoad I i).fd E tau f o').1 j)
    (hx : ∀ l < b.dof, b.LinkVel u l (x l)) (hx' : ∀ l < b.dof, b.LinkVel u' l (x' l))
    (hT : ∀ l < b.dof, (b.tToWorld l).map Prod.fst = .ok (T l)) :
    ∑ j ∈ range b.dof, u' j * (tau' j - tau j) +
      ∑ l ∈ range b.dof, ((T l).actM (x' l)).dot ((f' l).getD 0 - (f l).getD 0) ≤
    ∑ j ∈ range b.dof, u j * (tau' j - tau j) +
      ∑ l ∈ range b.dof, ((T l).actM (x l)).dot ((f' l).getD 0 - (f l).getD 0) := by
  have h' : Reach E (b.addLoad I i) _ := h.step (.addLoad I i) trivial rfl
  have hd' := addLoad_phys hd hk hI hI0
  have hm := hd.massive h.inv.tree
  have hn := hd.form h
  have e1 := C125_response h hm hn tau tau' f f' o hf u hx hT
  have e2 := C125_response h hm hn tau tau' f f' o hf u' hx' hT
  have e3 := C125_response h' (hd'.massive h'.inv.tree) (hd'.form h') tau tau' f f' o' hf' u'
    (x := x') (T := T) (fun l hl => addLoad_linkVel (hx' l hl)) (fun l (hl : l < b.dof) => by
      have := hT l hl
      unfold Body.tToWorld at this ⊢
      rw [index_ofNat hl] at this
      rw [index_ofNat (show l < (b.addLoad I i).dof from hl)]
      have ev : (b.addLoad I i).viewTw l = b.viewTw l := rfl
      have := Out.ok.inj this
      rw [← this]
      exact congrArg Out.ok ev)
  have e3 : ∑ j ∈ range b.dof, u' j * (tau' j - tau j) +
      ∑ l ∈ range b.dof, ((T l).actM (x' l)).dot ((f' l).getD 0 - (f l).getD 0) =
      ∑ j ∈ range b.dof, ∑ l ∈ range b.dof, u' j * (b.addLoad I i).inertia.1 j l * u' l := by
    refine e3.trans ?_
    refine sum_congr rfl fun j _ => sum_congr rfl fun l hl => ?_
    rw [hu' l (mem_range.1 hl)]
  have e1 : ∑ j ∈ range b.dof, u j * (tau' j - tau j) +
      ∑ l ∈ range b.dof, ((T l).actM (x l)).dot ((f' l).getD 0 - (f l).getD 0) =
      ∑ j ∈ range b.dof, ∑ l ∈ range b.dof, u j * b.inertia.1 j l * u l := by
    rw [e1]
    refine sum_congr rfl fun j _ => sum_congr rfl fun l hl => ?_
    rw [hu l (mem_range.1 hl)]
  have e2 : ∑ j ∈ range b.dof, u' j * (tau' j - tau j) +
      ∑ l ∈ range b.dof, ((T l).actM (x' l)).dot ((f' l).getD 0 - (f l).getD 0) =
      ∑ j ∈ range b.dof, ∑ l ∈ range b.dof, u' j * b.inertia.1 j l * u l := by
    rw [e2]
    refine sum_congr rfl fun j _ => sum_congr rfl fun l hl => ?_
    rw [hu l (mem_range.1 hl)]
  have hh := C126_heavier h hd hk hI hI0 u'
  have hg := gap_nonneg h hd u u'
  have hs : b.gap u u' = ∑ j ∈ range b.dof, ∑ l ∈ range b.dof, u j * b.inertia.1 j l * u l -
      2 * ∑ j ∈ range b.dof, ∑ l ∈ range b.dof, u' j * b.inertia.1 j l * u l +
      ∑ j ∈ range b.dof, ∑ l ∈ range b.dof, u' j * b.inertia.1 j l * u' l := by
    have hc : ∑ j ∈ range b.dof, ∑ l ∈ range b.dof, u j * b.inertia.1 j l * u' l =
        ∑ j ∈ range b.dof, ∑ l ∈ range b.dof, u' j * b.inertia.1 j l * u l := by
      rw [sum_comm]
      refine sum_congr rfl fun j hj => sum_congr rfl fun l hl => ?_
      rw [C24_symmetric h hm l j (mem_range.1 hl) (mem_range.1 hj)]
      ring
    rw [two_mul]
    nth_rewrite 2 [← hc]
    unfold Body.gap
    rw [← sum_add_distrib, ← sum_sub_distrib, ← sum_add_distrib]
    refine sum_congr rfl fun j _ => ?_
    rw [← sum_add_distrib, ← sum_sub_distrib, ← sum_add_distrib]
    exact sum_congr rfl fun l _ => by ring
  rw [hs, ← e1, ← e2] at hg
  rw [← e3] at hh
  linarith

/-- C126: so does the inertia that `opspace::Inertia` gives to a task: with the load it is at least that
without it, in every direction of the task. -/
theorem C126_opspace {T : Set ℝ} (h : Careful E T b d) (hd : b.Definite) {i : ℤ} {k : ℕ} (hk : b.LinkIdx i k)
    {I : Inertia} (hI : I.Phys) (hI0 : 0 < I.mass) {J : DMat} (hJ : b.Regular E T J)
    (hJ' : (b.addLoad I i).Regular E T J) {eps eps' : ℝ} (he : eps ∈ T) (he' : eps' ∈ T) {r r' : DMat × Body}
    (hr : b.opsInertia E J eps = .ok r) (hr' : (b.addLoad I i).opsInertia E J eps' = .ok r') (dx : ℕ → ℝ) :
    ∑ p ∈ range J.rows, ∑ q ∈ range J.rows, dx p * r.1.e p q * dx q ≤
      ∑ p ∈ range J.rows, ∑ q ∈ range J.rows, dx p * r'.1.e p q * dx q := by
  have h' : Careful E T (b.addLoad I i) _ := h.step (.addLoad I i) trivial trivial rfl
  have hd' := addLoad_phys hd hk hI hI0
  rcases Nat.eq_zero_or_pos b.dof with h0 | h0
  · exact absurd hk.1 (by omega)
  obtain ⟨s, hs⟩ := opsJbar_total (e := eps) h.inv hJ.1 h0
  obtain ⟨s', hs'⟩ := opsJbar_total (e := eps') h'.inv hJ'.1 h0
  rw [← C124_inertia h hd hJ he he hs hr dx, ← C124_inertia h' hd' hJ' he' he' hs' hr' dx]
  have h1 := ((C124_velocity h hd hJ he hs dx).2 (s'.1.mulVec dx) (C124_velocity h' hd' hJ' he' hs' dx).1).1
  refine h1.trans ?_
  have h2 := C126_heavier h.reach hd hk hI hI0 (s'.1.mulVec dx)
  unfold Body.gap
  simp only [Pi.zero_apply, sub_zero]
  exact h2

/-- A robot in motion, a load for its last link given as `-1`, a force on that link, and a task. -/
example (F : Force) (o : FDOpts) : ∃ (d : Bool) (f' : FExt) (u u' : ℕ → ℝ) (x x' : ℕ → Motion) (T : ℕ → Iso)
    (r r' : DMat × Body), Careful ext0 Set.univ demo d ∧ demo.Definite ∧ demo.LinkIdx (-1) 2 ∧
    unitInertia.Phys ∧ 0 < unitInertia.mass ∧ f' 2 = some F ∧
    (∀ j < demo.dof, u j = (demo.fd ext0 0 f' o).1 j - (demo.fd ext0 0 (fun _ => none) o).1 j) ∧
    (∀ j < demo.dof, u' j = ((demo.addLoad unitInertia (-1)).fd ext0 0 f' o).1 j -
      ((demo.addLoad unitInertia (-1)).fd ext0 0 (fun _ => none) o).1 j) ∧
    (∀ l < demo.dof, demo.LinkVel u l (x l)) ∧ (∀ l < demo.dof, demo.LinkVel u' l (x' l)) ∧
    (∀ l < demo.dof, (demo.tToWorld l).map Prod.fst = .ok (T l)) ∧
    demo.Regular ext0 Set.univ (demoTask 0 5).J ∧
    (demo.addLoad unitInertia (-1)).Regular ext0 Set.univ (demoTask 0 5).J ∧
    demo.opsInertia ext0 (demoTask 0 5).J 0 = .ok r ∧
    (demo.addLoad unitInertia (-1)).opsInertia ext0 (demoTask 0 5).J 0 = .ok r' := by
  obtain ⟨d, h⟩ := demo_reach ext0
  have h' : Reach ext0 (demo.addLoad unitInertia (-1)) _ := h.step (.addLoad unitInertia (-1)) trivial rfl
  have hk : demo.LinkIdx (-1) 2 := ⟨by decide, .inr ⟨rfl, by norm_num⟩⟩
  have hI0 : 0 < unitInertia.mass := by norm_num [unitInertia]
  have hd' := addLoad_phys demo_definite hk unitInertia_phys hI0
  choose! x hx using linkVel_exists h.inv.tree fun i =>
    (demo.fd ext0 0 (fun k => if k = 2 then some F else none) o).1 i - (demo.fd ext0 0 (fun _ => none) o).1 i
  choose! x' hx' using linkVel_exists h.inv.tree fun i =>
    ((demo.addLoad unitInertia (-1)).fd ext0 0 (fun k => if k = 2 then some F else none) o).1 i -
      ((demo.addLoad unitInertia (-1)).fd ext0 0 (fun _ => none) o).1 i
  obtain ⟨r, hr⟩ := opsInertia_total (e := 0) h.inv (J := (demoTask 0 5).J) rfl (by decide)
  obtain ⟨r', hr'⟩ := opsInertia_total (e := 0) h'.inv (J := (demoTask 0 5).J) rfl (by decide)
  refine ⟨d, _, _, _, x, x', fun k => demo.viewTw k, r, r', h.careful, demo_definite, hk, unitInertia_phys, hI0,
    if_pos rfl, fun _ _ => rfl, fun _ _ => rfl, hx, hx', fun k hk => ?_,
    ⟨rfl, ?_, fun e _ => ext0_exact _ e⟩, ⟨rfl, ?_, fun e _ => ext0_exact _ e⟩, hr, hr'⟩
  · unfold Body.tToWorld
    rw [index_ofNat hk]
    rfl
  · exact C35_regular h demo_definite fun v hv => demoTask_ind (k := 1) (k' := 0) 0 5 (by norm_num)
      (by norm_num) v 0 (Eq.trans hv (Matrix.mulVec_zero _).symm)
  · exact C35_regular h' hd' fun v hv => demoTask_ind (k := 1) (k' := 0) 0 5 (by norm_num)
      (by norm_num) v 0 (Eq.trans hv (Matrix.mulVec_zero _).symm)

end SpatialDyn
