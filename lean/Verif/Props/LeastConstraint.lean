import Verif.Spec.LeastConstraint
import Verif.Props.Forward

/-! C123: forward dynamics obeys Gauss's principle of least constraint. -/

namespace SpatialDyn
open Finset Body

variable {E : Ext} {b : Body} {d : Bool}

theorem linkMomentum_add (b : Body) (k : ℕ) (m n : Motion) :
    b.linkMomentum k (m + n) = b.linkMomentum k m + b.linkMomentum k n := by
  unfold linkMomentum
  induction b.parts k with
  | nil => simp
  | cons I l ih =>
    simp only [List.map_cons, List.sum_cons]
    rw [ih, Inertia.app_add]
    abel

theorem Body.Massive.momentum_symm (hm : b.Massive) {k : ℕ} (hk : k < b.dof) (m n : Motion) :
    m.dot (b.linkMomentum k n) = n.dot (b.linkMomentum k m) := by
  have hs := hm.symm k hk
  unfold linkMomentum
  revert hs
  induction b.parts k with
  | nil => intro _; simp [Motion.dot]
  | cons I l ih =>
    intro hs
    simp only [List.map_cons, List.sum_cons, Motion.dot_add]
    rw [ih fun J hJ => hs J (List.mem_cons_of_mem _ hJ),
      Inertia.dot_app_symm (I := I) (hs I List.mem_cons_self) m n]

/-- Twice the kinetic energy, link by link. -/
theorem inertia_form (h : Reach E b d) (hm : b.Massive) (u : ℕ → ℝ) {x : ℕ → Motion}
    (hx : ∀ k < b.dof, b.LinkVel u k (x k)) :
    ∑ i ∈ range b.dof, ∑ j ∈ range b.dof, u i * b.inertia.1 i j * u j =
      ∑ k ∈ range b.dof, (x k).dot (b.linkMomentum k (x k)) := by
  have e1 : ∑ i ∈ range b.dof, ∑ j ∈ range b.dof, u i * b.inertia.1 i j * u j = b.fresh.energy2 u := by
    rw [Sys.energy2_eq]
    refine sum_congr rfl fun i hi => ?_
    rw [mul_sum]
    refine sum_congr rfl fun j hj => ?_
    rw [(inertia_run h.inv).2.1.mass h.inv.wf hm.symI (hm.posMass h.inv.tree) i j (mem_range.1 hi)
      (mem_range.1 hj)]
    ring
  rw [e1]
  refine sum_congr rfl fun k hk => ?_
  have hk := mem_range.1 hk
  have hTv : (b.freshTw k).Valid := by
    have := h.inv.wf.Tw_valid k hk; rwa [fresh_Tw hk] at this
  rw [← (hx k hk).world h.inv hk, hm.Iw_eq hk, hTv.inv_actM, hTv.dot_act]

/-- Link accelerations differ by the link velocities of the difference. -/
theorem LinkAcc_sub (h : Reach E b d) {cc : Bool} {A0 : Motion} {w w' u : ℕ → ℝ} (hu : ∀ i < b.dof, w i = w' i + u i)
    {k : ℕ} (hk : k < b.dof) {a a' x : Motion} (ha : b.LinkAcc cc A0 w k a) (ha' : b.LinkAcc cc A0 w' k a')
    (hx : b.LinkVel u k x) : a = a' + x := by
  have hTv : (b.freshTw k).Valid := by
    have := h.inv.wf.Tw_valid k hk; rwa [fresh_Tw hk] at this
  have e : (b.freshTw k).actM a = (b.freshTw k).actM (a' + x) := by
    rw [Iso.actM_add, ha.world h.inv hk, ha'.world h.inv hk, hx.world h.inv hk]
    have : b.fresh.V w k = b.fresh.V w' k + b.fresh.V u k := by
      unfold Sys.V
      rw [← sum_add_distrib]
      refine sum_congr rfl fun i hi => ?_
      rw [hu i (mem_range.1 hi), add_smul]
    rw [this]
    abel
  rw [← hTv.inv_actM a, e, hTv.inv_actM]

theorem Body.LinkAcc.congr {cc : Bool} {A0 : Motion} {w w' : ℕ → ℝ} {k : ℕ} {a : Motion} (ht : b.Tree)
    (hw : ∀ i < b.dof, w i = w' i) (ha : b.LinkAcc cc A0 w k a) (hk : k < b.dof) : b.LinkAcc cc A0 w' k a := by
  induction ha with
  | root hr hX =>
    rw [hw _ hk]
    exact .root hr hX
  | @link i p c v hp _ hv ih =>
    obtain ⟨-, h1, h2⟩ := ht.ids i hk
    rw [hw _ hk]
    exact .link hp (ih (by omega)) hv

/-- C123: at any joint accelerations the function of Gibbs and Appell exceeds its value at the answer of
`ForwardDynamics` by half the form of `Inertia` of the difference. -/
theorem C123_gauss (h : Reach E b d) (hm : b.Massive) (hn : DefiniteForm b.dof b.inertia.1) (tau : ℕ → ℝ)
    (fext : FExt) (o : FDOpts) (hf : o.friction = false) (w : ℕ → ℝ) {v a a' : ℕ → Motion} {T : ℕ → Iso}
    (hv : ∀ k < b.dof, b.LinkVel b.vel k (v k))
    (ha : ∀ k < b.dof, b.LinkAcc o.cc (if o.gravity then ⟨-b.g, 0⟩ else 0) w k (a k))
    (ha' : ∀ k < b.dof, b.LinkAcc o.cc (if o.gravity then ⟨-b.g, 0⟩ else 0) (b.fd E tau fext o).1 k (a' k))
    (hT : ∀ k < b.dof, (b.tToWorld k).map Prod.fst = .ok (T k)) :
    b.gibbs o.cc tau fext v T w a = b.gibbs o.cc tau fext v T (b.fd E tau fext o).1 a' +
      1 / 2 * ∑ i ∈ range b.dof, ∑ j ∈ range b.dof,
        (w i - (b.fd E tau fext o).1 i) * b.inertia.1 i j * (w j - (b.fd E tau fext o).1 j) := by
  set w' := (b.fd E tau fext o).1 with hw'
  set u : ℕ → ℝ := fun i => w i - w' i with hu
  obtain ⟨x, hx⟩ : ∃ x : ℕ → Motion, ∀ k < b.dof, b.LinkVel u k (x k) := by
    choose x hx using linkVel_exists h.inv.tree u
    refine ⟨fun k => if hk : k < b.dof then x k hk else 0, fun k hk => ?_⟩
    simp only [dif_pos hk]
    exact hx k hk
  have hvw := C22_virtual_work h hm w' fext ⟨o.gravity, o.cc, false, o.eps⟩ rfl u hx hv ha' hT
  have hid : ∑ i ∈ range b.dof, u i * (b.inverseDynamics w' fext ⟨o.gravity, o.cc, false, o.eps⟩).1 i =
      ∑ i ∈ range b.dof, u i * tau i :=
    sum_congr rfl fun i hi => by rw [C29_inverse_forward h hm hn tau fext o o.eps hf i (mem_range.1 hi)]
  rw [hid] at hvw
  have hform := inertia_form h hm u hx
  simp only [hu] at hform
  rw [hform]
  have et : ∑ i ∈ range b.dof, tau i * w i = ∑ i ∈ range b.dof, tau i * w' i + ∑ i ∈ range b.dof, u i * tau i := by
    rw [← sum_add_distrib]
    exact sum_congr rfl fun i _ => by simp only [hu]; ring
  unfold gibbs
  rw [et, hvw, mul_sum]
  have key : ∀ k ∈ range b.dof, (1 / 2 * (a k).dot (b.linkMomentum k (a k)) +
        (if o.cc then (a k).dot ((v k).crossF (b.linkMomentum k (v k))) else 0) -
        ((T k).actM (a k)).dot ((fext k).getD 0)) =
      (1 / 2 * (a' k).dot (b.linkMomentum k (a' k)) +
        (if o.cc then (a' k).dot ((v k).crossF (b.linkMomentum k (v k))) else 0) -
        ((T k).actM (a' k)).dot ((fext k).getD 0)) +
      ((x k).dot (b.linkMomentum k (a' k) + (if o.cc then (v k).crossF (b.linkMomentum k (v k)) else 0)) -
        ((T k).actM (x k)).dot ((fext k).getD 0)) +
      1 / 2 * (x k).dot (b.linkMomentum k (x k)) := by
    intro k hk
    have hk := mem_range.1 hk
    have e := LinkAcc_sub h (u := u) (fun i _ => by simp [hu]) hk (ha k hk) (ha' k hk) (hx k hk)
    have es := hm.momentum_symm hk (a' k) (x k)
    rw [e, linkMomentum_add, Iso.actM_add]
    simp only [Motion.dot_add, Motion.add_dot]
    rw [es]
    cases o.cc <;> simp <;> ring
  rw [sum_congr rfl key, sum_add_distrib, sum_add_distrib]
  ring

/-- C123: the answer of `ForwardDynamics` is the only minimum of the function of Gibbs and Appell. -/
theorem C123_minimum (h : Reach E b d) (hd : b.Definite) (tau : ℕ → ℝ) (fext : FExt) (o : FDOpts)
    (hf : o.friction = false) (w : ℕ → ℝ) {v a a' : ℕ → Motion} {T : ℕ → Iso}
    (hv : ∀ k < b.dof, b.LinkVel b.vel k (v k))
    (ha : ∀ k < b.dof, b.LinkAcc o.cc (if o.gravity then ⟨-b.g, 0⟩ else 0) w k (a k))
    (ha' : ∀ k < b.dof, b.LinkAcc o.cc (if o.gravity then ⟨-b.g, 0⟩ else 0) (b.fd E tau fext o).1 k (a' k))
    (hT : ∀ k < b.dof, (b.tToWorld k).map Prod.fst = .ok (T k)) :
    b.gibbs o.cc tau fext v T (b.fd E tau fext o).1 a' ≤ b.gibbs o.cc tau fext v T w a ∧
    ((∃ i < b.dof, w i ≠ (b.fd E tau fext o).1 i) →
      b.gibbs o.cc tau fext v T (b.fd E tau fext o).1 a' < b.gibbs o.cc tau fext v T w a) := by
  have hg := C123_gauss h (hd.massive h.inv.tree) (hd.form h) tau fext o hf w hv ha ha' hT
  rw [hg]
  have hs : (∃ i < b.dof, w i ≠ (b.fd E tau fext o).1 i) → 0 < ∑ i ∈ range b.dof, ∑ j ∈ range b.dof,
      (w i - (b.fd E tau fext o).1 i) * b.inertia.1 i j * (w j - (b.fd E tau fext o).1 j) := by
    rintro ⟨i, hi, hne⟩
    exact C24_positive_definite h hd (fun i => w i - (b.fd E tau fext o).1 i) ⟨i, hi, sub_ne_zero.2 hne⟩
  refine ⟨?_, fun hne => by linarith [hs hne]⟩
  by_cases hne : ∃ i < b.dof, w i ≠ (b.fd E tau fext o).1 i
  · linarith [hs hne]
  · push Not at hne
    have : ∑ i ∈ range b.dof, ∑ j ∈ range b.dof,
      (w i - (b.fd E tau fext o).1 i) * b.inertia.1 i j * (w j - (b.fd E tau fext o).1 j) = 0 :=
      sum_eq_zero fun i hi => sum_eq_zero fun j _ => by rw [hne i (mem_range.1 hi)]; ring
    rw [this]; linarith

/-- C123: so is the answer of `ForwardDynamicsAba`, if gravity is off or the base is not turned against it
(for other bases see `C30_violated`). -/
theorem C123_aba (h : Reach E b d) (hd : b.Definite) (tau : ℕ → ℝ) (fext : FExt) (o : FDOpts)
    (hf : o.friction = false) (hg : o.gravity = true → b.T0.R.mulVec b.g = b.g) (w : ℕ → ℝ)
    {v a a' : ℕ → Motion} {T : ℕ → Iso} (hv : ∀ k < b.dof, b.LinkVel b.vel k (v k))
    (ha : ∀ k < b.dof, b.LinkAcc o.cc (if o.gravity then ⟨-b.g, 0⟩ else 0) w k (a k))
    (ha' : ∀ k < b.dof, b.LinkAcc o.cc (if o.gravity then ⟨-b.g, 0⟩ else 0)
      (b.forwardDynamicsAba tau fext o).1 k (a' k))
    (hT : ∀ k < b.dof, (b.tToWorld k).map Prod.fst = .ok (T k)) :
    b.gibbs o.cc tau fext v T (b.forwardDynamicsAba tau fext o).1 a' ≤ b.gibbs o.cc tau fext v T w a ∧
    ((∃ i < b.dof, w i ≠ (b.forwardDynamicsAba tau fext o).1 i) →
      b.gibbs o.cc tau fext v T (b.forwardDynamicsAba tau fext o).1 a' < b.gibbs o.cc tau fext v T w a) := by
  have e := C30_aba_partial h (hd.massive h.inv.tree) (hd.form h) tau fext o hf hg
  have hx := fun k hk => (ha' k hk).congr h.inv.tree e hk
  have := C123_minimum h hd tau fext o hf w hv ha hx hT
  have eg : b.gibbs o.cc tau fext v T (b.forwardDynamicsAba tau fext o).1 a' =
      b.gibbs o.cc tau fext v T (b.fd E tau fext o).1 a' := by
    unfold gibbs
    congr 1
    exact sum_congr rfl fun i hi => by rw [e i (mem_range.1 hi)]
  rw [eg]
  refine ⟨this.1, fun ⟨i, hi, hne⟩ => this.2 ⟨i, hi, ?_⟩⟩
  rwa [e i hi] at hne

/-- A robot with a load, with any torques and external forces, meets the hypotheses. -/
example (E : Ext) (tau : ℕ → ℝ) (fext : FExt) (w : ℕ → ℝ) : ∃ (d : Bool) (v a a' : ℕ → Motion) (T : ℕ → Iso),
    Reach E demoLoaded d ∧ demoLoaded.Definite ∧ (∃ i < demoLoaded.dof, demoLoaded.load i ≠ none) ∧
    (∀ k < demoLoaded.dof, demoLoaded.LinkVel demoLoaded.vel k (v k)) ∧
    (∀ k < demoLoaded.dof, demoLoaded.LinkAcc true ⟨-demoLoaded.g, 0⟩ w k (a k)) ∧
    (∀ k < demoLoaded.dof, demoLoaded.LinkAcc true ⟨-demoLoaded.g, 0⟩
      (demoLoaded.fd E tau fext { gravity := true, cc := true, friction := false, eps := 0 }).1 k (a' k)) ∧
    ∀ k < demoLoaded.dof, (demoLoaded.tToWorld k).map Prod.fst = .ok (T k) := by
  obtain ⟨d, h⟩ := demoLoaded_reach E
  choose! v hv using linkVel_exists h.inv.tree demoLoaded.vel
  choose! a ha using linkAcc_exists h.inv.tree true ⟨-demoLoaded.g, 0⟩ w
  choose! a' ha' using linkAcc_exists h.inv.tree true ⟨-demoLoaded.g, 0⟩
    (demoLoaded.fd E tau fext { gravity := true, cc := true, friction := false, eps := 0 }).1
  refine ⟨d, v, a, a', fun k => demoLoaded.viewTw k, h, demoLoaded_definite, ⟨2, by decide, ?_⟩, hv, ha, ha',
    fun k hk => ?_⟩
  · rw [show demoLoaded.load = Function.update demo.load 2 (some unitInertia) from rfl]
    simp
  · unfold Body.tToWorld
    rw [index_ofNat hk]
    rfl

end SpatialDyn
