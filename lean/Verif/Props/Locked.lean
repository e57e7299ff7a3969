import Verif.Props.Response
import Verif.Spec.Locked

/-! C147: a joint answers its own torque the more readily the more of the other joints are free to move. -/

namespace SpatialDyn
open Finset Body

variable {E : Ext} {b : Body} {d : Bool}

/-- A change of the torques and the change of the accelerations it causes. -/
theorem fd_change (h : Reach E b d) (hm : b.Massive) (hn : DefiniteForm b.dof b.inertia.1) (tau tau' : ℕ → ℝ)
    (f : FExt) (o : FDOpts) (hf : o.friction = false) (k : ℕ) (hk : k < b.dof) :
    ∑ j ∈ range b.dof, b.inertia.1 k j * ((b.fd E tau' f o).1 j - (b.fd E tau f o).1 j) = tau' k - tau k := by
  have e1 := fd_solves h hm hn tau' f o k hk
  have e0 := fd_solves h hm hn tau f o k hk
  unfold Sys.fdRhs at e1 e0
  simp only [hf, Bool.false_eq_true, if_false] at e1 e0
  simp only [mul_sub, sum_sub_distrib]
  rw [sum_congr rfl fun j hj => by rw [inertia_entry h hm k j hk (mem_range.1 hj)], e1,
    sum_congr rfl fun j hj => by rw [inertia_entry h hm k j hk (mem_range.1 hj)], e0]
  ring

/-- The inertia form of one response with another whose joints are free where the first is not held. -/
theorem raised_form (h : Reach E b d) (hm : b.Massive) (hn : DefiniteForm b.dof b.inertia.1) {f : FExt}
    {o : FDOpts} (hf : o.friction = false) {i : ℕ} (hi : i < b.dof) {c : ℝ} {S S' : Set ℕ} (hS : S ⊆ S')
    {tau t t' : ℕ → ℝ} (hr : b.Raised E f o i c S tau t) (hr' : b.Raised E f o i c S' tau t') :
    ∑ k ∈ range b.dof, ((b.fd E t f o).1 k - (b.fd E tau f o).1 k) * ∑ j ∈ range b.dof,
      b.inertia.1 k j * ((b.fd E t' f o).1 j - (b.fd E tau f o).1 j) =
        c * ((b.fd E t f o).1 i - (b.fd E tau f o).1 i) := by
  rw [sum_congr rfl fun k hk => by rw [fd_change h hm hn tau t' f o hf k (mem_range.1 hk)],
    sum_eq_single_of_mem i (mem_range.2 hi)]
  · rw [hr'.raised]; ring
  · intro k hk hki
    by_cases hkS : k ∈ S
    · rw [hr'.free k (mem_range.1 hk) (hS hkS) hki, sub_self, mul_zero]
    · rw [hr.held k (mem_range.1 hk) hkS hki, sub_self, zero_mul]

/-- C147: when more joints are free, the joint whose torque is raised answers more, in the direction of the
torque; just as much only if all joints accelerate as they did when fewer were free. -/
theorem C147_free (h : Reach E b d) (hm : b.Massive) (hn : DefiniteForm b.dof b.inertia.1) {f : FExt}
    {o : FDOpts} (hf : o.friction = false) {i : ℕ} (hi : i < b.dof) {c : ℝ} {S S' : Set ℕ} (hS : S ⊆ S')
    {tau t t' : ℕ → ℝ} (hr : b.Raised E f o i c S tau t) (hr' : b.Raised E f o i c S' tau t') :
    c * ((b.fd E t f o).1 i - (b.fd E tau f o).1 i) ≤ c * ((b.fd E t' f o).1 i - (b.fd E tau f o).1 i) ∧
    (c * ((b.fd E t f o).1 i - (b.fd E tau f o).1 i) = c * ((b.fd E t' f o).1 i - (b.fd E tau f o).1 i) ↔
      ∀ j < b.dof, (b.fd E t f o).1 j = (b.fd E t' f o).1 j) := by
  set A := b.inertia.1 with hA
  set u := fun j => (b.fd E t f o).1 j - (b.fd E tau f o).1 j with hu
  set u' := fun j => (b.fd E t' f o).1 j - (b.fd E tau f o).1 j with hu'
  have e1 : ∑ k ∈ range b.dof, u k * ∑ j ∈ range b.dof, A k j * u j = c * u i :=
    raised_form h hm hn hf hi subset_rfl hr hr
  have e2 : ∑ k ∈ range b.dof, u' k * ∑ j ∈ range b.dof, A k j * u' j = c * u' i :=
    raised_form h hm hn hf hi subset_rfl hr' hr'
  have e3 : ∑ k ∈ range b.dof, u k * ∑ j ∈ range b.dof, A k j * u' j = c * u i :=
    raised_form h hm hn hf hi hS hr hr'
  have e4 : ∑ k ∈ range b.dof, u' k * ∑ j ∈ range b.dof, A k j * u j = c * u i := by
    rw [← e3]
    simp only [mul_sum]
    rw [sum_comm]
    refine sum_congr rfl fun k hk => sum_congr rfl fun j hj => ?_
    rw [hA, C24_symmetric h hm j k (mem_range.1 hj) (mem_range.1 hk)]
    ring
  have key : ∑ k ∈ range b.dof, (u' k - u k) * ∑ j ∈ range b.dof, A k j * (u' j - u j) = c * u' i - c * u i := by
    simp only [mul_sub, sub_mul, sum_sub_distrib]
    rw [e1, e2, e3, e4]
    ring
  have hsame : (∀ j < b.dof, u' j - u j = 0) ↔ ∀ j < b.dof, (b.fd E t f o).1 j = (b.fd E t' f o).1 j :=
    forall₂_congr fun j _ => by
      rw [show u' j - u j = (b.fd E t' f o).1 j - (b.fd E t f o).1 j by simp only [hu, hu']; ring, sub_eq_zero,
        eq_comm]
  have hz : (∀ j < b.dof, u' j - u j = 0) → c * u' i - c * u i = 0 := fun h0 => by
    rw [← key]
    exact sum_eq_zero fun k hk => by rw [h0 k (mem_range.1 hk), zero_mul]
  have hp : ¬ (∀ j < b.dof, u' j - u j = 0) → 0 < c * u' i - c * u i := fun hne => by
    push Not at hne
    rw [← key]
    exact hn (fun j => u' j - u j) hne
  rw [← hsame]
  by_cases h0 : ∀ j < b.dof, u' j - u j = 0
  · exact ⟨by linarith [hz h0], fun _ => h0, fun _ => by show c * u i = c * u' i; linarith [hz h0]⟩
  · have := hp h0
    exact ⟨by linarith, fun e => absurd (show c * u i = c * u' i from e) (by linarith), fun e => absurd e h0⟩

/-- C147: a joint whose neighbours are all held answers with the torque divided by its diagonal entry of
`Inertia`. -/
theorem C147_held (h : Reach E b d) (hm : b.Massive) (hn : DefiniteForm b.dof b.inertia.1) {f : FExt}
    {o : FDOpts} (hf : o.friction = false) {i : ℕ} (hi : i < b.dof) {c : ℝ} {tau t : ℕ → ℝ}
    (hr : b.Raised E f o i c {i} tau t) :
    0 < b.inertia.1 i i ∧ (b.fd E t f o).1 i - (b.fd E tau f o).1 i = c / b.inertia.1 i i := by
  have ha : 0 < b.inertia.1 i i := by
    have := hn (fun j => if j = i then 1 else 0) ⟨i, hi, by simp⟩
    simpa [hi] using this
  refine ⟨ha, ?_⟩
  have e := fd_change h hm hn tau t f o hf i hi
  rw [sum_eq_single_of_mem i (mem_range.2 hi) fun k hk hki => by
    rw [hr.held k (mem_range.1 hk) (by simpa using hki) hki, sub_self, mul_zero], hr.raised] at e
  rw [eq_div_iff ha.ne', mul_comm, e]
  ring

open Classical in
/-- C147: any of the other joints can be held, whatever the torque. -/
theorem C147_exists (h : Reach E b d) (hm : b.Massive) (hn : DefiniteForm b.dof b.inertia.1) (f : FExt)
    (o : FDOpts) (hf : o.friction = false) {i : ℕ} (hi : i < b.dof) (c : ℝ) (S : Set ℕ) (tau : ℕ → ℝ) :
    ∃ t, b.Raised E f o i c S tau t := by
  set A := b.inertia.1 with hA
  set P : ℕ → Prop := fun j => j ∈ S ∨ j = i with hP
  set B : ℕ → ℕ → ℝ := fun k j => if P k then (if P j then A k j else 0) else if k = j then 1 else 0 with hB
  have hB' : ∀ k < b.dof, ∀ v : ℕ → ℝ, ∑ j ∈ range b.dof, B k j * v j =
      if P k then ∑ j ∈ range b.dof, A k j * (if P j then v j else 0) else v k := by
    intro k hk v
    by_cases hk' : P k
    · simp only [hB, hk', if_true, ite_mul, zero_mul, mul_ite, mul_zero]
    · simp only [hB, hk', if_false, ite_mul, one_mul, zero_mul, sum_ite_eq, mem_range, hk, if_true]
  have hBd : DefiniteForm b.dof B := by
    rintro v ⟨j, hj, hv⟩
    rw [sum_congr rfl fun k hk => by rw [hB' k (mem_range.1 hk) v]]
    have e : ∀ k, v k * (if P k then ∑ j ∈ range b.dof, A k j * (if P j then v j else 0) else v k) =
        (if P k then v k else 0) * ∑ j ∈ range b.dof, A k j * (if P j then v j else 0) +
          (if P k then 0 else v k * v k) := by
      intro k
      by_cases hk : P k <;> simp [hk]
    rw [sum_congr rfl fun k _ => e k, sum_add_distrib]
    have h2 : 0 ≤ ∑ k ∈ range b.dof, (if P k then 0 else v k * v k) :=
      sum_nonneg fun k _ => by split; exacts [le_rfl, mul_self_nonneg _]
    by_cases hex : ∃ k < b.dof, (if P k then v k else 0) ≠ 0
    · have := hn (fun k => if P k then v k else 0) hex
      linarith
    · push Not at hex
      have hjP : ¬ P j := fun hp => hv (by simpa [hp] using hex j hj)
      rw [sum_eq_zero fun k hk => by rw [hex k (mem_range.1 hk), zero_mul], zero_add]
      refine sum_pos' (fun k _ => by split; exacts [le_rfl, mul_self_nonneg _]) ⟨j, mem_range.2 hj, ?_⟩
      rw [if_neg hjP]
      exact mul_self_pos.2 hv
  obtain ⟨v, hv⟩ := Sys.solve_exists hBd.det_ne fun k => if k = i then c else 0
  set ddq := fun j => (b.fd E tau f o).1 j + if P j then v j else 0 with hq
  set t := (b.inverseDynamics ddq f ⟨o.gravity, o.cc, false, 0⟩).1 with ht
  have hfd : ∀ j < b.dof, (b.fd E t f o).1 j = ddq j := fun j hj => C29_forward_inverse h hm hn ddq f o 0 hf j hj
  have hrow : ∀ k < b.dof, P k → t k - tau k = if k = i then c else 0 := by
    intro k hk hkP
    rw [← fd_change h hm hn tau t f o hf k hk, ← hv k hk, hB' k hk v, if_pos hkP]
    refine sum_congr rfl fun j hj => ?_
    rw [hfd j (mem_range.1 hj), hq, add_sub_cancel_left]
  refine ⟨t, ?_, fun j hj hjS hji => ?_, fun j hj hjS hji => ?_⟩
  · have := hrow i hi (.inr rfl)
    rw [if_pos rfl] at this
    linarith
  · have := hrow j hj (.inl hjS)
    rw [if_neg hji] at this
    linarith
  · have hjP : ¬ P j := fun hp => hp.elim hjS hji
    rw [hfd j hj, hq]
    simp [hjP]

/-- C147: the torques of one joint raised, all else being equal: the joint answers in that direction, by at
least the torque divided by its diagonal entry of `Inertia`, and by more if any other joint answers. -/
theorem C147_alone (h : Reach E b d) (hm : b.Massive) (hn : DefiniteForm b.dof b.inertia.1) (f : FExt)
    (o : FDOpts) (hf : o.friction = false) {i : ℕ} (hi : i < b.dof) (c : ℝ) (tau : ℕ → ℝ) {u : ℕ → ℝ}
    (hu : ∀ j < b.dof,
      u j = (b.fd E (Function.update tau i (tau i + c)) f o).1 j - (b.fd E tau f o).1 j) :
    c ^ 2 / b.inertia.1 i i ≤ c * u i ∧
      (c * u i = c ^ 2 / b.inertia.1 i i ↔ ∀ j < b.dof, j ≠ i → u j = 0) := by
  have hr' : b.Raised E f o i c Set.univ tau (Function.update tau i (tau i + c)) :=
    ⟨by simp, fun j _ _ hj => by simp [hj], fun j _ hj => absurd (Set.mem_univ j) hj⟩
  obtain ⟨t, hr⟩ := C147_exists h hm hn f o hf hi c {i} tau
  obtain ⟨hpos, e⟩ := C147_held h hm hn hf hi hr
  obtain ⟨h1, h2⟩ := C147_free h hm hn hf hi (Set.subset_univ _) hr hr'
  rw [← hu i hi, e, show c * (c / b.inertia.1 i i) = c ^ 2 / b.inertia.1 i i by ring] at h1 h2
  refine ⟨h1, eq_comm.trans (h2.trans ⟨fun h3 j hj hji => ?_, fun h3 => h2.1 ?_⟩)⟩
  · rw [hu j hj, ← h3 j hj, hr.held j hj (by simpa using hji) hji, sub_self]
  · have e1 := fd_change h hm hn tau (Function.update tau i (tau i + c)) f o hf i hi
    rw [sum_eq_single_of_mem i (mem_range.2 hi) fun k hk hki => by
      rw [← hu k (mem_range.1 hk), h3 k (mem_range.1 hk) hki, mul_zero], ← hu i hi] at e1
    have e2 : b.inertia.1 i i * u i = c := by rw [e1]; simp
    rw [← e2]
    field_simp

/-- C147: the same with `ForwardDynamicsAba`, on any base. -/
theorem C147_aba (h : Reach E b d) (hd : b.Definite) (f : FExt) (o : FDOpts) (hf : o.friction = false) {i : ℕ}
    (hi : i < b.dof) (c : ℝ) (tau : ℕ → ℝ) {u : ℕ → ℝ} (hu : ∀ j < b.dof,
      u j = (b.forwardDynamicsAba (Function.update tau i (tau i + c)) f o).1 j - (b.forwardDynamicsAba tau f o).1 j) :
    c ^ 2 / b.inertia.1 i i ≤ c * u i ∧
      (c * u i = c ^ 2 / b.inertia.1 i i ↔ ∀ j < b.dof, j ≠ i → u j = 0) :=
  C147_alone h (hd.massive h.inv.tree) (hd.form h) f o hf hi c tau fun j hj => by
    rw [hu j hj, C125_aba h hd _ _ f f o hf j hj]

/-- C147: the same for external forces instead of a torque: when more joints are free, the links answer more
to a change of the forces on them, as measured by its power on the answer; just as much only if all joints
accelerate alike. -/
theorem C147_push (h : Reach E b d) (hm : b.Massive) (hn : DefiniteForm b.dof b.inertia.1) {f f' : FExt}
    {o : FDOpts} (hf : o.friction = false) {S S' : Set ℕ} (hS : S ⊆ S') {tau t t' : ℕ → ℝ}
    (hr : b.Pushed E f f' o S tau t) (hr' : b.Pushed E f f' o S' tau t') {u u' : ℕ → ℝ} {x x' : ℕ → Motion}
    {T : ℕ → Iso} (hu : ∀ j < b.dof, u j = (b.fd E t f' o).1 j - (b.fd E tau f o).1 j)
    (hu' : ∀ j < b.dof, u' j = (b.fd E t' f' o).1 j - (b.fd E tau f o).1 j)
    (hx : ∀ k < b.dof, b.LinkVel u k (x k)) (hx' : ∀ k < b.dof, b.LinkVel u' k (x' k))
    (hT : ∀ k < b.dof, (b.tToWorld k).map Prod.fst = .ok (T k)) :
    0 ≤ ∑ k ∈ range b.dof, ((T k).actM (x k)).dot ((f' k).getD 0 - (f k).getD 0) ∧
    ∑ k ∈ range b.dof, ((T k).actM (x k)).dot ((f' k).getD 0 - (f k).getD 0) ≤
      ∑ k ∈ range b.dof, ((T k).actM (x' k)).dot ((f' k).getD 0 - (f k).getD 0) ∧
    (∑ k ∈ range b.dof, ((T k).actM (x k)).dot ((f' k).getD 0 - (f k).getD 0) =
      ∑ k ∈ range b.dof, ((T k).actM (x' k)).dot ((f' k).getD 0 - (f k).getD 0) ↔
        ∀ j < b.dof, (b.fd E t f' o).1 j = (b.fd E t' f' o).1 j) := by
  set A := b.inertia.1 with hA
  -- the power of the change on a motion of joints that are free
  have form : ∀ {s : ℕ → ℝ} {S1 S2 : Set ℕ} {v w : ℕ → ℝ} {y : ℕ → Motion}, S1 ⊆ S2 →
      (∀ j < b.dof, j ∉ S1 → v j = 0) → b.Pushed E f f' o S2 tau s →
      (∀ j < b.dof, w j = (b.fd E s f' o).1 j - (b.fd E tau f o).1 j) → (∀ k < b.dof, b.LinkVel v k (y k)) →
      ∑ i ∈ range b.dof, v i * ∑ j ∈ range b.dof, A i j * w j =
        ∑ k ∈ range b.dof, ((T k).actM (y k)).dot ((f' k).getD 0 - (f k).getD 0) := by
    intro s S1 S2 v w y hSS hv hp hw hy
    have e := C125_response h hm hn tau s f f' o hf v hy hT
    rw [sum_eq_zero fun i hi => ?_, zero_add] at e
    · rw [e]
      refine sum_congr rfl fun i _ => ?_
      rw [mul_sum]
      refine sum_congr rfl fun j hj => ?_
      rw [hw j (mem_range.1 hj)]
      ring
    · by_cases hiS : i ∈ S1
      · rw [hp.free i (mem_range.1 hi) (hSS hiS), sub_self, mul_zero]
      · rw [hv i (mem_range.1 hi) hiS, zero_mul]
  have z : ∀ j < b.dof, j ∉ S → u j = 0 := fun j hj hjS => by rw [hu j hj, hr.held j hj hjS, sub_self]
  have z' : ∀ j < b.dof, j ∉ S' → u' j = 0 := fun j hj hjS => by rw [hu' j hj, hr'.held j hj hjS, sub_self]
  have e1 := form subset_rfl z hr hu hx
  have e2 := form subset_rfl z' hr' hu' hx'
  have e3 := form hS z hr' hu' hx
  set P := ∑ k ∈ range b.dof, ((T k).actM (x k)).dot ((f' k).getD 0 - (f k).getD 0)
  set P' := ∑ k ∈ range b.dof, ((T k).actM (x' k)).dot ((f' k).getD 0 - (f k).getD 0)
  have e4 : ∑ k ∈ range b.dof, u' k * ∑ j ∈ range b.dof, A k j * u j = P := by
    rw [← e3]
    simp only [mul_sum]
    rw [sum_comm]
    refine sum_congr rfl fun k hk => sum_congr rfl fun j hj => ?_
    rw [hA, C24_symmetric h hm j k (mem_range.1 hj) (mem_range.1 hk)]
    ring
  have key : ∑ k ∈ range b.dof, (u' k - u k) * ∑ j ∈ range b.dof, A k j * (u' j - u j) = P' - P := by
    simp only [mul_sub, sub_mul, sum_sub_distrib]
    rw [e1, e2, e3, e4]
    ring
  have hnn : ∀ w : ℕ → ℝ, 0 ≤ ∑ k ∈ range b.dof, w k * ∑ j ∈ range b.dof, A k j * w j := fun w => by
    by_cases hne : ∃ k < b.dof, w k ≠ 0
    · exact (hn w hne).le
    · push Not at hne
      exact (sum_eq_zero fun k hk => by rw [hne k (mem_range.1 hk), zero_mul]).ge
  refine ⟨e1 ▸ hnn u, by linarith [key ▸ hnn fun j => u' j - u j], fun e j hj => ?_, fun e => ?_⟩
  · by_contra hne
    have := hn (fun j => u' j - u j) ⟨j, hj, fun e0 => hne (by rw [hu j hj, hu' j hj] at e0; linarith)⟩
    rw [key, e, sub_self] at this
    exact lt_irrefl _ this
  · have : ∑ k ∈ range b.dof, (u' k - u k) * ∑ j ∈ range b.dof, A k j * (u' j - u j) = 0 :=
      sum_eq_zero fun k hk => by
        rw [hu k (mem_range.1 hk), hu' k (mem_range.1 hk), e k (mem_range.1 hk), sub_self, zero_mul]
    linarith [key]

/-- A branched robot with a load, one joint of which is driven while another is held or free. -/
example (E : Ext) (o : FDOpts) (ho : o.friction = false) : ∃ (d : Bool) (t t' : ℕ → ℝ),
    Reach E demoLoaded d ∧ demoLoaded.Definite ∧ demoLoaded.Massive ∧
    DefiniteForm demoLoaded.dof demoLoaded.inertia.1 ∧ 2 < demoLoaded.dof ∧
    demoLoaded.Raised E (fun _ => none) o 0 1 {j | j ≠ 1} (fun _ => 0) t ∧
    demoLoaded.Raised E (fun _ => none) o 0 1 Set.univ (fun _ => 0) t' := by
  obtain ⟨d, h⟩ := demoLoaded_reach E
  have hm := demoLoaded_definite.massive h.inv.tree
  have hn := demoLoaded_definite.form h
  have h3 : 2 < demoLoaded.dof := by show 2 < 3; omega
  obtain ⟨t, ht⟩ := C147_exists h hm hn (fun _ => none) o ho (i := 0) (by omega) 1 {j | j ≠ 1} fun _ => 0
  obtain ⟨t', ht'⟩ := C147_exists h hm hn (fun _ => none) o ho (i := 0) (by omega) 1 Set.univ fun _ => 0
  exact ⟨d, t, t', h, demoLoaded_definite, hm, hn, h3, ht, ht'⟩

/-- The robot with a load, pushed at one link with all joints held or all free, meets the hypotheses. -/
example (E : Ext) (F : Force) (o : FDOpts) (ho : o.friction = false) : ∃ (d : Bool) (f' : FExt) (t t' u u' : ℕ → ℝ)
    (x x' : ℕ → Motion) (T : ℕ → Iso), Reach E demoLoaded d ∧ demoLoaded.Massive ∧
    DefiniteForm demoLoaded.dof demoLoaded.inertia.1 ∧ f' 2 = some F ∧
    demoLoaded.Pushed E (fun _ => none) f' o ∅ 0 t ∧ demoLoaded.Pushed E (fun _ => none) f' o Set.univ 0 t' ∧
    (∀ j < demoLoaded.dof, u j = (demoLoaded.fd E t f' o).1 j - (demoLoaded.fd E 0 (fun _ => none) o).1 j) ∧
    (∀ j < demoLoaded.dof, u' j = (demoLoaded.fd E t' f' o).1 j - (demoLoaded.fd E 0 (fun _ => none) o).1 j) ∧
    (∀ k < demoLoaded.dof, demoLoaded.LinkVel u k (x k)) ∧ (∀ k < demoLoaded.dof, demoLoaded.LinkVel u' k (x' k)) ∧
    ∀ k < demoLoaded.dof, (demoLoaded.tToWorld k).map Prod.fst = .ok (T k) := by
  obtain ⟨d, h⟩ := demoLoaded_reach E
  have hm := demoLoaded_definite.massive h.inv.tree
  have hn := demoLoaded_definite.form h
  set f' : FExt := fun k => if k = 2 then some F else none with hf'
  set t := (demoLoaded.inverseDynamics (demoLoaded.fd E 0 (fun _ => none) o).1 f' ⟨o.gravity, o.cc, false, 0⟩).1
    with ht
  choose! x hx using linkVel_exists h.inv.tree fun i =>
    (demoLoaded.fd E t f' o).1 i - (demoLoaded.fd E 0 (fun _ => none) o).1 i
  choose! x' hx' using linkVel_exists h.inv.tree fun i =>
    (demoLoaded.fd E 0 f' o).1 i - (demoLoaded.fd E 0 (fun _ => none) o).1 i
  refine ⟨d, f', t, 0, _, _, x, x', fun k => demoLoaded.viewTw k, h, hm, hn, if_pos rfl,
    ⟨fun j _ hj => absurd hj (Set.notMem_empty j), fun j hj _ => ?_⟩,
    ⟨fun _ _ _ => rfl, fun j _ hj => absurd (Set.mem_univ j) hj⟩, fun _ _ => rfl, fun _ _ => rfl, hx, hx',
    fun k hk => ?_⟩
  · exact C29_forward_inverse h hm hn _ f' o 0 ho j hj
  · unfold Body.tToWorld
    rw [index_ofNat hk]
    rfl

end SpatialDyn
