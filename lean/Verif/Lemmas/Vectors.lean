import Verif.Model.Vectors
import Verif.Lemmas.Same

/-!
Reads of vector arguments, and what the loops take from them (for C127, C128).
-/

namespace SpatialDyn
variable {E : Ext} {b : Body} {d : Bool}

/-! ## The reads -/

theorem readAll_ok {v : List ℝ} {l : List ℕ} (h : ∀ i ∈ l, i < v.length) : readAll v l = .ok () := by
  induction l with
  | nil => rfl
  | cons i l ih =>
    unfold readAll readAt
    rw [if_pos (h i (by simp))]
    exact ih fun j hj => h j (by simp [hj])

theorem readAll_ub {v : List ℝ} {l : List ℕ} {i : ℕ} (hi : i ∈ l) (h : v.length ≤ i) :
    readAll v l = .ub := by
  induction l with
  | nil => cases hi
  | cons j l ih =>
    unfold readAll readAt
    by_cases hj : j < v.length
    · rw [if_pos hj]
      rcases List.mem_cons.1 hi with e | e
      · omega
      · exact ih e
    · rw [if_neg hj]; rfl

theorem readAll_range {v : List ℝ} {n : ℕ} (h : n ≤ v.length) : readAll v (List.range n) = .ok () :=
  readAll_ok fun i hi => (List.mem_range.1 hi).trans_le h

theorem readAll_range_short {v : List ℝ} {n : ℕ} (h : v.length < n) :
    readAll v (List.range n) = .ub := readAll_ub (List.mem_range.2 h) le_rfl

theorem arrOf_take (v : List ℝ) {n i : ℕ} (hi : i < n) : arrOf (v.take n) i = arrOf v i := by
  simp [arrOf, List.getD, List.getElem?_take, hi]

/-! ## Loops depend on the steps they make -/

theorem fwdLoop_steps {α : Type*} {f g : (ℕ → α) → ℕ → α → α} {n : ℕ}
    (h : ∀ a, ∀ i < n, ∀ o, f a i o = g a i o) (a0 : ℕ → α) : fwdLoop n f a0 = fwdLoop n g a0 := by
  induction n with
  | zero => rfl
  | succ n ih =>
    rw [fwdLoop_succ, fwdLoop_succ, ih fun a i hi o => h a i (by omega) o, h _ n (by omega)]

theorem bwdLoop_steps {β γ : Type*} {op : β → β → β} {par : ℕ → Option ℕ} {out out' : ℕ → β → γ}
    {fin contrib contrib' : ℕ → β → β} {n : ℕ} (h1 : ∀ i < n, out i = out' i)
    (h3 : ∀ i < n, contrib i = contrib' i) (B0 : ℕ → β) (C0 : ℕ → γ) :
    bwdLoop op n par out fin contrib B0 C0 = bwdLoop op n par out' fin contrib' B0 C0 := by
  unfold bwdLoop
  have hm : ∀ i ∈ (List.range n).reverse, i < n := by simp
  generalize (List.range n).reverse = l at hm
  generalize (B0, C0) = s
  induction l generalizing s with
  | nil => rfl
  | cons i l ih =>
    have hi := hm i (by simp)
    simp only [List.foldl_cons]
    rw [h1 i hi, h3 i hi]
    exact ih (fun j hj => hm j (by simp [hj])) _

theorem Sys.rnea_steps (σ : Sys) {x y : ℕ → ℝ} (h : ∀ i < σ.n, x i = y i) (fext : FExt) (o : IDOpts)
    (vd : Bool) (arr0 : ℕ → VAF) : σ.rnea x fext o vd arr0 = σ.rnea y fext o vd arr0 := by
  have e : σ.rneaForward x fext o vd arr0 = σ.rneaForward y fext o vd arr0 :=
    fwdLoop_steps (fun a i hi o' => by unfold Sys.rneaStep; rw [h i hi]) _
  unfold Sys.rnea
  rw [e]

theorem Sys.aba_steps (σ : Sys) {x y : ℕ → ℝ} (h : ∀ i < σ.n, x i = y i) (fext : FExt) (o : FDOpts)
    (vd done : Bool) (arr0 : ℕ → VAF) (c : AbaCache) :
    σ.aba x fext o vd done arr0 c = σ.aba y fext o vd done arr0 c := by
  have e : ∀ a B0 C0, σ.abaBackward x o done c a B0 C0 = σ.abaBackward y o done c a B0 C0 := by
    intro a B0 C0
    refine bwdLoop_steps (fun i hi => ?_) (fun i hi => ?_) B0 C0 <;>
      (funext p; simp only [Sys.abaDdq, h i hi])
  unfold Sys.aba
  simp only [e]

namespace Body

theorem inverseDynamics_steps (b : Body) {x y : ℕ → ℝ} (h : ∀ i < b.dof, x i = y i) (fext : FExt)
    (o : IDOpts) : b.inverseDynamics x fext o = b.inverseDynamics y fext o := by
  unfold inverseDynamics
  rw [b.view.rnea_steps h]
  have e : ∀ i, (∑ j ∈ Finset.range b.dof, b.c.A i j * x j) =
      ∑ j ∈ Finset.range b.dof, b.c.A i j * y j := fun i =>
    Finset.sum_congr rfl fun j hj => by rw [h j (Finset.mem_range.1 hj)]
  simp only [e]

theorem forwardDynamicsAba_steps (b : Body) {x y : ℕ → ℝ} (h : ∀ i < b.dof, x i = y i) (fext : FExt)
    (o : FDOpts) : b.forwardDynamicsAba x fext o = b.forwardDynamicsAba y fext o := by
  unfold forwardDynamicsAba
  rw [b.view.aba_steps h]

theorem discreteID_steps (b : Body) {x y : ℕ → ℝ} (h : ∀ i < b.dof, x i = y i) (dt : ℝ) (fext : FExt)
    (g : Bool) : b.discreteID E x dt fext g = b.discreteID E y dt fext g := by
  have hd : ((b.refreshPrev dt).refreshMomentum E dt).dof = b.dof := by
    have t : ∀ (c : Body) (p q : Bool), (c.touch p q).dof = c.dof := by
      intro c p q; unfold touch touchTw touchTp dof; dsimp only; split <;> split <;> (try split) <;> rfl
    have r1 : (b.refreshPrev dt).dof = b.dof := by unfold refreshPrev; split <;> rfl
    unfold refreshMomentum
    split
    · exact r1
    · exact (t _ _ _).trans r1
  unfold discreteID
  generalize (b.refreshPrev dt).refreshMomentum E dt = c at hd
  have e : ∀ a0, fwdLoop c.dof (c.nextStep E dt x c.viewTp) a0 =
      fwdLoop c.dof (c.nextStep E dt y c.viewTp) a0 :=
    fwdLoop_steps fun a i hi o' => by unfold nextStep; rw [h i (hd ▸ hi)]
  simp only [e]

theorem setQ_dof {q : List ℝ} {b' : Body} (h : b.setQ q = .ok b') : b'.dof = b.dof := by
  unfold setQ at h
  split at h
  · cases h
  · split at h <;> cases h <;> rfl

theorem setDq_dof {q : List ℝ} {b' : Body} (h : b.setDq q = .ok b') : b'.dof = b.dof := by
  unfold setDq at h
  split at h
  · cases h
  · split at h <;> cases h <;> rfl

theorem setState_dof {lim : Bool} {q dq : ℕ → ℝ} {b' : Body} (h : b.setState lim q dq = .ok b') :
    b'.dof = b.dof := by
  obtain ⟨b1, h1, h2⟩ := Out.bind_ok h
  rw [setDq_dof h2, setQ_dof h1]

theorem Out.bind_congr {α β : Type*} {x : Out α} {f g : α → Out β} (h : ∀ a, x = .ok a → f a = g a) :
    x.bind f = x.bind g := by
  cases x with
  | ok a => exact h a rfl
  | throws => rfl
  | ub => rfl

theorem integrateWith_steps {f g : Body → (ℕ → ℝ) × Body} {n : ℕ}
    (hfg : ∀ c : Body, c.dof = n → f c = g c) (hg : ∀ c : Body, c.dof = n → (g c).2.dof = n)
    (hb : b.dof = n) (dt : ℝ) (lim : Bool) (m : Method) :
    b.integrateWith f dt lim m = b.integrateWith g dt lim m := by
  unfold integrateWith
  rw [hfg b hb]
  have h0 := hg b hb
  cases m with
  | euler => rfl
  | heuns =>
    refine Out.bind_congr fun c hc => ?_
    rw [hfg c ((setState_dof hc).trans h0)]
  | rk4 =>
    refine Out.bind_congr fun c hc => ?_
    have h1 := (setState_dof hc).trans h0
    rw [hfg c h1]
    refine Out.bind_congr fun c2 hc2 => ?_
    have h2 := (setState_dof hc2).trans (hg c h1)
    rw [hfg c2 h2]
    refine Out.bind_congr fun c3 hc3 => ?_
    rw [hfg c3 ((setState_dof hc3).trans (hg c2 h2))]

theorem integrate_steps (b : Body) {x y : ℕ → ℝ} (h : ∀ i < b.dof, x i = y i) (dt : ℝ) (fext : FExt)
    {o : IntOpts} (ho : o.aba = true) : b.integrate E x dt fext o = b.integrate E y dt fext o := by
  refine integrateWith_steps (n := b.dof) (fun c hc => ?_) (fun c hc => ?_) rfl dt _ _
  · unfold accel
    rw [if_pos ho, if_pos ho, c.forwardDynamicsAba_steps (hc ▸ h)]
  · unfold accel
    rw [if_pos ho]
    show (c.forwardDynamicsAba y fext o.fd).2.dof = _
    rw [show (c.forwardDynamicsAba y fext o.fd).2 = _ from c.forwardDynamicsAba_same y fext o.fd]
    exact hc

end Body
end SpatialDyn
