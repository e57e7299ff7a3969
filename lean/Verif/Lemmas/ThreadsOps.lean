import Verif.Lemmas.ThreadsRun

/-! Every call: the program of its accesses, run alone, does what the call does. -/

namespace SpatialDyn
namespace BProg
open Prog Body

variable {α β : Type}

/-- The outcome of a program run alone on `b` is `r`; an exception leaves the body as it was. -/
structure Runs (p : BProg (Out α)) (b : Body) (r : Out (α × Body)) : Prop where
  val : (p.run memory b).1 = r.map Prod.fst
  ok : ∀ x, r = .ok x → (p.run memory b).2 = x.2
  throws : r = .throws → (p.run memory b).2 = b

theorem runs_ok {p : BProg (Out α)} {b : Body} {x : α × Body}
    (h : p.run memory b = (.ok x.1, x.2)) : Runs p b (.ok x) :=
  ⟨by rw [h]; rfl, fun y e => by rw [h, ← Out.ok.inj e], fun e => by cases e⟩

theorem Runs.congr {p p' : BProg (Out α)} {b : Body} {r : Out (α × Body)}
    (h : p.run memory b = p'.run memory b) (h' : Runs p' b r) : Runs p b r :=
  ⟨by rw [h]; exact h'.val, by rw [h]; exact h'.ok, by rw [h]; exact h'.throws⟩

theorem runs_ub {p : BProg (Out α)} {b : Body} (h : (p.run memory b).1 = .ub) :
    Runs p b .ub := ⟨by rw [h]; rfl, fun _ e => by (cases e), fun e => by cases e⟩

/-- A program that only computes an outcome. -/
theorem runs_pure {p : BProg (Out α)} {b : Body} {r : Out α} (h : p.run memory b = (r, b)) :
    Runs p b (r.map fun x => (x, b)) := by
  cases r with
  | ok x => exact runs_ok h
  | throws => exact ⟨by rw [h]; rfl, fun _ e => by (cases e), fun _ => by rw [h]⟩
  | ub => exact runs_ub (by rw [h])

theorem Runs.andThen {p : BProg (Out α)} {b : Body} {r : Out (α × Body)} (h : Runs p b r)
    {f : α → BProg (Out β)} {g : α × Body → Out (β × Body)}
    (hf : ∀ x, r = .ok x → Runs (f x.1) x.2 (g x)) (hg : ∀ x, r = .ok x → g x ≠ .throws) :
    Runs (p.andThen f) b (r.bind g) := by
  have e := run_andThen (M := memory) p f b
  rw [h.val] at e
  cases r with
  | ok x =>
    have e2 := h.ok x rfl
    have e : (p.andThen f).run memory b = (f x.1).run memory x.2 := by rw [e, e2]; rfl
    have := hf x rfl
    exact ⟨by rw [e]; exact this.val, fun y hy => by rw [e]; exact this.ok y hy,
      fun hy => absurd hy (hg x rfl)⟩
  | throws =>
    have e : (p.andThen f).run memory b = (.throws, (p.run memory b).2) := e
    exact ⟨by rw [e]; rfl, fun _ hy => by (cases hy), fun _ => by rw [e]; exact h.throws rfl⟩
  | ub =>
    have e : (p.andThen f).run memory b = (.ub, (p.run memory b).2) := e
    exact runs_ub (by rw [e])

theorem Runs.mapOk {p : BProg (Out α)} {b : Body} {r : Out (α × Body)} (h : Runs p b r)
    (f : α → β) : Runs (mapOk p f) b (r.map fun x => (f x.1, x.2)) := by
  have := h.andThen (f := fun a => pure (.ok (f a))) (g := fun x => .ok (f x.1, x.2))
    (fun x _ => runs_ok rfl) (fun _ _ e => by cases e)
  cases r <;> exact this

theorem runs_index (i : ℤ) (b : Body) : Runs (index i) b ((b.index i).map fun x => (x, b)) :=
  runs_pure (run_index i b)

/-- A query at a link. -/
theorem runs_atIndex {i : ℤ} {b : Body} {f : ℕ → BProg (Out α)} {g : ℕ → Out (α × Body)}
    (h : ∀ k, Runs (f k) b (g k)) (hg : ∀ k, g k ≠ .throws) :
    Runs ((index i).andThen f) b ((b.index i).bind g) := by
  have := (runs_index i b).andThen (f := f) (g := fun x => g x.1)
    (fun x hx => by
      cases hi : b.index i with
      | ok k => rw [hi] at hx; cases hx; exact h k
      | throws => rw [hi] at hx; cases hx
      | ub => rw [hi] at hx; cases hx)
    (fun _ _ => hg _)
  cases hi : b.index i <;> rw [hi] at this <;> exact this

theorem runs_atLink {i : ℤ} {b : Body} {f : ℕ → BProg α} {g : ℕ → α × Body}
    (h : ∀ k, (f k).run memory b = g k) :
    Runs (atLink i f) b ((b.index i).bind fun k => .ok (g k)) :=
  runs_atIndex (fun k => runs_ok (by rw [run_mbind, h]; rfl)) fun _ e => by cases e

theorem index_ofIndex {b : Body} {i : ℤ} {k : ℕ} (h : b.index i = .ok k) : b.index k = .ok k := by
  unfold Body.index at h ⊢
  simp only at h
  split at h
  · next hk =>
    have hk2 := Out.ok.inj h
    unfold resolve at *
    simp only
    rw [if_pos]
    · split <;> simp; omega
    · split <;> omega
  · cases h

theorem run_sized {x : BProg α} {b : Body} {r : α × Body} (h : x.run memory b = r)
    (hs : r.2.shape = b.shape) (f : ℕ → α → β) :
    (sized x f).run memory b = (.ok (f b.dof r.1), r.2) := by
  unfold sized
  rw [run_mbind, h, run_mbind, rd_tree]
  show (Out.ok (f r.2.shape.body.dof r.1), r.2) = _
  rw [hs]; rfl

/-! ### The tree is never touched -/

theorem shape_touch (b : Body) (x y : Bool) : (b.touch x y).shape = b.shape := by
  obtain ⟨x, y, z, w, e⟩ := touch_form b x y
  rw [e]; rfl

theorem shape_touchTw (b : Body) : b.touchTw.shape = b.shape := shape_touch b false true
theorem shape_touchTp (b : Body) : b.touchTp.shape = b.shape := shape_touch b true false

theorem shape_ext (b : Body) (f : FExt) : (b.externalTorques f).2.shape = b.shape :=
  shape_touch b _ _

theorem shape_id (b : Body) (u : ℕ → ℝ) (f : FExt) (o : IDOpts) :
    (b.inverseDynamics u f o).2.shape = b.shape := by
  unfold Body.inverseDynamics
  split
  · exact shape_ext b f
  · exact shape_touch b _ _

theorem shape_cc (b : Body) : b.centrifugalCoriolis.2.shape = b.shape := by
  unfold Body.centrifugalCoriolis
  split
  · rfl
  · exact shape_touch b _ _

theorem shape_gravity (b : Body) : b.gravity.2.shape = b.shape := by
  unfold Body.gravity
  split
  · rfl
  · exact shape_touch b _ _

theorem shape_inertia (b : Body) : b.inertia.2.shape = b.shape := by
  unfold Body.inertia
  split
  · rfl
  · exact shape_touch b _ _

theorem shape_inertiaInverse (b : Body) : b.inertiaInverse.2.shape = b.shape := by
  unfold Body.inertiaInverse
  split
  · rfl
  · exact shape_inertia b

theorem shape_fd (E : Ext) (b : Body) (u : ℕ → ℝ) (f : FExt) (o : FDOpts) :
    (b.fd E u f o).2.shape = b.shape :=
  (shape_inertiaInverse _).trans (shape_id _ _ _ _)

theorem shape_fda (b : Body) (u : ℕ → ℝ) (f : FExt) (o : FDOpts) :
    (b.forwardDynamicsAba u f o).2.shape = b.shape := shape_touch b _ _

theorem shape_iia (b : Body) : b.inertiaInverseAba.2.shape = b.shape := by
  unfold Body.inertiaInverseAba
  split
  · rfl
  · exact shape_touch b _ _

/-! ### Operational space -/

theorem runs_opsSame (J : DMat) (b : Body) :
    Runs (opsSame J) b ((b.opsSame J).map fun x => (x, b)) := runs_pure rfl

theorem opsSame_bind {J : DMat} {b : Body} {f : Bool → BProg (Out α)} {g : Bool → Out (α × Body)}
    (h : ∀ x, Runs (f x) b (g x)) (hg : ∀ x, g x ≠ .throws) :
    Runs ((opsSame J).andThen f) b ((b.opsSame J).bind g) := by
  have := (runs_opsSame J b).andThen (f := f) (g := fun x => g x.1)
    (fun x hx => by
      cases hi : b.opsSame J with
      | ok k => rw [hi] at hx; cases hx; exact h k
      | throws => rw [hi] at hx; cases hx
      | ub => rw [hi] at hx; cases hx)
    (fun _ _ => hg _)
  cases hi : b.opsSame J <;> rw [hi] at this <;> exact this

theorem opsSame_throws (b : Body) (J : DMat) : b.opsSame J ≠ .throws := by
  unfold Body.opsSame
  split
  · exact fun e => by cases e
  · split <;> exact fun e => by cases e

variable (E : Ext)

theorem opsInvCompute_throws (J : DMat) (b : Body) : b.opsInvCompute E J ≠ .throws := by
  unfold Body.opsInvCompute
  split <;> exact fun e => by cases e

theorem bind_throws {γ δ : Type} {x : Out γ} {f : γ → Out δ} (h : x ≠ .throws)
    (hf : ∀ y, f y ≠ .throws) : x.bind f ≠ .throws := by
  cases x with
  | ok y => exact hf y
  | throws => exact absurd rfl h
  | ub => exact fun e => by cases e

theorem opsInertiaInverse_throws (J : DMat) (b : Body) : b.opsInertiaInverse E J ≠ .throws := by
  unfold Body.opsInertiaInverse
  split
  · exact opsInvCompute_throws E J b
  · refine bind_throws (opsSame_throws b J) fun y => ?_
    split
    · exact fun e => by cases e
    · exact opsInvCompute_throws E J b

theorem opsLambdaCompute_throws (J : DMat) (e : ℝ) (b : Body) :
    b.opsLambdaCompute E J e ≠ .throws :=
  bind_throws (opsInertiaInverse_throws E J b) fun _ h => by cases h

theorem opsInertia_throws (J : DMat) (e : ℝ) (b : Body) : b.opsInertia E J e ≠ .throws := by
  unfold Body.opsInertia
  split
  · exact opsLambdaCompute_throws E J e b
  · refine bind_throws (opsSame_throws b J) fun y => ?_
    split
    · exact fun e => by cases e
    · exact opsLambdaCompute_throws E J e b

theorem opsJbarCompute_throws (J : DMat) (e : ℝ) (b : Body) : b.opsJbarCompute E J e ≠ .throws :=
  bind_throws (opsInertia_throws E J e b) fun _ h => by cases h

theorem opsJbar_throws (J : DMat) (e : ℝ) (b : Body) : b.opsJbar E J e ≠ .throws := by
  unfold Body.opsJbar
  split
  · exact opsJbarCompute_throws E J e b
  · refine bind_throws (opsSame_throws b J) fun y => ?_
    split
    · exact fun e => by cases e
    · exact opsJbarCompute_throws E J e b

theorem runs_opsInvCompute (J : DMat) (b : Body) :
    Runs (opsInvCompute E J) b (b.opsInvCompute E J) := by
  have ed : b.shape.body.dof = b.dof := rfl
  unfold opsInvCompute Body.opsInvCompute
  by_cases h : J.cols ≠ b.dof
  · rw [if_pos h]
    refine runs_ub ?_
    rw [run_mbind, rd_tree, run_ite, if_pos (ed ▸ h)]
    rfl
  · rw [if_neg h]
    refine runs_ok ?_
    rw [run_mbind, rd_tree, run_ite, if_neg (ed ▸ h)]
    simp only [run_mbind, run_inertiaInverse, run_wr, run_pure, rd_lambdaInv, ed]
    generalize b.inertiaInverse = r
    simp only [putCell, putFlag]

theorem runs_opsInertiaInverse (J : DMat) (b : Body) :
    Runs (opsInertiaInverse E J) b (b.opsInertiaInverse E J) := by
  unfold opsInertiaInverse Body.opsInertiaInverse
  cases h : b.c.ops.lambdaInvDone with
  | false => exact Runs.congr (by simp [h]) (runs_opsInvCompute E J b)
  | true =>
    refine Runs.congr (p' := (opsSame J).andThen fun same =>
      if same then (do let L ← Rd.lambdaInv; pure (.ok L)) else opsInvCompute E J) (by simp [h]) ?_
    refine opsSame_bind (fun x => ?_) fun x => ?_
    · cases x
      · exact runs_opsInvCompute E J b
      · exact runs_ok rfl
    · cases x
      · exact opsInvCompute_throws E J b
      · exact fun e => by cases e

theorem runs_opsLambdaCompute (J : DMat) (e : ℝ) (b : Body) :
    Runs (opsLambdaCompute E J e) b (b.opsLambdaCompute E J e) := by
  refine (runs_opsInertiaInverse E J b).andThen (fun x _ => runs_ok ?_) fun _ _ h => by cases h
  simp only [run_mbind, run_wr, run_pure, rd_lambda, putCell, putFlag]

theorem runs_opsInertia (J : DMat) (e : ℝ) (b : Body) :
    Runs (opsInertia E J e) b (b.opsInertia E J e) := by
  classical
  unfold opsInertia Body.opsInertia
  cases h : b.c.ops.lambdaDone with
  | false => exact Runs.congr (by simp [h]) (runs_opsLambdaCompute E J e b)
  | true =>
    refine Runs.congr (p' := (opsSame J).andThen fun same =>
      if same then (do
        let e' ← Rd.opsEps
        if e' = e then (do let L ← Rd.lambda; pure (.ok L)) else opsLambdaCompute E J e)
      else opsLambdaCompute E J e) (by simp [h]) ?_
    refine opsSame_bind (fun x => ?_) fun x => ?_
    · cases x
      · simp only [Bool.false_eq_true, false_and, if_false]
        exact runs_opsLambdaCompute E J e b
      · by_cases he : b.c.ops.eps = e
        · simp only [if_true, he, and_self]
          refine runs_ok ?_
          simp [he]
        · simp only [if_true, he, and_false, if_false]
          exact Runs.congr (by simp [he]) (runs_opsLambdaCompute E J e b)
    · split
      · exact fun e => by cases e
      · exact opsLambdaCompute_throws E J e b

theorem runs_opsJbarCompute (J : DMat) (e : ℝ) (b : Body) :
    Runs (opsJbarCompute E J e) b (b.opsJbarCompute E J e) := by
  refine (runs_opsInertia E J e b).andThen (fun x _ => runs_ok ?_) fun _ _ h => by cases h
  simp only [run_mbind, run_wr, run_pure, rd_ainvJT, rd_lambda, rd_jbar, putCell, putFlag]

theorem runs_opsJbar (J : DMat) (e : ℝ) (b : Body) :
    Runs (opsJbar E J e) b (b.opsJbar E J e) := by
  classical
  unfold opsJbar Body.opsJbar
  cases h : b.c.ops.jbarDone with
  | false => exact Runs.congr (by simp [h]) (runs_opsJbarCompute E J e b)
  | true =>
    refine Runs.congr (p' := (opsSame J).andThen fun same =>
      if same then (do
        let e' ← Rd.opsEps
        if e' = e then (do let L ← Rd.jbar; pure (.ok L)) else opsJbarCompute E J e)
      else opsJbarCompute E J e) (by simp [h]) ?_
    refine opsSame_bind (fun x => ?_) fun x => ?_
    · cases x
      · simp only [Bool.false_eq_true, false_and, if_false]
        exact runs_opsJbarCompute E J e b
      · by_cases he : b.c.ops.eps = e
        · simp only [if_true, he, and_self]
          refine runs_ok ?_
          simp [he]
        · simp only [if_true, he, and_false, if_false]
          exact Runs.congr (by simp [he]) (runs_opsJbarCompute E J e b)
    · split
      · exact fun e => by cases e
      · exact opsJbarCompute_throws E J e b

/-! ### Calls whose accesses are not spelled out -/

theorem run_gather (b : Body) : gather.run memory b = (b, b) := rfl

theorem run_scatter (d : Body) (ls : List Cell) (b : Body) :
    ∃ e, (scatter d ls).run memory b = ((), e) ∧
      ∀ l, e.getCell l = if l ∈ ls then d.getCell l else b.getCell l := by
  classical
  induction ls generalizing b with
  | nil => exact ⟨b, rfl, fun l => by simp⟩
  | cons m ls ih =>
    obtain ⟨e, h1, h2⟩ := ih (b.putCell m (d.getCell m))
    refine ⟨e, by unfold scatter; rw [run_mbind, run_wr]; exact h1, fun l => ?_⟩
    rw [h2]
    by_cases h : l = m
    · subst h
      simp [getCell_putCell]
    · rw [getCell_putCell_ne _ _ h]
      simp [h]

theorem mem_cells (l : Cell) : l ∈ cells := by
  cases l
  case flag F => cases F <;> decide
  all_goals decide

theorem run_scatter_cells (d b : Body) : (scatter d cells).run memory b = ((), d) := by
  obtain ⟨e, h1, h2⟩ := run_scatter d cells b
  rw [h1, ext_cells (b := e) (d := d) fun l => by rw [h2, if_pos (mem_cells l)]]

theorem runs_whole (f : Body → Out (α × Body)) (b : Body) : Runs (whole f) b (f b) := by
  unfold whole
  cases h : f b with
  | ok r =>
    refine runs_ok ?_
    rw [run_mbind, run_gather, h]
    simp only [run_mbind, run_scatter_cells, run_pure]
  | throws =>
    refine ⟨?_, fun _ e => by (cases e), fun _ => ?_⟩ <;> rw [run_mbind, run_gather, h] <;> rfl
  | ub =>
    refine runs_ub ?_
    rw [run_mbind, run_gather, h]; rfl

/-! ### All calls -/

theorem runs_sized {x : BProg α} {b : Body} {r : α × Body} (h : x.run memory b = r)
    (hs : r.2.shape = b.shape) (f : ℕ → α → β) : Runs (sized x f) b (.ok (f b.dof r.1, r.2)) :=
  runs_ok (run_sized h hs f)

theorem map_bind {γ δ ε : Type} (x : Out γ) (f : γ → Out δ) (g : δ → ε) :
    (x.bind f).map g = x.bind fun k => (f k).map g := by cases x <;> rfl

theorem bind_bind {γ δ ε : Type} (x : Out γ) (f : γ → Out δ) (g : δ → Out ε) :
    (x.bind f).bind g = x.bind fun k => (f k).bind g := by cases x <;> rfl

theorem runs_tp (b : Body) (i : ℤ) (f : ℕ → (ℕ → Iso) → Ans) :
    Runs (atLink i fun k => tpArr >>= fun T => pure (f k T)) b
      ((b.index i).bind fun k => .ok (f k b.viewTp, b.touchTp)) :=
  runs_atLink (g := fun k => (f k b.viewTp, b.touchTp)) fun k => by
    rw [run_mbind, run_tpArr, run_pure]

theorem runs_tw (b : Body) (i : ℤ) (f : ℕ → (ℕ → Iso) → Ans) :
    Runs (atLink i fun k => twArr >>= fun T => pure (f k T)) b
      ((b.index i).bind fun k => .ok (f k b.viewTw, b.touchTw)) :=
  runs_atLink (g := fun k => (f k b.viewTw, b.touchTw)) fun k => by
    rw [run_mbind, run_twArr, run_pure]

/-- `Jacobian` for a resolved link. -/
theorem jac_ok (b : Body) (k : ℕ) (x : Vec3) : open Classical in
    ((if b.c.jacDone = true ∧ b.c.jacLink = k ∧ b.c.jacOffset = x then .ok (b.c.J, b)
      else
        let Tw := b.viewTw
        let J := b.jacLoop Tw (b.anc.getD k []) ((Tw k).app x)
        let b := b.touchTw
        .ok (J, { b with c := { b.c with
          jacDone := true, jacLink := k, jacOffset := x, J := J } }) : Out ((ℕ → Motion) × Body))) =
    .ok ((jacobian k x).run memory b) := by
  rw [run_jacobian]
  split <;> rfl

theorem shape_jac (b : Body) (k : ℕ) (x : Vec3) :
    ((jacobian k x).run memory b).2.shape = b.shape := by
  rw [run_jacobian]
  split
  · rfl
  · exact shape_touchTw b

theorem jacobian_eq (b : Body) (i : ℤ) (x : Vec3) :
    b.jacobian i x = (b.index i).bind fun k => .ok ((jacobian k x).run memory b) := by
  unfold Body.jacobian
  congr 1
  funext k
  exact jac_ok b k x

theorem runs_jac (b : Body) (i : ℤ) (x : Vec3) (f : ℕ → (ℕ → Motion) → Ans) :
    Runs ((index i).andThen fun k => sized (jacobian k x) f) b
      ((b.jacobian i x).map fun r => (f b.dof r.1, r.2)) := by
  rw [jacobian_eq, map_bind]
  exact runs_atIndex (fun k => runs_sized rfl (shape_jac b k x) f) fun _ e => by cases e

theorem runs_hessian (b : Body) (i : ℤ) (x : Vec3) :
    Runs (ofQuery E (.hessian i x)) b
      ((b.hessian i x).map fun r => (.hess (take2 b.dof b.dof r.1), r.2)) := by
  have e : b.hessian i x = (b.index i).bind fun k =>
      let r := (jacobian k x).run memory b
      .ok (r.2.hessLoop r.2.viewTw r.1 (r.2.anc.getD k []) (fun _ _ => 0), r.2.touchTw) := by
    unfold Body.hessian
    cases hi : b.index i with
    | throws => rfl
    | ub => rfl
    | ok k =>
      show (b.jacobian k x).bind _ = _
      rw [jacobian_eq, index_ofIndex hi]
      rfl
  rw [e, map_bind]
  refine runs_atIndex (fun k => runs_ok ?_) fun _ e => by cases e
  rw [run_mbind, run_mbind, run_twArr, run_mbind, rd_tree]
  have hs := (shape_touchTw ((jacobian k x).run memory b).2).trans (shape_jac b k x)
  have ha : ((jacobian k x).run memory b).2.anc = b.anc := congrArg Shape.anc (shape_jac b k x)
  have hr : ((jacobian k x).run memory b).2.rbs = b.rbs := congrArg Shape.rbs (shape_jac b k x)
  have hl : ∀ (d d' : Body) (hd : d.rbs = d'.rbs) Tw J (l : List ℕ) H,
      d.hessLoop Tw J l H = d'.hessLoop Tw J l H := by
    intro d d' hd Tw J l
    induction l with
    | nil => intro H; rfl
    | cons m l ih =>
      intro H
      unfold hessLoop
      have hm : d.rb m = d'.rb m := by unfold Body.rb; rw [hd]
      rw [hm, ih]
  simp only [run_pure, hs, ha]
  rw [hl b.shape.body _ (hr.symm : b.rbs = _)]
  rfl

theorem climb_base {γ : Type} (b d : Body) (h : d.rbs = b.rbs) (q : ℕ → ℝ) (f : Iso → γ → γ) :
    ∀ n k x, d.climb q f n k x = b.climb q f n k x := by
  intro n
  induction n with
  | zero => intros; rfl
  | succ n ih =>
    intro k x
    cases k with
    | none => rfl
    | some i =>
      unfold climb
      have hr : d.rb i = b.rb i := by unfold Body.rb; rw [h]
      have hp : d.par i = b.par i := by unfold Body.par; rw [hr]
      have ht : d.TpAt i (q i) = b.TpAt i (q i) := by unfold Body.TpAt; rw [hr]
      rw [hp, ht, ih]

theorem runs_query (x : Query) (b : Body) : Runs (ofQuery E x) b (x.run E b) := by
  have mm : ∀ {γ δ ε : Type} (x : Out γ) (f : γ → δ) (g : δ → ε),
      (x.map f).map g = x.map fun k => g (f k) := by
    intro γ δ ε x f g; cases x <;> rfl
  cases x with
  | rigidBody i =>
    show Runs _ b ((b.rigidBody i).map _)
    rw [← mm (b.rigidBody i) Ans.rb fun r => (r, b)]; exact runs_pure rfl
  | q i =>
    show Runs _ b ((b.qAt i).map _)
    unfold qAt; rw [map_bind]; exact runs_atLink (g := fun k => _) fun k => rfl
  | dq i =>
    show Runs _ b ((b.dqAt i).map _)
    unfold dqAt; rw [map_bind]; exact runs_atLink (g := fun k => _) fun k => rfl
  | ancestors i =>
    show Runs _ b ((b.ancestors i).map _)
    rw [← mm (b.ancestors i) Ans.ids fun r => (r, b)]; exact runs_pure rfl
  | subtree i =>
    show Runs _ b ((b.subtree i).map _)
    rw [← mm (b.subtree i) Ans.ids fun r => (r, b)]; exact runs_pure rfl
  | tToParent i =>
    show Runs _ b ((b.tToParent i).map _)
    unfold tToParent; rw [map_bind]; exact runs_tp b i _
  | tToWorld i =>
    show Runs _ b ((b.tToWorld i).map _)
    unfold tToWorld; rw [map_bind]; exact runs_tw b i _
  | tFromParent i =>
    show Runs _ b ((b.tFromParent i).map _)
    unfold tFromParent tToParent; rw [bind_bind, map_bind]; exact runs_tp b i fun k T => .iso (T k).inv
  | tFromWorld i =>
    show Runs _ b ((b.tFromWorld i).map _)
    unfold tFromWorld tToWorld; rw [bind_bind, map_bind]; exact runs_tw b i fun k T => .iso (T k).inv
  | position i x =>
    show Runs _ b ((b.position i x).map _)
    unfold position; rw [map_bind]; exact runs_tw b i fun k T => .vec3 ((T k).app x)
  | orientation i =>
    show Runs _ b ((b.orientation i).map _)
    unfold orientation; rw [map_bind]; exact runs_tw b i fun k T => .mat3 (T k).R
  | cartesianPose i x =>
    show Runs _ b ((b.cartesianPose i x).map _)
    unfold cartesianPose; rw [map_bind]; exact runs_tw b i fun k T => .iso (T k * ⟨1, x⟩)
  | positionQ u i x =>
    show Runs _ b ((b.positionQ u i x).map _)
    rw [← mm (b.positionQ u i x) Ans.vec3 fun r => (r, b)]
    refine runs_pure ?_
    show (Out.map Ans.vec3 (({ b.shape.body with T0 := b.T0 } : Body).positionQ u i x), b) = _
    congr 2
    unfold positionQ
    simp only [climb_base b ({ b.shape.body with T0 := b.T0 } : Body) rfl]
    rfl
  | orientationQ u i =>
    show Runs _ b ((b.orientationQ u i).map _)
    rw [← mm (b.orientationQ u i) Ans.mat3 fun r => (r, b)]
    refine runs_pure ?_
    show (Out.map Ans.mat3 (({ b.shape.body with T0 := b.T0 } : Body).orientationQ u i), b) = _
    congr 2
    unfold orientationQ
    simp only [climb_base b ({ b.shape.body with T0 := b.T0 } : Body) rfl]
    rfl
  | jacobian i x => exact runs_jac b i x fun n J => .cols (take n J)
  | jacobianQ u i x =>
    show Runs _ b ((b.jacobianQ u i x).map _)
    rw [← mm (b.jacobianQ u i x) (fun J => Ans.cols (take b.dof J)) fun r => (r, b)]
    exact runs_pure rfl
  | linearJacobian i x =>
    show Runs _ b ((b.linearJacobian i x).map _)
    have := runs_jac b i x fun n J => .cols3 (take n fun j => (J j).lin)
    unfold linearJacobian
    rw [map_bind]
    cases h : b.jacobian i x <;> rw [h] at this <;> exact this
  | angularJacobian i =>
    show Runs _ b ((b.angularJacobian i).map _)
    have := runs_jac b i b.c.jacOffset fun n J => .cols3 (take n fun j => (J j).ang)
    unfold angularJacobian
    rw [map_bind]
    refine Runs.congr (p' := (index i).andThen fun k => sized (jacobian k b.c.jacOffset) fun n J =>
      .cols3 (take n fun j => (J j).ang)) ?_ ?_
    · unfold ofQuery
      rw [run_mbind, rd_jacOffset]
    · cases h : b.jacobian i b.c.jacOffset <;> rw [h] at this <;> exact this
  | hessian i x => exact runs_hessian E b i x
  | inverseDynamics a f o => exact runs_sized (run_inverseDynamics a f o b) (shape_id b a f o) (fun n x => Ans.vec (take n x))
  | centrifugalCoriolis => exact runs_sized (run_centrifugalCoriolis b) (shape_cc b) (fun n x => Ans.vec (take n x))
  | gravity => exact runs_sized (run_gravity b) (shape_gravity b) (fun n x => Ans.vec (take n x))
  | externalTorques f => exact runs_sized (run_externalTorques f b) (shape_ext b f) (fun n x => Ans.vec (take n x))
  | friction t c e => exact runs_sized (run_friction t c e b) rfl (fun n x => Ans.vec (take n x))
  | inertia => exact runs_sized (run_inertia b) (shape_inertia b) (fun n A => Ans.mat (take2 n n A))
  | compositeInertia i =>
    show Runs _ b ((b.compositeInertia i).map _)
    unfold compositeInertia; rw [map_bind]
    refine runs_atLink (g := fun k => (Ans.inertia (b.inertia.2.c.Ic k), b.inertia.2)) fun k => ?_
    rw [run_mbind, run_inertia]; rfl
  | inertiaInverse => exact runs_sized (run_inertiaInverse b) (shape_inertiaInverse b) (fun n A => Ans.mat (take2 n n A))
  | forwardDynamics t f o => exact runs_sized (run_forwardDynamics E t f o b) (shape_fd E b t f o) (fun n x => Ans.vec (take n x))
  | forwardDynamicsAba t f o =>
    exact runs_sized (run_forwardDynamicsAba t f o b) (shape_fda b t f o) (fun n x => Ans.vec (take n x))
  | inertiaInverseAba => exact runs_sized (run_inertiaInverseAba b) (shape_iia b) (fun n A => Ans.mat (take2 n n A))
  | opsInertia J e => exact (runs_opsInertia E J e b).mapOk fun L => Ans.dmat L.trunc
  | opsInertiaInverse J => exact (runs_opsInertiaInverse E J b).mapOk fun L => Ans.dmat L.trunc
  | opsIsSingular J e =>
    have : Runs (opsIsSingular E J e) b (b.opsIsSingular E J e) :=
      (runs_opsInertia E J e b).andThen (fun x _ => runs_ok rfl) fun _ _ h => by cases h
    exact this.mapOk Ans.bool
  | opsJbar J e => exact (runs_opsJbar E J e b).mapOk fun L => Ans.dmat L.trunc
  | opsGravity J e =>
    show Runs _ b ((b.opsGravity E J e).map _)
    unfold opsGravity; rw [map_bind]
    refine (runs_opsJbar E J e b).andThen (fun x _ => runs_ok ?_) fun _ _ h => by cases h
    rw [run_mbind, run_gravity]; rfl
  | opsExternal J f e =>
    show Runs _ b ((b.opsExternal E J f e).map _)
    unfold opsExternal; rw [map_bind]
    refine (runs_opsJbar E J e b).andThen (fun x _ => runs_ok ?_) fun _ _ h => by cases h
    rw [run_mbind, run_externalTorques]; rfl
  | velocityDerivative a f o => exact runs_whole (fun b => Query.run E b (.velocityDerivative a f o)) b
  | discreteInverseDynamics u dt f g =>
    exact runs_whole (fun b => Query.run E b (.discreteInverseDynamics u dt f g)) b
  | _ => exact runs_whole _ b

theorem run_clear (Fs : List Flag) (b : Body) :
    (clear Fs).run memory b = ((), Fs.foldl (fun d F => d.putFlag false F) b) := by
  induction Fs generalizing b with
  | nil => rfl
  | cons F Fs ih => unfold clear; rw [run_mbind, run_wr, ih]; rfl

theorem foldl_dynamics (b : Body) : dynamicsFlags.foldl (fun d F => d.putFlag false F) b =
    { b with c := b.c.clearDynamics } := by
  simp only [dynamicsFlags, List.foldl, putFlag, Cache.clearDynamics]

theorem foldl_q (b : Body) :
    ([.tp, .tw, .vel, .jac, .qPrev] : List Flag).foldl (fun d F => d.putFlag false F) b =
    { b with c := { b.c with tpDone := false, twDone := false, velDone := false, jacDone := false
                             drnea := { b.c.drnea with qPrevValid := false } } } := by
  simp only [List.foldl, putFlag]

theorem foldl_dq (b : Body) :
    ([.vel, .cc, .aba, .qPrev] : List Flag).foldl (fun d F => d.putFlag false F) b =
    { b with c := b.c.clearDq } := by
  simp only [List.foldl, putFlag, Cache.clearDq]

theorem foldl_g (b : Body) :
    ([.grav, .aba] : List Flag).foldl (fun d F => d.putFlag false F) b =
    { b with c := b.c.clearG } := by
  simp only [List.foldl, putFlag, Cache.clearG]

theorem runs_op (op : Op) (b : Body) : Runs (ofOp E op) b (match op.outcome E b with
    | (.ok x, d) => .ok (x, d)
    | (.throws, _) => .throws
    | (.ub, _) => .ub) := by
  classical
  have setter : ∀ (p : BProg (Out Unit)) (r : Out Body),
      Runs p b (r.map fun d => ((), d)) → Runs (mapOk p fun _ => (none : Option Ans)) b
        (match (match r with
          | .ok d => ((.ok none : Out (Option Ans)), d)
          | .throws => (.throws, b)
          | .ub => (.ub, b)) with
        | (.ok x, d) => .ok (x, d)
        | (.throws, _) => .throws
        | (.ub, _) => .ub) := by
    intro p r h
    have := h.mapOk fun _ => (none : Option Ans)
    cases r <;> exact this
  have other : ∀ (r : Body → Out Body),
      Runs (whole fun b => (r b).map fun d => ((none : Option Ans), d)) b
        (match (match r b with
          | .ok d => ((.ok none : Out (Option Ans)), d)
          | .throws => (.throws, b)
          | .ub => (.ub, b)) with
        | (.ok x, d) => .ok (x, d)
        | (.throws, _) => .throws
        | (.ub, _) => .ub) := by
    intro r
    have := runs_whole (fun b => (r b).map fun d => ((none : Option Ans), d)) b
    cases h : r b <;> rw [h] at this <;> exact this
  have loads : ∀ (i : ℤ) (f : Option Inertia → Option Inertia) ,
      Runs (changeLoad i f) b (.ok ((), { b with
        load := Function.update b.load (b.resolve i) (f (b.load (b.resolve i)))
        c := b.c.clearDynamics })) := by
    intro i f
    refine runs_ok ?_
    unfold changeLoad
    simp only [run_mbind, rd_tree, rd_load, run_wr, run_clear, run_pure, foldl_dynamics]
    rfl
  cases op with
  | setQ q =>
    refine setter (setQ q) (b.setQ q) ?_
    unfold setQ Body.setQ
    have ed : b.shape.body.dof = b.dof := rfl
    by_cases h : q.length ≠ b.dof
    · rw [if_pos h]
      exact runs_pure (r := .throws) (by rw [run_mbind, rd_tree, run_ite, if_pos (ed ▸ h)]; rfl)
    · rw [if_neg h]
      by_cases h2 : b.q = q
      · rw [if_pos h2]
        refine runs_ok (x := ((), b)) ?_
        rw [run_mbind, rd_tree, run_ite, if_neg (ed ▸ h), run_mbind, rd_q, run_ite, if_pos h2]
        rfl
      · rw [if_neg h2]
        refine runs_ok (x := ((), _)) ?_
        rw [run_mbind, rd_tree, run_ite, if_neg (ed ▸ h), run_mbind, rd_q, run_ite, if_neg h2]
        simp only [run_mbind, run_wr, run_clear, run_pure, foldl_dynamics, foldl_q]
        rfl
  | setDq q =>
    refine setter (setDq q) (b.setDq q) ?_
    unfold setDq Body.setDq
    have ed : b.shape.body.dof = b.dof := rfl
    by_cases h : q.length ≠ b.dof
    · rw [if_pos h]
      exact runs_pure (r := .throws) (by rw [run_mbind, rd_tree, run_ite, if_pos (ed ▸ h)]; rfl)
    · rw [if_neg h]
      by_cases h2 : b.dq = q
      · rw [if_pos h2]
        refine runs_ok (x := ((), b)) ?_
        rw [run_mbind, rd_tree, run_ite, if_neg (ed ▸ h), run_mbind, rd_dq, run_ite, if_pos h2]
        rfl
      · rw [if_neg h2]
        refine runs_ok (x := ((), _)) ?_
        rw [run_mbind, rd_tree, run_ite, if_neg (ed ▸ h), run_mbind, rd_dq, run_ite, if_neg h2]
        simp only [run_mbind, run_wr, run_clear, run_pure, foldl_dq]
        rfl
  | setG g =>
    refine setter (setG g) (.ok (b.setG g)) (runs_ok ?_)
    unfold setG
    simp only [run_mbind, run_wr, run_clear, run_pure, foldl_g]
    rfl
  | addLoad I i =>
    refine setter _ (.ok (b.addLoad I i)) ?_
    have := loads i fun
      | none => some I
      | some L => some (L.add I)
    have e : b.addLoad I i = { b with
        load := Function.update b.load (b.resolve i) (match b.load (b.resolve i) with
          | none => some I
          | some L => some (L.add I))
        c := b.c.clearDynamics } := by
      unfold Body.addLoad
      simp only
      cases b.load (b.resolve i) <;> rfl
    rw [e]
    exact this
  | replaceLoad I i => exact setter _ (.ok (b.replaceLoad I i)) (loads i fun _ => some I)
  | clearLoad i => exact setter _ (.ok (b.clearLoad i)) (loads i fun _ => none)
  | setBase T => exact setter (setBase T) (.ok (b.setBase T)) (runs_ok rfl)
  | query x =>
    have := (runs_query E x b).mapOk some
    unfold Op.outcome
    simp only
    cases h : x.run E b <;> rw [h] at this <;> exact this
  | addRigidBody rb p => exact other fun b => (b.addRigidBody rb p).map Prod.snd
  | setInertiaBase I => exact other fun b => b.setInertiaBase I
  | integrate t dt f o => exact other fun b => b.integrate E t dt f o
  | discreteIntegrate t dt f o => exact other fun b => b.discreteIntegrate E t dt f o

/-- A call run alone: its outcome, and the body after it unless the behaviour is undefined. -/
theorem run_op (op : Op) (b : Body) :
    ((ofOp E op).run memory b).1 = (op.outcome E b).1 ∧
    ((op.outcome E b).1 ≠ .ub → ((ofOp E op).run memory b).2 = (op.outcome E b).2) := by
  have h := runs_op E op b
  have ht : (op.outcome E b).1 = .throws → (op.outcome E b).2 = b := by
    unfold Op.outcome
    cases op <;> simp only <;> split <;> intro e <;> first | rfl | (cases e)
  generalize op.outcome E b = o at h ht
  obtain ⟨x, d⟩ := o
  cases x with
  | ok x => exact ⟨h.val, fun _ => h.ok _ rfl⟩
  | throws => exact ⟨h.val, fun _ => (h.throws rfl).trans (ht rfl).symm⟩
  | ub => exact ⟨h.val, fun e => absurd rfl e⟩

end BProg
end SpatialDyn
