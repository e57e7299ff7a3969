import Verif.Lemmas.ThreadsOps
import Verif.Lemmas.Coherence

/-! Threads: several bodies, and calls that do not write. -/

namespace SpatialDyn
open Body

/-! ## Calls on numbered bodies -/

namespace BProg
open Prog
variable {α β : Type}

theorem run_on (k : ℕ) (p : BProg α) (s : ℕ → Body) :
    (BProg.on k p).run fleet s = ((p.run memory (s k)).1, Function.update s k (p.run memory (s k)).2) := by
  induction p generalizing s with
  | ret a => show (a, s) = (a, Function.update s k (s k)); rw [Function.update_eq_self]
  | read l f ih => exact ih _ s
  | write l x p ih =>
    show (BProg.on k p).run fleet (Function.update s k ((s k).putCell l x)) = _
    rw [ih, Function.update_self, Function.update_idem]
    rfl

theorem within_on {R W : Set (ℕ × Cell)} (k : ℕ) (p : BProg α) (s : ℕ → Body) :
    (BProg.on k p).Within fleet R W s ↔
      p.Within memory {l | (k, l) ∈ R} {l | (k, l) ∈ W} (s k) := by
  induction p generalizing s with
  | ret a => exact Iff.rfl
  | read l f ih => exact and_congr Iff.rfl (ih _ s)
  | write l x p ih =>
    refine and_congr Iff.rfl ((ih (Function.update s k ((s k).putCell l x))).trans ?_)
    rw [Function.update_self]; exact Iff.rfl

theorem gets_on {p p' : BProg α} {b b' : Body} (h : Gets memory p b p' b') (k : ℕ)
    {s : ℕ → Body} (hs : s k = b) : Gets fleet (BProg.on k p) s (BProg.on k p') (Function.update s k b') := by
  induction h generalizing s with
  | here p b => subst hs; rw [Function.update_eq_self]; exact .here _ _
  | @read l f b p' b' h ih =>
    refine .read ?_
    have := ih hs
    subst hs
    exact this
  | @write l x f b p' b' h ih =>
    subst hs
    refine .write ?_
    have := ih (s := Function.update s k ((s k).putCell l x)) (Function.update_self ..)
    rw [Function.update_idem] at this
    exact this

theorem writes_on {p : BProg α} {l : Cell} (h : p.Writes l) (k : ℕ) : (BProg.on k p).Writes (k, l) := by
  cases p with
  | ret a => exact h.elim
  | read m f => exact h.elim
  | write m x p => exact congrArg (Prod.mk k) (show m = l from h)

theorem accesses_on {p : BProg α} {l : Cell} (h : p.Accesses l) (k : ℕ) :
    (BProg.on k p).Accesses (k, l) := by
  cases p with
  | ret a => exact h.elim
  | read m f => exact congrArg (Prod.mk k) (show m = l from h)
  | write m x p => exact congrArg (Prod.mk k) (show m = l from h)

end BProg

open Prog

theorem Prog.writes_bind {L : Type} {V : L → Type} {α β : Type} {p : Prog L V α} {l : L}
    (h : p.Writes l) (f : α → Prog L V β) : (p.bind f).Writes l := by
  cases p with
  | ret a => exact h.elim
  | read m g => exact h.elim
  | write m x g => exact h

theorem Prog.accesses_bind {L : Type} {V : L → Type} {α β : Type} {p : Prog L V α} {l : L}
    (h : p.Accesses l) (f : α → Prog L V β) : (p.bind f).Accesses l := by
  cases p with
  | ret a => exact h.elim
  | read m g => exact h
  | write m x g => exact h

variable (E : Ext)

/-- A thread running alone makes the calls one after the other. -/
theorem run_thread (cs : List (ℕ × Op)) (s : ℕ → Body) :
    ((thread E cs).run fleet s).1 = (calls E cs s).1 ∧
    (.ub ∉ (calls E cs s).1 → ((thread E cs).run fleet s).2 = (calls E cs s).2) := by
  induction cs generalizing s with
  | nil => exact ⟨rfl, fun _ => rfl⟩
  | cons c cs ih =>
    obtain ⟨k, op⟩ := c
    obtain ⟨h1, h2⟩ := BProg.run_op E op (s k)
    have e : (thread E ((k, op) :: cs)).run fleet s = _ := run_bind ..
    rw [BProg.run_on] at e
    simp only [h1] at e
    unfold calls
    cases ho : (op.outcome E (s k)).1 with
    | ub =>
      simp only [ho] at e ⊢
      rw [e]
      exact ⟨rfl, fun h => absurd (List.mem_singleton_self _) h⟩
    | ok x =>
      rw [h2 (by rw [ho]; exact fun h => by cases h)] at e
      simp only [ho] at e ⊢
      rw [e, run_bind]
      obtain ⟨i1, i2⟩ := ih (Function.update s k (op.outcome E (s k)).2)
      refine ⟨?_, fun h => ?_⟩
      · show _ :: _ = _; rw [i1]
      · exact i2 fun hm => h (List.mem_cons_of_mem _ hm)
    | throws =>
      rw [h2 (by rw [ho]; exact fun h => by cases h)] at e
      simp only [ho] at e ⊢
      rw [e, run_bind]
      obtain ⟨i1, i2⟩ := ih (Function.update s k (op.outcome E (s k)).2)
      refine ⟨?_, fun h => ?_⟩
      · show _ :: _ = _; rw [i1]
      · exact i2 fun hm => h (List.mem_cons_of_mem _ hm)

/-! ## Programs that do not write -/

namespace BProg
variable {α β : Type}

/-- A program that, started on `b`, only reads. -/
def Silent (p : BProg α) (b : Body) : Prop := p.Within memory Set.univ ∅ b

theorem Silent.run {p : BProg α} {b : Body} (h : Silent p b) : (p.run memory b).2 = b := by
  induction p generalizing b with
  | ret a => rfl
  | read l f ih => exact ih _ h.2
  | write l x p ih => exact h.1.elim

theorem silent_bind {p : BProg α} {f : α → BProg β} {b : Body} (h : Silent p b)
    (hf : Silent (f (p.run memory b).1) b) : Silent (p >>= f) b := by
  refine (within_bind p f b).2 ⟨h, ?_⟩
  rw [h.run]; exact hf

theorem silent_andThen {p : BProg (Out α)} {f : α → BProg (Out β)} {b : Body} (h : Silent p b)
    (hf : ∀ a, (p.run memory b).1 = .ok a → Silent (f a) b) : Silent (p.andThen f) b := by
  refine silent_bind (f := fun
    | .ok a => f a
    | .throws => .ret .throws
    | .ub => .ret .ub) h ?_
  cases h : (p.run memory b).1 with
  | ok a => exact hf a h
  | throws => trivial
  | ub => trivial

theorem silent_pure (a : α) (b : Body) : Silent (pure a) b := trivial
theorem silent_rd (l : Cell) (b : Body) : Silent (rd l) b := ⟨Or.inl trivial, trivial⟩

theorem silent_index (i : ℤ) (b : Body) : Silent (index i) b :=
  silent_bind (silent_rd .tree b) trivial

theorem silent_tpArr {b : Body} (h : b.c.tpDone = true) : Silent tpArr b := by
  refine silent_bind (silent_rd (.flag .tp) b) ?_
  rw [show (Prog.run memory (Rd.flag .tp) b).1 = true from h]
  exact silent_rd .tp b

theorem silent_twArr {b : Body} (h : b.c.twDone = true) : Silent twArr b := by
  refine silent_bind (silent_rd (.flag .tw) b) ?_
  rw [show (Prog.run memory (Rd.flag .tw) b).1 = true from h]
  exact silent_rd .tw b

theorem silent_atLink {i : ℤ} {f : ℕ → BProg α} {b : Body} (h : ∀ k, Silent (f k) b) :
    Silent (atLink i f) b :=
  silent_andThen (silent_index i b) fun k _ => silent_bind (h k) trivial

theorem silent_sized {x : BProg α} {b : Body} (h : Silent x b) (f : ℕ → α → β) :
    Silent (sized x f) b :=
  silent_bind h (silent_bind (silent_rd .tree b) trivial)

theorem silent_mapOk {x : BProg (Out α)} {b : Body} (h : Silent x b) (f : α → β) :
    Silent (mapOk x f) b := silent_andThen h fun _ _ => trivial

theorem silent_jacobian {k : ℕ} {x : Vec3} {b : Body}
    (h : b.c.jacDone = true ∧ b.c.jacLink = k ∧ b.c.jacOffset = x) : Silent (jacobian k x) b := by
  obtain ⟨h1, h2, h3⟩ := h
  unfold jacobian
  refine silent_bind (silent_rd (.flag .jac) b) ?_
  simp only [rd_jac', h1, if_true]
  refine silent_bind ?_ ?_
  · refine silent_bind (silent_rd .jacLink b) ?_
    simp only [rd_jacLink, h2, if_true]
    exact silent_bind (silent_rd .jacOffset b) trivial
  · simp only [run_mbind, rd_jacLink, h2, if_true, rd_jacOffset, h3, run_pure, decide_true]
    exact silent_rd .J b

theorem silent_flag {F : Flag} {b : Body} (h : b.getFlag F = true) {p q : BProg α}
    (hp : Silent p b) : Silent (Rd.flag F >>= fun d => if d = true then p else q) b := by
  refine silent_bind (silent_rd (.flag F) b) ?_
  rw [show (Prog.run memory (Rd.flag F) b).1 = true from h, if_pos rfl]
  exact hp

theorem silent_opsSame {J : DMat} {b : Body} : Silent (opsSame J) b :=
  silent_bind (silent_rd .opsJ b) trivial

theorem silent_opsFlag {F : Flag} {b : Body} {J : DMat} (h : b.getFlag F = true)
    (hs : b.opsSame J = .ok true) {q : BProg (Out α)} {f : Bool → BProg (Out α)}
    (hf : Silent (f true) b) :
    Silent (Rd.flag F >>= fun d => if (!d) = true then q else (opsSame J).andThen f) b := by
  refine silent_bind (silent_rd (.flag F) b) ?_
  rw [show (Prog.run memory (Rd.flag F) b).1 = true from h, if_neg (by simp)]
  refine silent_andThen silent_opsSame fun a ha => ?_
  have : (Prog.run memory (opsSame J) b).1 = b.opsSame J := rfl
  rw [this, hs] at ha
  rw [← Out.ok.inj ha]; exact hf

theorem silent_eps {b : Body} {e : ℝ} (h : b.c.ops.eps = e) {p q : BProg (Out α)}
    (hp : Silent p b) : open Classical in
    Silent (Rd.opsEps >>= fun e' => if e' = e then p else q) b := by
  refine silent_bind (silent_rd .opsEps b) ?_
  rw [show (Prog.run memory Rd.opsEps b).1 = e from h, if_pos rfl]
  exact hp

variable (E : Ext)

theorem silent_opsInertiaInverse {J : DMat} {b : Body} (h : b.c.ops.lambdaInvDone = true)
    (hs : b.opsSame J = .ok true) : Silent (opsInertiaInverse E J) b :=
  silent_opsFlag (F := .lambdaInv) h hs (silent_bind (silent_rd .lambdaInv b) trivial)

theorem silent_opsInertia {J : DMat} {e : ℝ} {b : Body} (h : b.c.ops.lambdaDone = true)
    (hs : b.opsSame J = .ok true) (he : b.c.ops.eps = e) : Silent (opsInertia E J e) b :=
  silent_opsFlag (F := .lambda) h hs (by
    rw [if_pos rfl]
    exact silent_eps he (silent_bind (silent_rd .lambda b) trivial))

theorem silent_opsJbar {J : DMat} {e : ℝ} {b : Body} (h : b.c.ops.jbarDone = true)
    (hs : b.opsSame J = .ok true) (he : b.c.ops.eps = e) : Silent (opsJbar E J e) b :=
  silent_opsFlag (F := .jbar) h hs (by
    rw [if_pos rfl]
    exact silent_eps he (silent_bind (silent_rd .jbar b) trivial))

end BProg

/-! ## Filled caches -/

namespace Body

/-- What a query reads is filled. -/
def Warm (b : Body) : Query → Prop
  | .rigidBody _ | .q _ | .dq _ | .ancestors _ | .subtree _ | .positionQ .. | .orientationQ ..
  | .jacobianQ .. | .friction .. => True
  | .tToParent _ | .tFromParent _ => b.c.tpDone = true
  | .tToWorld _ | .tFromWorld _ | .position .. | .orientation _ | .cartesianPose .. =>
    b.c.twDone = true
  | .jacobian i x | .linearJacobian i x => ∃ k, b.index i = .ok k ∧
    b.c.jacDone = true ∧ b.c.jacLink = k ∧ b.c.jacOffset = x
  | .angularJacobian i => ∃ k, b.index i = .ok k ∧ b.c.jacDone = true ∧ b.c.jacLink = k
  | .hessian i x => (∃ k, b.index i = .ok k ∧
    b.c.jacDone = true ∧ b.c.jacLink = k ∧ b.c.jacOffset = x) ∧ b.c.twDone = true
  | .centrifugalCoriolis => b.c.ccDone = true
  | .gravity => b.c.gravDone = true
  | .inertia | .compositeInertia _ => b.c.crbaDone = true
  | .inertiaInverse => b.c.invDone = true
  | .inertiaInverseAba => b.c.abaInvDone = true
  | .opsInertiaInverse J => b.c.ops.lambdaInvDone = true ∧ b.opsSame J = .ok true
  | .opsInertia J e | .opsIsSingular J e =>
    b.c.ops.lambdaDone = true ∧ b.opsSame J = .ok true ∧ b.c.ops.eps = e
  | .opsJbar J e => b.c.ops.jbarDone = true ∧ b.opsSame J = .ok true ∧ b.c.ops.eps = e
  | .opsGravity J e => (b.c.ops.jbarDone = true ∧ b.opsSame J = .ok true ∧ b.c.ops.eps = e) ∧
    b.c.gravDone = true
  | _ => False

end Body

open BProg in
theorem BProg.silent_query {b : Body} {y : Query} (h : b.Warm y) : Silent (ofQuery E y) b := by
  cases y with
  | rigidBody i => exact silent_bind (silent_rd .tree b) trivial
  | q i => exact silent_atLink fun k => silent_bind (silent_rd .q b) trivial
  | dq i => exact silent_atLink fun k => silent_bind (silent_rd .dq b) trivial
  | ancestors i => exact silent_bind (silent_rd .tree b) trivial
  | subtree i => exact silent_bind (silent_rd .tree b) trivial
  | positionQ => exact silent_bind (silent_rd .tree b) (silent_bind (silent_rd .base b) trivial)
  | orientationQ => exact silent_bind (silent_rd .tree b) (silent_bind (silent_rd .base b) trivial)
  | jacobianQ => exact silent_bind (silent_rd .tree b) (silent_bind (silent_rd .base b) trivial)
  | friction t c e =>
    exact silent_sized (x := friction t c e) (silent_bind (silent_rd .tree b)
      (silent_bind (silent_rd .dq b) trivial)) fun n x => Ans.vec (take n x)
  | tToParent i => exact silent_atLink fun k => silent_bind (silent_tpArr h) trivial
  | tFromParent i => exact silent_atLink fun k => silent_bind (silent_tpArr h) trivial
  | tToWorld i => exact silent_atLink fun k => silent_bind (silent_twArr h) trivial
  | tFromWorld i => exact silent_atLink fun k => silent_bind (silent_twArr h) trivial
  | position i x => exact silent_atLink fun k => silent_bind (silent_twArr h) trivial
  | orientation i => exact silent_atLink fun k => silent_bind (silent_twArr h) trivial
  | cartesianPose i x => exact silent_atLink fun k => silent_bind (silent_twArr h) trivial
  | jacobian i x =>
    obtain ⟨k, hk, h⟩ := h
    refine silent_andThen (silent_index i b) fun k' hk' => ?_
    rw [run_index] at hk'
    replace hk' := hk.symm.trans hk'
    rw [← Out.ok.inj hk']
    exact silent_sized (silent_jacobian h) _
  | linearJacobian i x =>
    obtain ⟨k, hk, h⟩ := h
    refine silent_andThen (silent_index i b) fun k' hk' => ?_
    rw [run_index] at hk'
    replace hk' := hk.symm.trans hk'
    rw [← Out.ok.inj hk']
    exact silent_sized (silent_jacobian h) _
  | angularJacobian i =>
    obtain ⟨k, hk, h⟩ := h
    refine silent_bind (silent_rd .jacOffset b) ?_
    refine silent_andThen (silent_index i b) fun k' hk' => ?_
    rw [run_index] at hk'
    replace hk' := hk.symm.trans hk'
    rw [← Out.ok.inj hk']
    exact silent_sized (silent_jacobian ⟨h.1, h.2, rfl⟩) _
  | hessian i x =>
    obtain ⟨⟨k, hk, h⟩, ht⟩ := h
    refine silent_andThen (silent_index i b) fun k' hk' => ?_
    rw [run_index] at hk'
    replace hk' := hk.symm.trans hk'
    rw [← Out.ok.inj hk']
    exact silent_bind (silent_jacobian h) (silent_bind (silent_twArr ht)
      (silent_bind (silent_rd .tree b) trivial))
  | centrifugalCoriolis =>
    exact silent_sized (x := BProg.centrifugalCoriolis) (silent_flag (F := .cc) h (silent_rd .C b))
      fun n x => Ans.vec (take n x)
  | gravity =>
    exact silent_sized (x := BProg.gravity) (silent_flag (F := .grav) h (silent_rd .G b))
      fun n x => Ans.vec (take n x)
  | inertia =>
    exact silent_sized (x := BProg.inertia) (silent_flag (F := .crba) h (silent_rd .A b))
      fun n A => Ans.mat (take2 n n A)
  | compositeInertia i =>
    exact silent_atLink fun k => silent_bind (p := BProg.inertia) (silent_flag (F := .crba) h (silent_rd .A b))
      (silent_bind (silent_rd .Ic b) trivial)
  | inertiaInverse =>
    exact silent_sized (x := BProg.inertiaInverse) (silent_flag (F := .inv) h (silent_rd .Afact b))
      fun n A => Ans.mat (take2 n n A)
  | inertiaInverseAba =>
    exact silent_sized (x := BProg.inertiaInverseAba) (silent_flag (F := .abaInv) h (silent_rd .abaInv b))
      fun n A => Ans.mat (take2 n n A)
  | opsInertiaInverse J => exact silent_mapOk (silent_opsInertiaInverse E h.1 h.2) _
  | opsInertia J e => exact silent_mapOk (silent_opsInertia E h.1 h.2.1 h.2.2) _
  | opsIsSingular J e =>
    exact silent_mapOk (x := BProg.opsIsSingular E J e) (silent_andThen
      (silent_opsInertia E h.1 h.2.1 h.2.2) fun _ _ =>
      silent_bind (silent_rd .singular b) trivial) Ans.bool
  | opsJbar J e => exact silent_mapOk (silent_opsJbar E h.1 h.2.1 h.2.2) _
  | opsGravity J e =>
    exact silent_andThen (silent_opsJbar E h.1.1 h.1.2.1 h.1.2.2) fun _ _ =>
      silent_bind (p := BProg.gravity) (silent_flag (F := .grav) h.2 (silent_rd .G b)) trivial
  | _ => exact h.elim

end SpatialDyn
