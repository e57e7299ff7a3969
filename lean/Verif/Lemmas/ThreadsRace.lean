import Verif.Lemmas.ThreadsWarm

/-! Threads that keep apart, and threads that race. -/

namespace SpatialDyn
open Prog Body

namespace Prog
variable {S L : Type} {V : L → Type} {α ι : Type} {M : Memory S L V}

theorem within_univ {R W : Set L} (h : ∀ l, l ∈ W) (p : Prog L V α) (s : S) : p.Within M R W s := by
  induction p generalizing s with
  | ret a => trivial
  | read l k ih => exact ⟨Or.inr (h l), ih _ s⟩
  | write l x k ih => exact ⟨h l, ih _⟩

theorem Within.mono {R W R' W' : Set L} (hR : R ⊆ R') (hW : W ⊆ W') {p : Prog L V α} {s : S}
    (h : p.Within M R W s) : p.Within M R' W' s := by
  induction p generalizing s with
  | ret a => trivial
  | read l k ih => exact ⟨h.1.imp (fun x => hR x) (fun x => hW x), ih _ h.2⟩
  | write l x k ih => exact ⟨hW h.1, ih h.2⟩

theorem Interleaves.trans [DecidableEq ι] {c d e : Config S L V α ι} (h : Interleaves M c d)
    (h' : Interleaves M d e) : Interleaves M c e := by
  induction h' with
  | start => exact h
  | move i _ hm ih => exact .move i ih hm

/-- A thread can always run on to its end. -/
theorem finishes [DecidableEq ι] (c : Config S L V α ι) (i : ι) :
    ∃ d a, Interleaves M c d ∧ d.2 i = .ret a :=
  ⟨_, _, (Gets.all (c.2 i) c.1).moves (i := i) (c := c) rfl .start, Function.update_self ..⟩

end Prog

variable (E : Ext)

theorem within_thread {own shared : Set ℕ} (hd : ∀ k ∈ own, k ∉ shared) {s : ℕ → Body}
    (cs : List (ℕ × Op)) (hp : ∀ c ∈ cs, c.1 ∈ own ∨
      c.1 ∈ shared ∧ ∃ y, c.2 = .query y ∧ (s c.1).Warm y) {t : ℕ → Body}
    (ht : ∀ k ∈ shared, t k = s k) :
    (thread E cs).Within fleet {p | p.1 ∈ shared} {p | p.1 ∈ own} t := by
  induction cs generalizing t with
  | nil => trivial
  | cons c cs ih =>
    obtain ⟨k, op⟩ := c
    have hcs := fun c hc => hp c (List.mem_cons_of_mem _ hc)
    have tail : ∀ r : Out (Option Ans), ∀ u : ℕ → Body, (∀ k ∈ shared, u k = s k) →
        ((match r with
          | .ub => .ret [.ub]
          | r => (thread E cs).bind fun rs => .ret (r :: rs) :
            Prog (ℕ × Cell) (fun p => p.2.Val) (List (Out (Option Ans))))).Within fleet
          {p | p.1 ∈ shared} {p | p.1 ∈ own} u := by
      intro r u hu
      cases r with
      | ub => trivial
      | ok a => exact (within_bind ..).2 ⟨ih hcs hu, trivial⟩
      | throws => exact (within_bind ..).2 ⟨ih hcs hu, trivial⟩
    refine (within_bind ..).2 ⟨(BProg.within_on ..).2 ?_, tail _ _ ?_⟩
    · rcases hp _ (List.mem_cons_self ..) with h | ⟨h, y, rfl, hw⟩
      · exact within_univ (fun l => h) _ _
      · have hs : BProg.Silent (BProg.ofOp E (.query y)) (t k) := by
          rw [ht k h]; exact BProg.silent_mapOk (BProg.silent_query E hw) _
        exact Within.mono (fun l _ => h) (Set.empty_subset _) hs
    · intro m hm
      rw [BProg.run_on]
      by_cases e : m = k
      · subst e
        rcases hp _ (List.mem_cons_self ..) with h | ⟨h, y, rfl, hw⟩
        · exact absurd hm (hd _ h)
        · have hs : BProg.Silent (BProg.ofOp E (.query y)) (t m) := by
            rw [ht m h]; exact BProg.silent_mapOk (BProg.silent_query E hw) _
          show Function.update t m _ m = s m
          rw [Function.update_self, hs.run, ht m h]
      · show Function.update t k _ m = s m
        rw [Function.update_of_ne e, ht m hm]

/-! ## Coming to an access -/

namespace BProg
variable {α β : Type} {P Q : Body → Prop} {l : Cell} {b : Body}

/-- Running alone from `b`, the program comes to a write of `l`, the body then having `P`. -/
def ToWrite (P : Body → Prop) (l : Cell) (p : BProg α) (b : Body) : Prop :=
  ∃ p' t, Gets memory p b p' t ∧ p'.Writes l ∧ P t

/-- Running alone from `b`, the program comes to an access of `l`. -/
def ToAccess (l : Cell) (p : BProg α) (b : Body) : Prop :=
  ∃ p' t, Gets memory p b p' t ∧ p'.Accesses l

theorem _root_.SpatialDyn.Prog.Writes.accesses {L : Type} {V : L → Type} {l : L} {p : Prog L V α}
    (h : p.Writes l) : p.Accesses l := by
  cases p with
  | ret a => exact h.elim
  | read m k => exact h.elim
  | write m x k => exact h

theorem ToWrite.access {p : BProg α} (h : ToWrite P l p b) : ToAccess l p b := by
  obtain ⟨p', t, h1, h2, -⟩ := h
  exact ⟨p', t, h1, h2.accesses⟩

theorem ToWrite.mono {p : BProg α} (h : ToWrite P l p b) (hP : ∀ t, P t → Q t) : ToWrite Q l p b := by
  obtain ⟨p', t, h1, h2, h3⟩ := h
  exact ⟨p', t, h1, h2, hP t h3⟩

theorem ToWrite.bind {p : BProg α} (h : ToWrite P l p b) (f : α → BProg β) :
    ToWrite P l (p >>= f) b := by
  obtain ⟨p', t, h1, h2, h3⟩ := h
  exact ⟨_, t, h1.bind f, writes_bind h2 f, h3⟩

theorem ToAccess.bind {p : BProg α} (h : ToAccess l p b) (f : α → BProg β) :
    ToAccess l (p >>= f) b := by
  obtain ⟨p', t, h1, h2⟩ := h
  exact ⟨_, t, h1.bind f, accesses_bind h2 f⟩

theorem toWrite_after {p : BProg α} {f : α → BProg β}
    (h : ToWrite P l (f (p.run memory b).1) (p.run memory b).2) : ToWrite P l (p >>= f) b := by
  obtain ⟨p', t, h1, h2, h3⟩ := h
  exact ⟨p', t, Gets.after h1, h2, h3⟩

theorem toAccess_after {p : BProg α} {f : α → BProg β}
    (h : ToAccess l (f (p.run memory b).1) (p.run memory b).2) : ToAccess l (p >>= f) b := by
  obtain ⟨p', t, h1, h2⟩ := h
  exact ⟨p', t, Gets.after h1, h2⟩

theorem toWrite_wr {x : l.Val} (h : P b) : ToWrite P l (wr l x) b := ⟨_, b, .here _ _, rfl, h⟩

theorem toAccess_rd : ToAccess l (rd l) b := ⟨_, b, .here _ _, rfl⟩

theorem ToWrite.andThen {p : BProg (Out α)} (h : ToWrite P l p b) (f : α → BProg (Out β)) :
    ToWrite P l (p.andThen f) b := h.bind _

theorem ToAccess.andThen {p : BProg (Out α)} (h : ToAccess l p b) (f : α → BProg (Out β)) :
    ToAccess l (p.andThen f) b := h.bind _

theorem toWrite_andThen {p : BProg (Out α)} {f : α → BProg (Out β)} {a : α}
    (ha : (p.run memory b).1 = .ok a) (h : ToWrite P l (f a) (p.run memory b).2) :
    ToWrite P l (p.andThen f) b := by
  refine toWrite_after ?_
  rw [ha]; exact h

theorem toAccess_andThen {p : BProg (Out α)} {f : α → BProg (Out β)} {a : α}
    (ha : (p.run memory b).1 = .ok a) (h : ToAccess l (f a) (p.run memory b).2) :
    ToAccess l (p.andThen f) b := by
  refine toAccess_after ?_
  rw [ha]; exact h

/-- The first write of a program that writes at all. -/
theorem first_write {p : BProg α} {b : Body} (h : ¬ Silent p b) :
    ∃ l, ToWrite (fun t => t = b) l p b := by
  induction p generalizing b with
  | ret a => exact absurd trivial h
  | read m f ih =>
    obtain ⟨l, p', t, h1, h2, h3⟩ := ih _ fun hs => h ⟨Or.inl trivial, hs⟩
    exact ⟨l, p', t, .read h1, h2, h3⟩
  | write m x p ih => exact ⟨m, _, b, .here _ _, rfl, rfl⟩

end BProg

variable {E}

/-- One thread comes to a write of a location the other then comes to access. -/
theorem race_of {ι : Type} [DecidableEq ι] {s : ℕ → Body}
    {ps : ι → Prog (ℕ × Cell) (fun p => p.2.Val) (List (Out (Option Ans)))} {i j : ι} (hij : i ≠ j)
    {k : ℕ} {op op' : Op} {ci cj : List (ℕ × Op)} (hi : ps i = thread E ((k, op) :: ci))
    (hj : ps j = thread E ((k, op') :: cj)) {l : Cell}
    (h : BProg.ToWrite (fun t => BProg.ToAccess l (BProg.ofOp E op') t) l (BProg.ofOp E op) (s k)) :
    Races fleet s ps := by
  obtain ⟨p, t, h1, h2, q, u, h3, h4⟩ := h
  have g1 := (BProg.gets_on h1 k (s := s) rfl).bind fun r => match r with
    | .ub => .ret [.ub]
    | r => (thread E ci).bind fun rs => .ret (r :: rs)
  have g2 := (BProg.gets_on h3 k (s := Function.update s k t) (Function.update_self ..)).bind
    fun r => match r with
    | .ub => .ret [.ub]
    | r => (thread E cj).bind fun rs => .ret (r :: rs)
  replace hi : ps i = (BProg.on k (BProg.ofOp E op)).bind _ := hi
  replace hj : ps j = (BProg.on k (BProg.ofOp E op')).bind _ := hj
  exact races hij (l := (k, l)) (hi ▸ g1) (writes_bind (BProg.writes_on h2 k) _) (hj ▸ g2)
    (accesses_bind (BProg.accesses_on h4 k) _)

theorem race_same {ι : Type} [DecidableEq ι] {s : ℕ → Body}
    {ps : ι → Prog (ℕ × Cell) (fun p => p.2.Val) (List (Out (Option Ans)))} {i j : ι} (hij : i ≠ j)
    {k : ℕ} {op : Op} {ci cj : List (ℕ × Op)} (hi : ps i = thread E ((k, op) :: ci))
    (hj : ps j = thread E ((k, op) :: cj)) (h : ¬ BProg.Silent (BProg.ofOp E op) (s k)) :
    Races fleet s ps := by
  obtain ⟨l, hl⟩ := BProg.first_write h
  refine race_of hij hi hj (l := l) (hl.mono ?_)
  rintro t rfl
  exact hl.access

namespace BProg
variable {b : Body}

/-- What the choice of path of `InverseDynamics` depends on. -/
def Alike (b t : Body) : Prop := t.c.crbaDone = b.c.crbaDone ∧ t.c.ccDone = b.c.ccDone ∧
  t.c.gravDone = b.c.gravDone

theorem alike_touch (b : Body) (x y : Bool) : Alike b ((twIf y).run memory ((tpIf x).run memory b).2).2 ∧
    Alike b ((tpIf x).run memory ((twIf y).run memory b).2).2 := by
  have a : ∀ b : Body, b.touchTw.c.crbaDone = b.c.crbaDone ∧ b.touchTw.c.ccDone = b.c.ccDone ∧
      b.touchTw.c.gravDone = b.c.gravDone := by
    intro b; unfold touchTw; split <;> exact ⟨rfl, rfl, rfl⟩
  cases x <;> cases y <;> simp only [run_tpIf, run_twIf] <;> first
    | exact ⟨⟨rfl, rfl, rfl⟩, ⟨rfl, rfl, rfl⟩⟩
    | exact ⟨a _, a _⟩

theorem toWrite_ext (f : FExt) (b : Body) : ToWrite (Alike b) .fG (externalTorques f) b := by
  unfold externalTorques
  refine toWrite_after (toWrite_after (toWrite_after (toWrite_after ?_)))
  exact (toWrite_wr (alike_touch b _ _).2).bind _

theorem toWrite_id (u : ℕ → ℝ) (f : FExt) (o : IDOpts) (b : Body) :
    ToWrite (Alike b) (if b.c.crbaDone && (!o.cc || b.c.ccDone) && (!o.gravity || b.c.gravDone)
      then .fG else .v) (inverseDynamics u f o) b := by
  unfold inverseDynamics
  refine toWrite_after ?_
  rw [run_idCached]
  cases h : (b.c.crbaDone && (!o.cc || b.c.ccDone) && (!o.gravity || b.c.gravDone)) with
  | true =>
    simp only [if_true]
    exact toWrite_after (toWrite_after ((toWrite_ext f b).bind _))
  | false =>
    simp only [Bool.false_eq_true, if_false]
    refine toWrite_after (toWrite_after (toWrite_after (toWrite_after (toWrite_after
      (toWrite_after (toWrite_after (toWrite_after (toWrite_after (toWrite_after ?_)))))))))
    exact (toWrite_wr (alike_touch b _ _).2).bind _

theorem race_id (u u' : ℕ → ℝ) (f f' : FExt) (o : IDOpts) (b : Body) : ∃ l,
    ToWrite (fun t => ToAccess l (inverseDynamics u' f' o) t) l (inverseDynamics u f o) b := by
  refine ⟨_, (toWrite_id u f o b).mono fun t ht => ?_⟩
  have := (toWrite_id u' f' o t).access
  rwa [ht.1, ht.2.1, ht.2.2] at this

/-- `Jacobian` when it computes. -/
noncomputable def jacMiss (k : ℕ) (x : Vec3) : BProg (ℕ → Motion) := do
  let Tw ← twArr
  let t ← Rd.tree
  wr .J (t.body.jacLoop Tw (t.anc.getD k []) ((Tw k).app x))
  wr (.flag .jac) true
  wr .jacLink k
  wr .jacOffset x
  Rd.J

theorem gets_jac (k : ℕ) (x : Vec3) (b : Body) : open Classical in
    Gets memory (jacobian k x) b
      (if b.c.jacDone = true ∧ b.c.jacLink = k ∧ b.c.jacOffset = x then Rd.J else jacMiss k x) b := by
  classical
  unfold jacobian
  refine Gets.after ?_
  by_cases h1 : b.c.jacDone = true
  · simp only [rd_jac', h1, if_true]
    refine Gets.after ?_
    by_cases h2 : b.c.jacLink = k
    · by_cases h3 : b.c.jacOffset = x
      · simp only [run_mbind, rd_jacLink, run_ite, rd_jacOffset, run_pure, h2, h3, decide_true,
          true_and, if_true]
        exact .here _ _
      · simp only [run_mbind, rd_jacLink, run_ite, rd_jacOffset, run_pure, h2, h3, decide_false,
          and_false, if_true, if_false, Bool.false_eq_true]
        exact .here _ _
    · simp only [run_mbind, rd_jacLink, run_ite, rd_jacOffset, run_pure, h2, false_and, and_false,
        if_false, Bool.false_eq_true]
      exact .here _ _
  · simp only [rd_jac', h1, false_and, if_false, Bool.false_eq_true]
    exact .here _ _

theorem toWrite_jac {k : ℕ} {x : Vec3} {b : Body}
    (h : ¬(b.c.jacDone = true ∧ b.c.jacLink = k ∧ b.c.jacOffset = x)) :
    ToWrite (fun t => t.shape = b.shape) .J (jacobian k x) b := by
  have g := gets_jac k x b
  rw [if_neg h] at g
  have : ToWrite (fun t => t.shape = b.shape) .J (jacMiss k x) b := by
    unfold jacMiss
    refine toWrite_after (toWrite_after ?_)
    exact (toWrite_wr (by simp only [rd_tree, run_twArr]; exact shape_touchTw b)).bind _
  obtain ⟨p', t, h1, h2, h3⟩ := this
  exact ⟨p', t, g.trans h1, h2, h3⟩

theorem toAccess_jac (k : ℕ) (x : Vec3) (b : Body) : ToAccess .J (jacobian k x) b := by
  by_cases h : b.c.jacDone = true ∧ b.c.jacLink = k ∧ b.c.jacOffset = x
  · have g := gets_jac k x b
    rw [if_pos h] at g
    exact ⟨_, _, g, rfl⟩
  · exact (toWrite_jac h).access

/-- A computing `Jacobian` just before it looks at the cached matrix for its caller. -/
theorem gets_jac_last {k : ℕ} {x : Vec3} {b : Body}
    (h : ¬(b.c.jacDone = true ∧ b.c.jacLink = k ∧ b.c.jacOffset = x)) :
    Gets memory (jacobian k x) b Rd.J ((jacobian k x).run memory b).2 := by
  have g := gets_jac k x b
  rw [if_neg h] at g
  refine g.trans ?_
  have e : ((jacobian k x).run memory b).2 = ((jacMiss k x).run memory b).2 := by
    have : ∀ {p p' : BProg (ℕ → Motion)} {b b' : Body}, Gets memory p b p' b' →
        p.run memory b = p'.run memory b' := by
      intro p p' b b' h
      induction h with
      | here => rfl
      | read _ ih => exact ih
      | write _ ih => exact ih
    rw [this g]
  rw [e]
  unfold jacMiss
  refine Gets.after (Gets.after (Gets.after (Gets.after (Gets.after (Gets.after ?_)))))
  simp only [run_mbind]
  exact .here _ _

/-- What a `Jacobian` call still has to do when it is about to look at the cached matrix. -/
noncomputable def jacLast : BProg (Out (Option Ans)) :=
  mapOk (sized Rd.J fun n J => Ans.cols (take n J)) some

theorem gets_jac_op {E : Ext} {i : ℤ} {k : ℕ} {x : Vec3} {b : Body} (hi : b.index i = .ok k)
    (h : ¬(b.c.jacDone = true ∧ b.c.jacLink = k ∧ b.c.jacOffset = x)) :
    Gets memory (ofOp E (.query (.jacobian i x))) b jacLast ((jacobian k x).run memory b).2 := by
  show Gets memory (mapOk ((index i).andThen fun k => sized (jacobian k x) fun n J =>
    Ans.cols (take n J)) some) b _ _
  have g0 : Gets memory ((index i).andThen fun k => sized (jacobian k x) fun n J =>
      Ans.cols (take n J)) b (sized Rd.J fun n J => Ans.cols (take n J))
      ((jacobian k x).run memory b).2 := by
    refine Gets.after ?_
    rw [run_index, hi]
    exact (gets_jac_last h).bind _
  exact g0.bind _

theorem run_jac_op {E : Ext} {i : ℤ} {k : ℕ} {x : Vec3} {b : Body} (hi : b.index i = .ok k) :
    (ofOp E (.query (.jacobian i x))).run memory b =
      (.ok (some (.cols (take b.dof ((jacobian k x).run memory b).1))),
        ((jacobian k x).run memory b).2) := by
  show Prog.run memory (mapOk ((index i).andThen fun k => sized (jacobian k x) fun n J =>
    Ans.cols (take n J)) some) b = _
  have e : ((jacobian k x).run memory b).2.shape.body.dof = b.dof := by rw [shape_jac]; rfl
  unfold mapOk sized
  rw [run_andThen, run_andThen, run_index, hi]
  simp only [run_mbind, rd_tree, run_pure, e]

theorem run_jacLast (b : Body) :
    jacLast.run memory b = (.ok (some (.cols (take b.dof b.c.J))), b) := rfl

theorem toWrite_setQ {x : List ℝ} {b : Body} (hl : x.length = b.dof) (hx : b.q ≠ x) :
    ToWrite (fun t => t.shape = b.shape) (.flag .tw) (setQ x) b := by
  unfold setQ
  refine toWrite_after ?_
  have : (x.length ≠ (Rd.tree.run memory b).1.body.dof) = False := by
    rw [rd_tree]; exact eq_false (not_not.2 hl)
  simp only [this, if_false]
  refine toWrite_after ?_
  simp only [rd_q, rd_tree, hx, if_false]
  refine toWrite_after (ToWrite.bind ?_ _)
  unfold clear
  refine toWrite_after ?_
  unfold clear
  refine ToWrite.bind (toWrite_wr ?_) _
  rfl

theorem toAccess_tw {i : ℤ} {k : ℕ} {b : Body} (h : b.index i = .ok k) {f : ℕ → (ℕ → Iso) → Ans} :
    ToAccess (.flag .tw) (atLink i fun k => do let T ← twArr; pure (f k T)) b := by
  refine toAccess_andThen (a := k) (by rw [run_index, h]) ?_
  refine ToAccess.bind ?_ _
  refine ToAccess.bind ?_ _
  rw [run_index]
  exact toAccess_rd.bind _

end BProg
end SpatialDyn
