import Verif.Lemmas.RoundCalc
import Verif.Lemmas.Aba
import Verif.Lemmas.Motion

/-!
# Errors of the dynamics algorithms
-/

namespace SpatialDyn

variable {P : Type*}

/-- The same robot with other transforms and rates. -/
def Sys.moved (σ : Sys) (Tp Tw : ℕ → Iso) (dq : ℕ → ℝ) : Sys := { σ with Tp := Tp, Tw := Tw, dq := dq }

/-- Transforms and rates of all bodies are computed with a small error. -/
structure AccSys (σ : Sys) (Tp Tw : Fl → P → ℕ → Iso) (dq : Fl → P → ℕ → ℝ) (X Y : P → ℕ → Iso)
    (w : P → ℕ → ℝ) : Prop where
  Tp : ∀ i < σ.n, AccT (fun F p => Tp F p i) fun p => X p i
  Tw : ∀ i < σ.n, AccT (fun F p => Tw F p i) fun p => Y p i
  dq : ∀ i < σ.n, Acc (fun F p => dq F p i) fun p => w p i

/-- Articulated inertia and force. -/
structure AccN (f : Fl → P → Mat6 × Force) (x : P → Mat6 × Force) : Prop where
  I : AccS (fun F p => (f F p).1) fun p => (x p).1
  f : AccF (fun F p => (f F p).2) fun p => (x p).2

structure AccL (f : Fl → P → Motion × ℝ) (x : P → Motion × ℝ) : Prop where
  a : AccM (fun F p => (f F p).1) fun p => (x p).1
  d : Acc (fun F p => (f F p).2) fun p => (x p).2

structure AccO (f : Fl → P → AbaOut) (x : P → AbaOut) : Prop where
  h : AccF (fun F p => (f F p).h) fun p => (x p).h
  d : Acc (fun F p => (f F p).d) fun p => (x p).d
  ddq : Acc (fun F p => (f F p).ddq) fun p => (x p).ddq

structure AccB (f : Fl → P → VAF) (x : P → VAF) : Prop where
  v : AccM (fun F p => (f F p).v) fun p => (x p).v
  a : AccM (fun F p => (f F p).a) fun p => (x p).a
  f : AccF (fun F p => (f F p).f) fun p => (x p).f

/-- Loads are only put on bodies so that the sum has a mass. -/
def Sys.LoadOK (σ : Sys) : Prop := ∀ i < σ.n, ∀ L, σ.load i = some L → 0 < (σ.I i).mass + L.mass

namespace AccSys
variable {σ : Sys} {Tp Tw : Fl → P → ℕ → Iso} {dq : Fl → P → ℕ → ℝ} {X Y : P → ℕ → Iso} {w : P → ℕ → ℝ}

theorem tot (hL : σ.LoadOK) {i : ℕ} (hi : i < σ.n) :
    AccI (fun F p => F.Itot (σ.moved (Tp F p) (Tw F p) (dq F p)) i)
      fun p => (σ.moved (X p) (Y p) (w p)).Itot i := by
  cases h : σ.load i with
  | none =>
    have e : ∀ (T1 T2 : ℕ → Iso) (d : ℕ → ℝ), (σ.moved T1 T2 d).load i = none := fun _ _ _ => h
    unfold Fl.Itot Sys.Itot
    simp only [e]
    exact .const (σ.I i)
  | some L =>
    have e : ∀ (T1 T2 : ℕ → Iso) (d : ℕ → ℝ), (σ.moved T1 T2 d).load i = some L := fun _ _ _ => h
    unfold Fl.Itot Sys.Itot
    simp only [e]
    exact AccI.add (.const _) (.const _) ⟨_, hL i hi L h, fun _ => le_rfl⟩

section
variable (hL : σ.LoadOK) (hp : ParLt σ.n σ.par) (h : AccSys σ Tp Tw dq X Y w)
include h

theorem subExt {f : Fl → P → Force} {x : P → Force} (fext : FExt) {i : ℕ} (hi : i < σ.n)
    (hf : AccF f x) :
    AccF (fun F p => F.subExt (σ.moved (Tp F p) (Tw F p) (dq F p)) fext i (f F p))
      fun p => (σ.moved (X p) (Y p) (w p)).subExt fext i (x p) := by
  unfold Fl.subExt Sys.subExt
  cases fext i with
  | none => exact hf
  | some fe => exact hf.sub ((h.Tw i hi).inv.actF (.const fe))

include hp in
theorem velStep {r : Fl → P → ℝ} {s : P → ℝ} (hr : Acc r s) {a : Fl → P → ℕ → VAF} {c : P → ℕ → VAF}
    (ha : ∀ i < σ.n, AccM (fun F p => (a F p i).v) fun p => (c p i).v) {i : ℕ} (hi : i < σ.n) :
    AccM (fun F p => F.velStep (σ.moved (Tp F p) (Tw F p) (dq F p)) (r F p) (a F p) i)
      fun p => (σ.moved (X p) (Y p) (w p)).velStep (s p) (c p) i := by
  cases hq : σ.par i with
  | none =>
    have par : ∀ (T1 T2 : ℕ → Iso) (d : ℕ → ℝ), (σ.moved T1 T2 d).par i = none := fun _ _ _ => hq
    unfold Fl.velStep Sys.velStep
    simp only [par]
    exact AccM.smul hr (.const (σ.S i))
  | some q =>
    have par : ∀ (T1 T2 : ℕ → Iso) (d : ℕ → ℝ), (σ.moved T1 T2 d).par i = some q := fun _ _ _ => hq
    unfold Fl.velStep Sys.velStep
    simp only [par]
    exact (AccM.smul hr (.const (σ.S i))).add ((h.Tp i hi).inv.actM (ha q ((hp i hi q hq).trans hi)))

include hL hp in
theorem rneaStep {dd : Fl → P → ℕ → ℝ} {e : P → ℕ → ℝ}
    (hd : ∀ i < σ.n, Acc (fun F p => dd F p i) fun p => e p i) (fext : FExt) (o : IDOpts)
    {a : Fl → P → ℕ → VAF} {c : P → ℕ → VAF} (ha : ∀ i < σ.n, AccB (fun F p => a F p i) fun p => c p i)
    {i : ℕ} (hi : i < σ.n) :
    AccB (fun F p => F.rneaStep (σ.moved (Tp F p) (Tw F p) (dq F p)) (dd F p) fext o (a F p) i (a F p i))
      fun p => (σ.moved (X p) (Y p) (w p)).rneaStep (e p) fext o false (c p) i (c p i) := by
  have hv : AccM (fun F p => if o.cc then F.velStep (σ.moved (Tp F p) (Tw F p) (dq F p)) (dq F p i)
      (a F p) i else (a F p i).v) fun p => if o.cc then (σ.moved (X p) (Y p) (w p)).velStep (w p i)
      (c p) i else (c p i).v :=
    rel_ite AccM _ (fun _ => h.velStep hp (h.dq i hi) (fun j hj => (ha j hj).v) hi) fun _ => (ha i hi).v
  have hs : AccM (fun F p => F.smulM (dd F p i) (σ.S i)) fun p => e p i • σ.S i :=
    AccM.smul (hd i hi) (.const _)
  have hx := hv.cross (AccM.smul (h.dq i hi) (.const (σ.S i)))
  have hI := tot (P := P) (Tp := Tp) (Tw := Tw) (dq := dq) (X := X) (Y := Y) (w := w) hL hi
  have fin : ∀ (α : Fl → P → Motion) (β : P → Motion), AccM α β →
      AccF (fun F p => F.subExt (σ.moved (Tp F p) (Tw F p) (dq F p)) fext i
        (if o.cc then F.addF (F.appI (F.Itot (σ.moved (Tp F p) (Tw F p) (dq F p)) i) (α F p))
          (F.crossF (if o.cc then F.velStep (σ.moved (Tp F p) (Tw F p) (dq F p)) (dq F p i)
            (a F p) i else (a F p i).v) (F.appI (F.Itot (σ.moved (Tp F p) (Tw F p) (dq F p)) i)
            (if o.cc then F.velStep (σ.moved (Tp F p) (Tw F p) (dq F p)) (dq F p i)
            (a F p) i else (a F p i).v)))
        else F.appI (F.Itot (σ.moved (Tp F p) (Tw F p) (dq F p)) i) (α F p)))
      fun p => (σ.moved (X p) (Y p) (w p)).subExt fext i
        (if o.cc then ((σ.moved (X p) (Y p) (w p)).Itot i).app (β p) +
          (if o.cc then (σ.moved (X p) (Y p) (w p)).velStep (w p i) (c p) i else (c p i).v).crossF
            (((σ.moved (X p) (Y p) (w p)).Itot i).app
            (if o.cc then (σ.moved (X p) (Y p) (w p)).velStep (w p i) (c p) i else (c p i).v))
        else ((σ.moved (X p) (Y p) (w p)).Itot i).app (β p)) := fun α β hα =>
    h.subExt fext hi (rel_ite AccF _ (fun _ => (hI.app hα).add (AccF.cross hv (hI.app hv)))
      fun _ => hI.app hα)
  rcases o with ⟨gr, cc, fr, eps⟩
  cases hq : σ.par i with
  | none =>
    have hg : AccM (fun F p => if gr then F.subM (F.smulM (dd F p i) (σ.S i))
        (F.actM (F.inv (Tw F p i)) σ.g) else F.smulM (dd F p i) (σ.S i))
        fun p => if gr then e p i • σ.S i - (Y p i).inv.actM σ.g else e p i • σ.S i :=
      rel_ite AccM _ (fun _ => hs.sub ((h.Tw i hi).inv.actM (.const _))) fun _ => hs
    have hA := rel_ite AccM cc (fun _ => hg.add hx) (fun _ => hg)
    have hF := fin _ _ hA
    have par : ∀ (T1 T2 : ℕ → Iso) (d : ℕ → ℝ), (σ.moved T1 T2 d).par i = none := fun _ _ _ => hq
    unfold Fl.rneaStep Sys.rneaStep
    simp only [par]
    cases cc
    · exact ⟨hv, hA, hF⟩
    · exact ⟨hv, hA, hF⟩
  | some q =>
    have hqi := (hp i hi q hq).trans hi
    have hT := (h.Tp i hi).inv.actM (ha q hqi).a
    have hA := rel_ite AccM cc (fun _ => hs.add (hT.add hx)) (fun _ => hs.add hT)
    have hF := fin _ _ hA
    have par : ∀ (T1 T2 : ℕ → Iso) (d : ℕ → ℝ), (σ.moved T1 T2 d).par i = some q := fun _ _ _ => hq
    unfold Fl.rneaStep Sys.rneaStep
    simp only [par]
    cases cc
    · exact ⟨hv, hA, hF⟩
    · exact ⟨hv, hA, hF⟩

include hp in
theorem backward {f : Fl → P → ℕ → Force} {x : P → ℕ → Force}
    (hf : ∀ i < σ.n, AccF (fun F p => f F p i) fun p => x p i) (t0 : P → ℕ → ℝ) {i : ℕ} (hi : i < σ.n) :
    Acc (fun F p => F.backward (σ.moved (Tp F p) (Tw F p) (dq F p)) (f F p) i)
      fun p => ((σ.moved (X p) (Y p) (w p)).backward (x p) (t0 p)).2 i := by
  have e1 : ∀ (F : Fl) p, F.backward (σ.moved (Tp F p) (Tw F p) (dq F p)) (f F p) i =
      F.dot6 (σ.S i) (accLoop F.addF σ.n σ.par (fun i f => F.actF (Tp F p i) f) (f F p) i) := by
    intro F p
    unfold Fl.backward
    rw [bwdLoop_eq _ (show ParLt (σ.moved (Tp F p) (Tw F p) (dq F p)).n
      (σ.moved (Tp F p) (Tw F p) (dq F p)).par from hp)]
    exact if_pos hi
  have e2 : ∀ p, ((σ.moved (X p) (Y p) (w p)).backward (x p) (t0 p)).2 i =
      (σ.S i).dot (accLoop (· + ·) σ.n σ.par (fun i f => (X p i).actF f) (x p) i) := by
    intro p
    unfold Sys.backward
    rw [bwdLoop_eq _ (show ParLt (σ.moved (X p) (Y p) (w p)).n (σ.moved (X p) (Y p) (w p)).par from hp)]
    exact if_pos hi
  simp only [e1, e2]
  exact Acc.dot6 (.const _) (acc_rel AccF (op' := fun F => F.addF) (op := (· + ·))
    (f := fun F p i f => F.actF (Tp F p i) f) (g := fun p i f => (X p i).actF f)
    (fun _ _ _ _ h1 h2 => h1.add h2) hp (fun _ _ => True)
    (fun j hj _ _ hr _ => (h.Tp j hj).actF hr) σ.n le_rfl hf (fun _ _ => trivial) i hi)

include hL hp in
theorem rnea {dd : Fl → P → ℕ → ℝ} {e : P → ℕ → ℝ}
    (hd : ∀ i < σ.n, Acc (fun F p => dd F p i) fun p => e p i) (fext : FExt) (o : IDOpts)
    (ho : o.friction = false) {i : ℕ} (hi : i < σ.n) :
    Acc (fun F p => F.rnea (σ.moved (Tp F p) (Tw F p) (dq F p)) (dd F p) fext o i)
      fun p => ((σ.moved (X p) (Y p) (w p)).rnea (e p) fext o false fun _ => ⟨0, 0, 0⟩).1 i := by
  have h1 := fwd_rel AccB
    (f := fun F p => F.rneaStep (σ.moved (Tp F p) (Tw F p) (dq F p)) (dd F p) fext o)
    (g := fun p => (σ.moved (X p) (Y p) (w p)).rneaStep (e p) fext o false)
    (fun a c ha i hi => h.rneaStep hL hp hd fext o ha hi) σ.n le_rfl
    (a0 := fun _ _ _ => ⟨0, 0, 0⟩) (c0 := fun _ _ => ⟨0, 0, 0⟩)
    (fun i hi => ⟨.const 0, .const 0, .const 0⟩)
  have h2 := h.backward hp (fun j hj => (h1 j hj).f) (fun _ _ => 0) hi
  unfold Sys.rnea Sys.addFriction
  simp only [ho, Bool.false_eq_true, if_false]
  exact h2

include hL hp in
theorem coriolis {i : ℕ} (hi : i < σ.n) :
    Acc (fun F p => F.coriolis (σ.moved (Tp F p) (Tw F p) (dq F p)) i)
      fun p => ((σ.moved (X p) (Y p) (w p)).coriolis false (fun _ => ⟨0, 0, 0⟩) fun _ => 0).1 i := by
  have h1 := fwd_rel AccB
    (f := fun F p => F.ccStep (σ.moved (Tp F p) (Tw F p) (dq F p)))
    (g := fun p => (σ.moved (X p) (Y p) (w p)).ccStep false)
    (fun a c ha i hi => by
      have hv := h.velStep hp (h.dq i hi) (fun j hj => (ha j hj).v) hi
      have hI := tot (P := P) (Tp := Tp) (Tw := Tw) (dq := dq) (X := X) (Y := Y) (w := w) hL hi
      have hx := hv.cross (AccM.smul (h.dq i hi) (.const (σ.S i)))
      cases hq : σ.par i with
      | none =>
        have par : ∀ (T1 T2 : ℕ → Iso) (d : ℕ → ℝ), (σ.moved T1 T2 d).par i = none := fun _ _ _ => hq
        unfold Fl.ccStep Sys.ccStep
        simp only [par]
        exact ⟨hv, .const 0, (hI.app (.const 0)).add (AccF.cross hv (hI.app hv))⟩
      | some q =>
        have hc := ((h.Tp i hi).inv.actM (ha q ((hp i hi q hq).trans hi)).a).add hx
        have par : ∀ (T1 T2 : ℕ → Iso) (d : ℕ → ℝ), (σ.moved T1 T2 d).par i = some q := fun _ _ _ => hq
        unfold Fl.ccStep Sys.ccStep
        simp only [par]
        exact ⟨hv, hc, (hI.app hc).add (AccF.cross hv (hI.app hv))⟩) σ.n le_rfl
    (a0 := fun _ _ _ => ⟨0, 0, 0⟩) (c0 := fun _ _ => ⟨0, 0, 0⟩)
    (fun i hi => ⟨.const 0, .const 0, .const 0⟩)
  exact h.backward hp (fun j hj => (h1 j hj).f) (fun _ _ => 0) hi

include hL hp in
theorem gravity {i : ℕ} (hi : i < σ.n) :
    Acc (fun F p => F.gravity (σ.moved (Tp F p) (Tw F p) (dq F p)) i)
      fun p => ((σ.moved (X p) (Y p) (w p)).gravity (fun _ => 0) fun _ => 0).1 i := by
  refine h.backward hp (x := fun p => (σ.moved (X p) (Y p) (w p)).gravForward fun _ => 0)
    (fun j hj => ?_) (fun _ _ => 0) hi
  have e : ∀ p, (σ.moved (X p) (Y p) (w p)).gravForward (fun _ => 0) j =
      ((σ.moved (X p) (Y p) (w p)).Itot j).app ((Y p j).inv.actM (-σ.g)) := fun p =>
    Sys.fwdLoop_spec' (fun _ _ _ _ _ _ => rfl) _ j hj
  simp only [e]
  exact (tot hL hj).app ((h.Tw j hj).inv.actM (.const (-σ.g)))

include hp in
theorem extTorques (fext : FExt) {i : ℕ} (hi : i < σ.n) :
    Acc (fun F p => F.extTorques (σ.moved (Tp F p) (Tw F p) (dq F p)) fext i)
      fun p => ((σ.moved (X p) (Y p) (w p)).extTorques fext fun _ => 0).1 i := by
  refine h.backward hp (x := fun p => (σ.moved (X p) (Y p) (w p)).extForward fext fun _ => 0)
    (fun j hj => ?_) (fun _ _ => 0) hi
  have e : ∀ p, (σ.moved (X p) (Y p) (w p)).extForward fext (fun _ => 0) j = match fext j with
      | some fe => (Y p j).inv.actF (-fe)
      | none => 0 := fun p => Sys.fwdLoop_spec' (fun _ _ _ _ _ _ => rfl) _ j hj
  simp only [e]
  cases fext j with
  | none => exact .const 0
  | some fe => exact (h.Tw j hj).inv.actF (.const _)

/-! ## Mass matrix -/

omit h in
theorem setMat_rel {A : Fl → P → ℕ → ℕ → ℝ} {B : P → ℕ → ℕ → ℝ}
    (hA : ∀ i j, Acc (fun F p => A F p i j) fun p => B p i j) (i j : ℕ) {x : Fl → P → ℝ} {y : P → ℝ}
    (hx : Acc x y) : ∀ a b, Acc (fun F p => Sys.setMat (A F p) i j (x F p) a b)
      fun p => Sys.setMat (B p) i j (y p) a b := by
  intro a b
  unfold Sys.setMat
  by_cases h1 : a = i
  · subst h1
    simp only [Function.update_self]
    by_cases h2 : b = j
    · subst h2
      simp only [Function.update_self]
      exact hx
    · simp only [Function.update_of_ne h2]
      exact hA a b
  · simp only [Function.update_of_ne h1]
    exact hA a b

end
end AccSys

theorem Force.dot_comm6 (f : Force) (m : Motion) : f.dot m = m.dot f := by
  unfold Force.dot Motion.dot
  ring

namespace AccSys
variable {σ : Sys} {Tp Tw : Fl → P → ℕ → Iso} {dq : Fl → P → ℕ → ℝ} {X Y : P → ℕ → Iso} {w : P → ℕ → ℝ}
variable (hL : σ.LoadOK) (hp : ParLt σ.n σ.par) (h : AccSys σ Tp Tw dq X Y w)
include hp h

theorem crbaWalk (i : ℕ) (k : ℕ) : ∀ (c : ℕ), c < σ.n → ∀ {f : Fl → P → Force} {x : P → Force}
    {A : Fl → P → ℕ → ℕ → ℝ} {B : P → ℕ → ℕ → ℝ}, AccF f x →
    (∀ i j, Acc (fun F p => A F p i j) fun p => B p i j) → ∀ a b,
    Acc (fun F p => F.crbaWalk (σ.moved (Tp F p) (Tw F p) (dq F p)) i k (σ.par c) c (f F p) (A F p) a b)
      fun p => (σ.moved (X p) (Y p) (w p)).crbaWalk i k (σ.par c) c (x p) (B p) a b := by
  induction k with
  | zero => intro c _ f x A B _ hA; simpa [Fl.crbaWalk, Sys.crbaWalk] using hA
  | succ k ih =>
    intro c hc f x A B hf hA a b
    cases hq : σ.par c with
    | none => simpa [Fl.crbaWalk, Sys.crbaWalk] using hA a b
    | some j =>
      have hj := (hp c hc j hq).trans hc
      have h1 := (h.Tp c hc).actF hf
      have h2 := setMat_rel hA i j ((Acc.dot6 (.const (σ.S j)) h1).congr
        fun p => (Force.dot_comm6 _ _).symm)
      have h3 := setMat_rel h2 j i (h2 i j)
      exact ih j hj h1 h3 a b

/-- Last pass of the articulated body algorithm. -/
theorem abaLast (grav : Bool) {e : ℝ} (he : 0 < e) {O : Fl → P → ℕ → AbaOut} {Q : P → ℕ → AbaOut}
    (h3 : ∀ j < σ.n, AccO (fun F p => O F p j) fun p => Q p j) (hdd : ∀ j < σ.n, ∀ p, e ≤ |(Q p j).d|)
    {a0 : Fl → P → ℕ → Motion × ℝ} {c0 : P → ℕ → Motion × ℝ}
    (h0 : ∀ j < σ.n, AccL (fun F p => a0 F p j) fun p => c0 p j) :
    ∀ j < σ.n, AccL
      (fun F p => fwdLoop σ.n (F.abaLastStep (σ.moved (Tp F p) (Tw F p) (dq F p)) grav (O F p)) (a0 F p) j)
      fun p => fwdLoop σ.n ((σ.moved (X p) (Y p) (w p)).abaLastStep grav (Q p)) (c0 p) j := by
  refine fwd_rel AccL
    (f := fun F p => F.abaLastStep (σ.moved (Tp F p) (Tw F p) (dq F p)) grav (O F p))
    (g := fun p => (σ.moved (X p) (Y p) (w p)).abaLastStep grav (Q p))
    (fun a c ha j hj => ?_) σ.n le_rfl h0
  have ho := h3 j hj
  cases hq : σ.par j with
  | none =>
    have par : ∀ (T1 T2 : ℕ → Iso) (d : ℕ → ℝ), (σ.moved T1 T2 d).par j = none := fun _ _ _ => hq
    have hA := rel_ite AccM grav (fun _ => (h.Tp j hj).inv.actM (.const (-σ.g)))
      (fun _ => .const 0)
    have fin := (ha j hj).d.sub ((Acc.dot6 hA ho.h).div ho.d he (hdd j hj))
    unfold Fl.abaLastStep Sys.abaLastStep
    simp only [par, Force.dot_comm6]
    exact ⟨hA.add (AccM.smul fin (.const (σ.S j))), fin⟩
  | some q =>
    have par : ∀ (T1 T2 : ℕ → Iso) (d : ℕ → ℝ), (σ.moved T1 T2 d).par j = some q := fun _ _ _ => hq
    have hA := (ha j hj).a.add ((h.Tp j hj).inv.actM (ha q ((hp j hj q hq).trans hj)).a)
    have fin := (ha j hj).d.sub ((Acc.dot6 hA ho.h).div ho.d he (hdd j hj))
    unfold Fl.abaLastStep Sys.abaLastStep
    simp only [par, Force.dot_comm6]
    exact ⟨hA.add (AccM.smul fin (.const (σ.S j))), fin⟩

include hL

theorem crba (hm : ∀ i < σ.n, 0 < (σ.Itot i).mass) (i j : ℕ) :
    Acc (fun F p => F.crba (σ.moved (Tp F p) (Tw F p) (dq F p)) i j)
      fun p => ((σ.moved (X p) (Y p) (w p)).crba fun i => σ.Itot i).2 i j := by
  have key : ∀ (l : List ℕ), (∀ k ∈ l, k < σ.n) → ∀ (I : Fl → P → ℕ → Inertia) (J : P → ℕ → Inertia)
      (A : Fl → P → ℕ → ℕ → ℝ) (B : P → ℕ → ℕ → ℝ),
      (∀ k < σ.n, AccI (fun F p => I F p k) (fun p => J p k) ∧ Heavy fun p => J p k) →
      (∀ i j, Acc (fun F p => A F p i j) fun p => B p i j) → ∀ i j,
      Acc (fun F p => (l.foldl (F.crbaStep (σ.moved (Tp F p) (Tw F p) (dq F p))) (I F p, A F p)).2 i j)
        fun p => (l.foldl (σ.moved (X p) (Y p) (w p)).crbaStep (J p, B p)).2 i j := by
    intro l
    induction l with
    | nil => intro _ I J A B _ hA; exact hA
    | cons k l ih =>
      intro hl I J A B hI hA
      have hk := hl k (by simp)
      simp only [List.foldl_cons]
      have hI' : ∀ m < σ.n, AccI (fun F p => (match σ.par k with
          | none => I F p
          | some q => accum F.addToI (I F p) q (F.actI (Tp F p k) (I F p k))) m) (fun p => (match σ.par k with
          | none => J p
          | some q => accum Inertia.add (J p) q ((X p k).actI (J p k))) m) ∧ Heavy fun p =>
          (match σ.par k with
          | none => J p
          | some q => accum Inertia.add (J p) q ((X p k).actI (J p k))) m := by
        intro m hm
        cases hq : σ.par k with
        | none => exact hI m hm
        | some q =>
          simp only [accum]
          by_cases hmq : m = q
          · subst hmq
            simp only [Function.update_self]
            have hh := (hI m hm).2.add ((hI k hk).2.act fun p => X p k)
            exact ⟨(hI m hm).1.addTo (AccI.act (h.Tp k hk) (hI k hk).1) hh, hh⟩
          · simp only [Function.update_of_ne hmq]
            exact hI m hm
      have hf := (hI' k hk).1.app (.const (σ.S k))
      refine ih (fun m hm => hl m (by simp [hm])) _ _ _ _ hI'
        (h.crbaWalk hp k σ.n k hk hf (AccSys.setMat_rel hA k k ((Acc.dot6 (.const (σ.S k)) hf).congr
          fun p => (Force.dot_comm6 _ _).symm)))
  have hin : ∀ p, fwdLoop σ.n (fun _ i _ => (σ.moved (X p) (Y p) (w p)).Itot i) (fun i => σ.Itot i) =
      fun i => σ.Itot i := by
    intro p
    have : ∀ n, fwdLoop n (fun _ i _ => (σ.moved (X p) (Y p) (w p)).Itot i) (fun i => σ.Itot i) =
      fun i => σ.Itot i := by
      intro n
      induction n with
      | zero => rfl
      | succ n ih =>
        rw [fwdLoop_succ, ih]
        exact Function.update_eq_self n _
    exact this _
  have := key (List.range σ.n).reverse (fun k hk => by simpa using hk)
    (fun F p k => F.Itot (σ.moved (Tp F p) (Tw F p) (dq F p)) k) (fun p k => σ.Itot k) (fun _ _ _ _ => 0)
    (fun _ _ _ => 0) (fun k hk => ⟨tot (X := X) (Y := Y) (w := w) hL hk, _, hm k hk, fun _ => le_rfl⟩)
    (fun _ _ => .const 0) i j
  unfold Fl.crba Sys.crba
  have e : ∀ p, (fwdLoop (σ.moved (X p) (Y p) (w p)).n (fun _ i _ => (σ.moved (X p) (Y p) (w p)).Itot i)
    fun i => σ.Itot i) = fun i => σ.Itot i := hin
  simp only [e]
  exact this

/-! ## Articulated body algorithm -/

theorem aba (tau : ℕ → ℝ) (fext : FExt) (o : FDOpts) (ho : o.friction = false) (c : AbaCache)
    (hw : ∀ p, (σ.moved (X p) (Y p) (w p)).WF) {e : ℝ} (he : 0 < e)
    (hd : ∀ p, ∀ i < σ.n, e ≤ |(σ.moved (X p) (Y p) (w p)).artD i|) {i : ℕ} (hi : i < σ.n) :
    Acc (fun F p => F.aba (σ.moved (Tp F p) (Tw F p) (dq F p)) tau fext o i)
      fun p => ((σ.moved (X p) (Y p) (w p)).aba tau fext o false false (fun _ => ⟨0, 0, 0⟩) c).ddq i := by
  -- first pass
  have h1 := fwd_rel AccB
    (f := fun F p => F.abaStep (σ.moved (Tp F p) (Tw F p) (dq F p)) fext o)
    (g := fun p => (σ.moved (X p) (Y p) (w p)).abaStep fext o false)
    (fun a c ha i hi => by
      have hr : Acc (fun F p => if o.cc then dq F p i else 0) fun p => if o.cc then w p i else 0 :=
        rel_ite Acc _ (fun _ => h.dq i hi) fun _ => .const 0
      have hv := h.velStep hp hr (fun j hj => (ha j hj).v) hi
      have hI := tot (P := P) (Tp := Tp) (Tw := Tw) (dq := dq) (X := X) (Y := Y) (w := w) hL hi
      have hx := hv.cross (AccM.smul hr (.const (σ.S i)))
      have hf := h.subExt fext hi (AccF.cross hv (hI.app hv))
      cases hq : σ.par i with
      | none =>
        have par : ∀ (T1 T2 : ℕ → Iso) (d : ℕ → ℝ), (σ.moved T1 T2 d).par i = none := fun _ _ _ => hq
        unfold Fl.abaStep Sys.abaStep
        simp only [par, Bool.not_false, Bool.true_or, if_true]
        exact ⟨hv, .const 0, hf⟩
      | some q =>
        have par : ∀ (T1 T2 : ℕ → Iso) (d : ℕ → ℝ), (σ.moved T1 T2 d).par i = some q := fun _ _ _ => hq
        unfold Fl.abaStep Sys.abaStep
        simp only [par, Bool.not_false, Bool.true_or, if_true]
        exact ⟨hv, hx, hf⟩) σ.n le_rfl
    (a0 := fun _ _ _ => ⟨0, 0, 0⟩) (c0 := fun _ _ => ⟨0, 0, 0⟩)
    (fun i hi => ⟨.const 0, .const 0, .const 0⟩)
  -- backward pass
  have hD : ∀ j < σ.n, ∀ (M : Fl → P → Mat6) (A : P → Mat6), AccS M A →
      Acc (fun F p => F.abaD (σ.moved (Tp F p) (Tw F p) (dq F p)) j (M F p))
        fun p => (σ.moved (X p) (Y p) (w p)).abaD false c j (A p) := fun j _ M A hM => by
    have := Acc.dot6 (.const (σ.S j)) (hM.app (.const (σ.S j)))
    exact this
  have hR : ∀ j < σ.n, ∀ (M : Fl → P → Mat6) (A : P → Mat6), AccS M A →
      (∀ p, e ≤ |(σ.moved (X p) (Y p) (w p)).abaD false c j (A p)|) →
      AccS (fun F p => F.abaRed (σ.moved (Tp F p) (Tw F p) (dq F p)) j (M F p))
        fun p => (σ.moved (X p) (Y p) (w p)).abaRed false c j (A p) := fun j hj M A hM hg => by
    cases hq : σ.par j with
    | none =>
      have par : ∀ (T1 T2 : ℕ → Iso) (d : ℕ → ℝ), (σ.moved T1 T2 d).par j = none := fun _ _ _ => hq
      unfold Fl.abaRed Sys.abaRed
      simp only [par, Bool.false_eq_true, if_false]
      exact hM
    | some q =>
      have par : ∀ (T1 T2 : ℕ → Iso) (d : ℕ → ℝ), (σ.moved T1 T2 d).par j = some q := fun _ _ _ => hq
      unfold Fl.abaRed Sys.abaRed
      simp only [par, Bool.false_eq_true, if_false]
      exact hM.sub (AccS.outerDiv (hM.app (.const (σ.S j))) (hD j hj M A hM) he hg)
  have hQ : ∀ j < σ.n, ∀ (M : Fl → P → Mat6) (A : P → Mat6) (f : Fl → P → Force) (x : P → Force),
      AccS M A → AccF f x → (∀ p, e ≤ |(σ.moved (X p) (Y p) (w p)).abaD false c j (A p)|) →
      Acc (fun F p => F.abaDdq (σ.moved (Tp F p) (Tw F p) (dq F p)) tau j
          (F.abaD (σ.moved (Tp F p) (Tw F p) (dq F p)) j (M F p)) (f F p))
        fun p => (σ.moved (X p) (Y p) (w p)).abaDdq tau o j
          ((σ.moved (X p) (Y p) (w p)).abaD false c j (A p)) (x p) := fun j hj M A f x hM hf hg => by
    simp only [Sys.abaDdq_nofric tau o ho]
    exact (Acc.sub (.const (tau j)) (Acc.dot6 (.const (σ.S j)) hf)).div (hD j hj M A hM) he hg
  have hB0 : ∀ j < σ.n, AccN (fun F p => (F.matrixI (F.Itot (σ.moved (Tp F p) (Tw F p) (dq F p)) j),
      (fwdLoop σ.n (F.abaStep (σ.moved (Tp F p) (Tw F p) (dq F p)) fext o) (fun _ => ⟨0, 0, 0⟩) j).f))
      fun p => ((σ.moved (X p) (Y p) (w p)).abaInit false c j,
        (fwdLoop σ.n ((σ.moved (X p) (Y p) (w p)).abaStep fext o false) (fun _ => ⟨0, 0, 0⟩) j).f) := by
    intro j hj
    refine ⟨?_, (h1 j hj).f⟩
    have e : ∀ p, (σ.moved (X p) (Y p) (w p)).abaInit false c j =
        ((σ.moved (X p) (Y p) (w p)).Itot j).matrix := fun p =>
      Sys.fwdLoop_spec' (fun _ _ _ _ _ _ => rfl) _ j hj
    simp only [e]
    exact (tot hL hj).matrix
  have hpre := fun p => (hw p).abaPre tau o false c (fun h => by cases h)
    (fun i => (fwdLoop σ.n ((σ.moved (X p) (Y p) (w p)).abaStep fext o false) (fun _ => ⟨0, 0, 0⟩) i).a)
    (fun i => (fwdLoop σ.n ((σ.moved (X p) (Y p) (w p)).abaStep fext o false) (fun _ => ⟨0, 0, 0⟩) i).f)
  simp only at hpre
  have hH : ∀ j < σ.n, ∀ (M : Fl → P → Mat6) (A : P → Mat6), AccS M A →
      AccF (fun F p => F.app6 (M F p) (σ.S j))
        fun p => (σ.moved (X p) (Y p) (w p)).abaH false c j (A p) := fun j _ M A hM =>
    hM.app (.const (σ.S j))
  have h2 := acc_rel AccN (op' := fun F x y => (F.add6 x.1 y.1, F.addF x.2 y.2)) (op := (· + ·))
    (f := fun F p i b => (F.actMat (Tp F p i) (F.abaRed (σ.moved (Tp F p) (Tw F p) (dq F p)) i b.1),
      F.actF (Tp F p i) (F.addF (F.addF b.2 (F.app6 (F.abaRed (σ.moved (Tp F p) (Tw F p) (dq F p)) i b.1)
        (fwdLoop σ.n (F.abaStep (σ.moved (Tp F p) (Tw F p) (dq F p)) fext o) (fun _ => ⟨0, 0, 0⟩) i).a))
        (F.smulF (F.abaDdq (σ.moved (Tp F p) (Tw F p) (dq F p)) tau i
          (F.abaD (σ.moved (Tp F p) (Tw F p) (dq F p)) i b.1) b.2) (F.app6 b.1 (σ.S i))))))
    (g := fun p i b => ((σ.moved (X p) (Y p) (w p)).abaContribI false c i b.1,
      (X p i).actF (b.2 + ((σ.moved (X p) (Y p) (w p)).abaRed false c i b.1).app
        (fwdLoop σ.n ((σ.moved (X p) (Y p) (w p)).abaStep fext o false) (fun _ => ⟨0, 0, 0⟩) i).a
        + ((σ.moved (X p) (Y p) (w p)).abaDdq tau o i ((σ.moved (X p) (Y p) (w p)).abaD false c i b.1) b.2) •
          (σ.moved (X p) (Y p) (w p)).abaH false c i b.1)))
    (fun _ _ _ _ r1 r2 => ⟨r1.I.add r2.I, r1.f.add r2.f⟩) hp
    (fun j x => ∀ p, e ≤ |(σ.moved (X p) (Y p) (w p)).abaD false c j (x p).1|)
    (fun j hj a x hr hg => ⟨AccS.act (h.Tp j hj) (hR j hj _ _ hr.I hg),
      (h.Tp j hj).actF ((hr.f.add ((hR j hj _ _ hr.I hg).app (h1 j hj).a)).add
        (AccF.smul (hQ j hj _ _ _ _ hr.I hr.f hg) (hH j hj _ _ hr.I)))⟩)
    σ.n le_rfl hB0 (fun j hj p => by
      have e1 := ((hpre p).1 j hj).2.2
      exact (hd p j hj).trans_eq (congrArg abs e1.symm))
  have hgood : ∀ j < σ.n, ∀ p, e ≤ |(σ.moved (X p) (Y p) (w p)).abaD false c j _| := fun j hj p =>
    (hd p j hj).trans_eq (congrArg abs ((hpre p).1 j hj).2.2.symm)
  have h3 : ∀ j < σ.n, AccO (fun F p => F.abaBackward (σ.moved (Tp F p) (Tw F p) (dq F p)) tau
      (fun i => (fwdLoop σ.n (F.abaStep (σ.moved (Tp F p) (Tw F p) (dq F p)) fext o) (fun _ => ⟨0, 0, 0⟩) i).a)
      (fun i => (F.matrixI (F.Itot (σ.moved (Tp F p) (Tw F p) (dq F p)) i),
      (fwdLoop σ.n (F.abaStep (σ.moved (Tp F p) (Tw F p) (dq F p)) fext o) (fun _ => ⟨0, 0, 0⟩) i).f)) j)
      fun p => ((σ.moved (X p) (Y p) (w p)).abaBackward tau o false c
      (fun i => (fwdLoop σ.n ((σ.moved (X p) (Y p) (w p)).abaStep fext o false) (fun _ => ⟨0, 0, 0⟩) i).a)
      (fun i => ((σ.moved (X p) (Y p) (w p)).abaInit false c i,
        (fwdLoop σ.n ((σ.moved (X p) (Y p) (w p)).abaStep fext o false) (fun _ => ⟨0, 0, 0⟩) i).f))
      (fun i => ⟨c.h i, c.d i, 0⟩)).2 j := by
    intro j hj
    unfold Fl.abaBackward Sys.abaBackward
    have hpF : ∀ (F : Fl) p, ParLt (σ.moved (Tp F p) (Tw F p) (dq F p)).n
      (σ.moved (Tp F p) (Tw F p) (dq F p)).par := fun _ _ => hp
    have hpE : ∀ p, ParLt (σ.moved (X p) (Y p) (w p)).n (σ.moved (X p) (Y p) (w p)).par := fun _ => hp
    have nF : ∀ (F : Fl) p, j < (σ.moved (Tp F p) (Tw F p) (dq F p)).n := fun _ _ => hj
    have nE : ∀ p, j < (σ.moved (X p) (Y p) (w p)).n := fun _ => hj
    simp only [bwdLoop_eq _ (hpF _ _), bwdLoop_eq _ (hpE _), if_pos (nF _ _), if_pos (nE _)]
    exact ⟨hH j hj _ _ (h2 j hj).I, hD j hj _ _ (h2 j hj).I,
      hQ j hj _ _ _ _ (h2 j hj).I (h2 j hj).f (hgood j hj)⟩
  have hdd : ∀ j < σ.n, ∀ p, e ≤ |((σ.moved (X p) (Y p) (w p)).abaBackward tau o false c
      (fun i => (fwdLoop σ.n ((σ.moved (X p) (Y p) (w p)).abaStep fext o false) (fun _ => ⟨0, 0, 0⟩) i).a)
      (fun i => ((σ.moved (X p) (Y p) (w p)).abaInit false c i,
        (fwdLoop σ.n ((σ.moved (X p) (Y p) (w p)).abaStep fext o false) (fun _ => ⟨0, 0, 0⟩) i).f))
      (fun i => ⟨c.h i, c.d i, 0⟩)).2 j |>.d| := by
    intro j hj p
    unfold Sys.abaBackward
    rw [bwdLoop_eq _ (show ParLt (σ.moved (X p) (Y p) (w p)).n (σ.moved (X p) (Y p) (w p)).par from hp)]
    simp only
    rw [if_pos (show j < (σ.moved (X p) (Y p) (w p)).n from hj)]
    exact hgood j hj p
  exact (h.abaLast hp o.gravity he h3 hdd (a0 := fun F p j => (_, _)) (c0 := fun p j => (_, _))
    (fun j hj => ⟨(h1 j hj).a, (h3 j hj).ddq⟩) i hi).d

end AccSys
end SpatialDyn
