import Verif.Lemmas.RoundAlg
import Verif.Lemmas.Growth
import Verif.Lemmas.Flow

/-!
# Robots whose transforms are computed with a small error
-/

namespace SpatialDyn
open Finset Body

variable {P : Type*} {E : Ext} {b : Body} {d : Bool}

theorem AccT.Tjoint (t : JType) {q : Fl → P → ℝ} {x : P → ℝ} (h : Acc q x) :
    AccT (fun F p => F.Tjoint t (q F p)) fun p => t.Tjoint (x p) := by
  have one : Acc (fun F p => F.add (F.sub 1 (F.cos (q F p))) (F.cos (q F p))) fun _ => (1 : ℝ) :=
    (((Acc.const 1).sub h.cos).add h.cos).congr fun p => by ring
  have z : Acc (fun (_ : Fl) (_ : P) => (0 : ℝ)) fun _ => 0 := .const 0
  cases t with
  | rx => exact ⟨⟨⟨one, z, z⟩, ⟨z, h.cos, h.sin.neg⟩, ⟨z, h.sin, h.cos⟩⟩, .const 0⟩
  | ry => exact ⟨⟨⟨h.cos, z, h.sin⟩, ⟨z, one, z⟩, ⟨h.sin.neg, z, h.cos⟩⟩, .const 0⟩
  | rz => exact ⟨⟨⟨h.cos, h.sin.neg, z⟩, ⟨h.sin, h.cos, z⟩, ⟨z, z, one⟩⟩, .const 0⟩
  | px => exact ⟨.const 1, ⟨h.congr fun p => by simp [JType.Tjoint], z.congr fun p => by simp [JType.Tjoint],
      z.congr fun p => by simp [JType.Tjoint]⟩⟩
  | py => exact ⟨.const 1, ⟨z.congr fun p => by simp [JType.Tjoint], h.congr fun p => by simp [JType.Tjoint],
      z.congr fun p => by simp [JType.Tjoint]⟩⟩
  | pz => exact ⟨.const 1, ⟨z.congr fun p => by simp [JType.Tjoint], z.congr fun p => by simp [JType.Tjoint],
      h.congr fun p => by simp [JType.Tjoint]⟩⟩
  | undefined => exact .const 1

namespace Body

/-- The robot without its state. -/
noncomputable def still (b : Body) : Sys := b.sysWith (fun _ => 1) fun _ => 1

/-- Rounded transforms to parents. -/
noncomputable def flTp (b : Body) (F : Fl) (q : ℕ → ℝ) (i : ℕ) : Iso :=
  if i < b.dof then b.roundTpAt F.toArith i (q i) else 1

/-- Rounded transforms to the world. -/
noncomputable def flTw (b : Body) (F : Fl) (q : ℕ → ℝ) (i : ℕ) : Iso :=
  if i < b.dof then fwdLoop b.dof (fun Tw j _ => match b.par j with
      | none => F.mulIso b.T0 (b.roundTpAt F.toArith j (q j))
      | some p => F.mulIso (Tw p) (b.roundTpAt F.toArith j (q j))) (fun _ => 1) i else 1

theorem fl_sysAt (F : Fl) (q dq : ℕ → ℝ) : F.sysAt b q dq = b.still.moved (b.flTp F q) (b.flTw F q) dq := rfl

/-- Exact transforms to parents. -/
noncomputable def exTp (b : Body) (q : ℕ → ℝ) (i : ℕ) : Iso := if i < b.dof then b.TpAt i (q i) else 1

/-- Exact transforms to the world. -/
noncomputable def exTw (b : Body) (q : ℕ → ℝ) (i : ℕ) : Iso := if i < b.dof then b.twAt q i else 1

theorem ex_sysAt (q dq : ℕ → ℝ) : b.sysAt q dq = b.still.moved (b.exTp q) (b.exTw q) dq := rfl

variable {q dq : Fl → P → ℕ → ℝ} {x w : P → ℕ → ℝ}

theorem acc_sys (ht : b.Tree) (hq : ∀ i < b.dof, Acc (fun F p => q F p i) fun p => x p i)
    (hd : ∀ i < b.dof, Acc (fun F p => dq F p i) fun p => w p i) :
    AccSys b.still (fun F p => b.flTp F (q F p)) (fun F p => b.flTw F (q F p)) dq
      (fun p => b.exTp (x p)) (fun p => b.exTw (x p)) w := by
  have tp : ∀ i < b.dof, AccT (fun F p => b.roundTpAt F.toArith i (q F p i)) fun p => b.TpAt i (x p i) :=
    fun i hi => (AccT.const (b.rb i).T).mul (.Tjoint _ (hq i hi))
  refine ⟨fun i hi => ?_, fun i hi => ?_, hd⟩
  · have hi : i < b.dof := hi
    simp only [flTp, exTp, hi, if_true]
    exact tp i hi
  · have hi : i < b.dof := hi
    simp only [flTw, exTw, hi, if_true]
    unfold twAt worldLoop
    refine fwd_rel AccT (f := fun F p Tw j _ => match b.par j with
      | none => F.mulIso b.T0 (b.roundTpAt F.toArith j (q F p j))
      | some p' => F.mulIso (Tw p') (b.roundTpAt F.toArith j (q F p j)))
      (g := fun p Tw j _ => match b.par j with
      | none => b.T0 * b.TpAt j (x p j)
      | some p' => Tw p' * b.TpAt j (x p j)) (fun a c ha j hj => ?_) b.dof le_rfl
      (a0 := fun _ _ _ => 1) (c0 := fun _ _ => 1) (fun _ _ => .const 1) i hi
    cases hp : b.par j with
    | none => exact (AccT.const b.T0).mul (tp j hj)
    | some p' => exact (ha p' ((ht.parLt j hj p' hp).trans hj)).mul (tp j hj)

/-- Loads of massive robots. -/
theorem Massive.loadOK (hm : b.Massive) : b.still.LoadOK := by
  intro i hi L hL
  have hL : b.load i = some L := hL
  have := hm.merge i hi (by rw [hL]; rfl)
  unfold linkMass parts at this
  rw [hL] at this
  show 0 < (b.rb i).inertia.mass + L.mass
  simpa using this

theorem Definite.heavy (hd : b.Definite) {i : ℕ} (hi : i < b.dof) : 0 < (b.still.Itot i).mass :=
  (hd.physPD i hi).1

/-- The divisors of the articulated body algorithm are never smaller than those of single links. -/
theorem artD_ge (h : Inv E b) (hd : b.Definite) : ∃ e : ℝ, 0 < e ∧ ∀ (u w : ℕ → ℝ), ∀ i < b.dof,
    e ≤ (b.sysAt u w).artD i := by
  have hp : ∀ i < b.dof, 0 < (b.still.S i).dot ((b.still.Itot i).app (b.still.S i)) := fun i hi =>
    Sys.inertia_pos_of _ (hd.physPD i hi).1 (hd.physPD i hi).2.2 _ (hd.axes i hi)
  have key : ∀ (u w : ℕ → ℝ), ∀ i < b.dof,
      (b.still.S i).dot ((b.still.Itot i).app (b.still.S i)) ≤ (b.sysAt u w).artD i := by
    intro u w i hi
    have hw := sysAt_wf h.tree h.rigid u w
    have hs : (b.sysAt u w).SymI := (hd.massive h.tree).symI
    have hpd : (b.sysAt u w).MassPD := hw.massPD hd.physPD hd.axes
    rw [← hw.energy_free hs i hi fun j hj _ => (hw.artD_pos hs hpd j hj).ne']
    set r := (b.sysAt u w).freeRate i with hr
    have e1 : b.locVel u r i = b.still.S i := by
      have e2 := hw.freeMotion_world i i hi hi
      rw [hw.freeMotion_eq i i hi, if_pos rfl] at e2
      show (b.twAt u i).inv.actM ((b.sysAt u w).V r i) = _
      rw [hr, ← e2, sysAt_Tw hi]
      exact (twAt_valid h.tree h.rigid u i hi).inv_actM _
    have e3 := kin_term h u r hi
    rw [e1] at e3
    refine (le_of_eq (e3.symm : (b.still.S i).dot ((b.still.Itot i).app (b.still.S i)) = _)).trans ?_
    exact single_le_sum (f := fun k => ((b.sysAt u r).V r k).dot
      ((b.sysAt u r).Iw k ((b.sysAt u r).V r k)))
      (fun k hk => kin_term_nonneg h hd _ _ (mem_range.1 hk)) (mem_range.2 hi)
  have : ∀ n ≤ b.dof, ∃ e : ℝ, 0 < e ∧ ∀ i < n,
      e ≤ (b.still.S i).dot ((b.still.Itot i).app (b.still.S i)) := by
    intro n
    induction n with
    | zero => intro _; exact ⟨1, one_pos, fun i hi => absurd hi (by omega)⟩
    | succ n ih =>
      intro hn
      obtain ⟨e, he, hl⟩ := ih (by omega)
      refine ⟨min e _, lt_min he (hp n (by omega)), fun i hi => ?_⟩
      rcases Nat.lt_succ_iff_lt_or_eq.1 hi with h1 | h1
      · exact (min_le_left _ _).trans (hl i h1)
      · rw [h1]; exact min_le_right _ _
  obtain ⟨e, he, hl⟩ := this b.dof le_rfl
  exact ⟨e, he, fun u w i hi => (hl i hi).trans (key u w i hi)⟩

end Body
end SpatialDyn
