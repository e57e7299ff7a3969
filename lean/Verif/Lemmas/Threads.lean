import Verif.Spec.Threads

/-! Memory of bodies, runs of programs, and interleavings of threads with separate footprints. -/

namespace SpatialDyn
namespace Body

theorem getCell_putCell (b : Body) (l : Cell) (x : l.Val) : (b.putCell l x).getCell l = x := by
  cases l
  case flag F => cases F <;> rfl
  all_goals rfl

theorem getFlag_putFlag_ne (b : Body) {F G : Flag} (x : Bool) (h : F ≠ G) :
    (b.putFlag x F).getFlag G = b.getFlag G := by
  cases F <;> cases G <;> first | rfl | exact absurd rfl h

theorem getCell_putFlag_ne (b : Body) {F : Flag} {l : Cell} (x : Bool) (h : l ≠ .flag F) :
    (b.putFlag x F).getCell l = b.getCell l := by
  cases l
  case flag G => exact getFlag_putFlag_ne b x fun e => h (e ▸ rfl)
  all_goals cases F <;> rfl

theorem getCell_putCell_ne (b : Body) {l m : Cell} (x : l.Val) (h : m ≠ l) :
    (b.putCell l x).getCell m = b.getCell m := by
  cases l
  case flag F => exact getCell_putFlag_ne b x h
  all_goals
    cases m
    case flag F => cases F <;> rfl
    all_goals first | rfl | exact absurd rfl h

/-- The body with given cells. -/
def ofCells (m : (l : Cell) → l.Val) : Body :=
  { rbs := (m .tree).rbs, q := m .q, dq := m .dq, g := m .g, load := m .load, T0 := m .base
    inertiaBase := m .inertiaBase, anc := (m .tree).anc, sub := (m .tree).sub
    c := { tpDone := m (.flag .tp), Tp := m .tp, twDone := m (.flag .tw), Tw := m .tw
           velDone := m (.flag .vel), v := m .v, jacDone := m (.flag .jac), jacLink := m .jacLink
           jacOffset := m .jacOffset, J := m .J, ccDone := m (.flag .cc), cC := m .cC, fC := m .fC
           C := m .C, gravDone := m (.flag .grav), fG := m .fG, G := m .G, a := m .a, f := m .f
           crbaDone := m (.flag .crba), Ic := m .Ic, A := m .A, invDone := m (.flag .inv)
           Afact := m .Afact, abaDone := m (.flag .aba), aba := m .aba
           abaInvDone := m (.flag .abaInv), abaInv := m .abaInv
           ops := ⟨m .opsJ, m .opsEps, m (.flag .lambda), m .lambda, m (.flag .lambdaInv),
             m .lambdaInv, m .ainvJT, m .singular, m (.flag .jbar), m .jbar⟩
           opsAba := ⟨(m .opsAba).idx, (m .opsAba).offset, (m .opsAba).eps, m (.flag .abaLambda),
             (m .opsAba).Lambda, m (.flag .abaLambdaInv), (m .opsAba).LambdaInv⟩
           drnea := ⟨(m .drnea).qPrev, (m .drnea).dt, m (.flag .qPrev), (m .drnea).TToPrev,
             (m .drnea).pPrev, m (.flag .prev), (m .drnea).TFromNext, (m .drnea).p,
             (m .drnea).dp⟩ } }

/-- Two bodies with the same cells are the same. -/
theorem ext_cells {b d : Body} (h : ∀ l, b.getCell l = d.getCell l) : b = d :=
  congrArg ofCells (funext h : b.getCell = d.getCell)

theorem memory_sound : memory.Sound :=
  ⟨getCell_putCell, fun s _ x _ h => getCell_putCell_ne s x h, fun _ _ h => ext_cells h⟩

end Body

theorem fleet_sound : fleet.Sound where
  get_put s p x := by
    show ((Function.update s p.1 _) p.1).getCell p.2 = x
    rw [Function.update_self, Body.getCell_putCell]
  get_put_ne s p x m h := by
    show ((Function.update s p.1 _) m.1).getCell m.2 = (s m.1).getCell m.2
    by_cases e : m.1 = p.1
    · rw [e, Function.update_self]
      refine Body.getCell_putCell_ne _ _ fun e2 => h (Prod.ext e e2)
    · rw [Function.update_of_ne e]
  ext s t h := by
    funext k
    exact Body.ext_cells fun l => h (k, l)

namespace Prog
variable {S L : Type} {V : L → Type} {α β ι : Type} {M : Memory S L V}

theorem run_bind (p : Prog L V α) (f : α → Prog L V β) (s : S) :
    (p.bind f).run M s = (f (p.run M s).1).run M (p.run M s).2 := by
  induction p generalizing s with
  | ret a => rfl
  | read l k ih => exact ih _ s
  | write l x k ih => exact ih _

theorem run_andThen (p : Prog L V (Out α)) (f : α → Prog L V (Out β)) (s : S) :
    (p.andThen f).run M s = match (p.run M s).1 with
      | .ok a => (f a).run M (p.run M s).2
      | .throws => (.throws, (p.run M s).2)
      | .ub => (.ub, (p.run M s).2) := by
  unfold andThen
  rw [run_bind]
  cases (p.run M s).1 <;> rfl

theorem within_bind {R W : Set L} (p : Prog L V α) (f : α → Prog L V β) (s : S) :
    (p.bind f).Within M R W s ↔
      p.Within M R W s ∧ (f (p.run M s).1).Within M R W (p.run M s).2 := by
  induction p generalizing s with
  | ret a => exact ⟨fun h => ⟨trivial, h⟩, fun h => h.2⟩
  | read l k ih => show _ ∧ _ ↔ (_ ∧ _) ∧ _; rw [ih, and_assoc]; rfl
  | write l x k ih => show _ ∧ _ ↔ (_ ∧ _) ∧ _; rw [ih, and_assoc]; rfl

/-- What is known of each thread in the middle of an interleaving. -/
structure Alone (M : Memory S L V) (R W : Set L) (p : Prog L V α) (s : S) (p' : Prog L V α) (m t : S) :
    Prop where
  within : p'.Within M R W t
  run : p'.run M t = p.run M s
  seen : ∀ l, l ∈ R ∨ l ∈ W → M.get m l = M.get t l
  other : ∀ l, l ∉ W → M.get t l = M.get s l

theorem interleave [DecidableEq ι] (hM : M.Sound) {R W : ι → Set L} {s : S} {ps : ι → Prog L V α}
    (hd : ∀ i j, i ≠ j → ∀ l ∈ W i, ¬(l ∈ R j ∨ l ∈ W j))
    (h : ∀ i, (ps i).Within M (R i) (W i) s) {c : Config S L V α ι}
    (hc : Interleaves M (s, ps) c) :
    (∀ i, ∃ t, Alone M (R i) (W i) (ps i) s (c.2 i) c.1 t) ∧
      ∀ l, (∀ i, l ∉ W i) → M.get c.1 l = M.get s l := by
  induction hc with
  | start => exact ⟨fun i => ⟨s, h i, rfl, fun _ _ => rfl, fun _ _ => rfl⟩, fun _ _ => rfl⟩
  | move i _ hm ih =>
    cases hm with
    | @read m qs l k hq =>
      obtain ⟨ih, ih2⟩ := ih
      refine ⟨fun j => ?_, ih2⟩
      by_cases e : j = i
      · subst e
        obtain ⟨t, ht⟩ := ih j
        simp only [hq, Function.update_self] at ht ⊢
        have hw : (l ∈ R j ∨ l ∈ W j) ∧ (k (M.get t l)).Within M (R j) (W j) t := ht.within
        have hs := ht.seen l hw.1
        refine ⟨t, ?_, ?_, ht.seen, ht.other⟩
        · rw [hs]; exact hw.2
        · rw [hs]; exact ht.run
      · simp only [Function.update_of_ne e]
        exact ih j
    | @write m qs l x k hq =>
      obtain ⟨ih, ih2⟩ := ih
      have hl : l ∈ W i := by
        obtain ⟨t, ht⟩ := ih i
        simp only [hq] at ht
        exact (show l ∈ W i ∧ _ from ht.within).1
      refine ⟨fun j => ?_, fun l' hl' => ?_⟩
      · by_cases e : j = i
        · subst e
          obtain ⟨t, ht⟩ := ih j
          simp only [hq, Function.update_self] at ht ⊢
          have hw : l ∈ W j ∧ k.Within M (R j) (W j) (M.put t l x) := ht.within
          refine ⟨M.put t l x, hw.2, ht.run, fun l' hl' => ?_, fun l' hl' => ?_⟩
          · by_cases e : l' = l
            · subst e; rw [hM.get_put, hM.get_put]
            · rw [hM.get_put_ne _ _ _ _ e, hM.get_put_ne _ _ _ _ e]; exact ht.seen l' hl'
          · have e : l' ≠ l := fun e => hl' (e ▸ hw.1)
            rw [hM.get_put_ne _ _ _ _ e]; exact ht.other l' hl'
        · simp only [Function.update_of_ne e]
          obtain ⟨t, ht⟩ := ih j
          refine ⟨t, ht.within, ht.run, fun l' hl' => ?_, ht.other⟩
          have e2 : l' ≠ l := fun e2 => hd i j (Ne.symm e) l hl (e2 ▸ hl')
          rw [hM.get_put_ne _ _ _ _ e2]; exact ht.seen l' hl'
      · have e : l' ≠ l := fun e => hl' i (e ▸ hl)
        rw [hM.get_put_ne _ _ _ _ e]; exact ih2 l' hl'

theorem no_race [DecidableEq ι] (hM : M.Sound) {R W : ι → Set L} {s : S} {ps : ι → Prog L V α}
    (hd : ∀ i j, i ≠ j → ∀ l ∈ W i, ¬(l ∈ R j ∨ l ∈ W j))
    (h : ∀ i, (ps i).Within M (R i) (W i) s) : ¬ Races M s ps := by
  rintro ⟨d, hr, i, j, hij, l, hi, hj⟩
  obtain ⟨a, -⟩ := interleave hM hd h hr
  obtain ⟨t, ht⟩ := a i
  obtain ⟨u, hu⟩ := a j
  have h1 : l ∈ W i := by
    have := ht.within
    revert hi this
    cases d.2 i with
    | ret a => intro h; exact h.elim
    | read m k => intro h; exact h.elim
    | write m x k => intro h w; exact (h : m = l) ▸ w.1
  have h2 : l ∈ R j ∨ l ∈ W j := by
    have := hu.within
    revert hj this
    cases d.2 j with
    | ret a => intro h; exact h.elim
    | read m k => intro h w; exact (h : m = l) ▸ w.1
    | write m x k => intro h w; exact Or.inr ((h : m = l) ▸ w.1)
  exact hd i j hij l h1 h2

theorem answer [DecidableEq ι] (hM : M.Sound) {R W : ι → Set L} {s : S} {ps : ι → Prog L V α}
    (hd : ∀ i j, i ≠ j → ∀ l ∈ W i, ¬(l ∈ R j ∨ l ∈ W j))
    (h : ∀ i, (ps i).Within M (R i) (W i) s) {c : Config S L V α ι}
    (hc : Interleaves M (s, ps) c) {i : ι} {a : α} (ha : c.2 i = .ret a) :
    a = ((ps i).run M s).1 ∧ ∀ l ∈ W i, M.get c.1 l = M.get ((ps i).run M s).2 l := by
  obtain ⟨x, -⟩ := interleave hM hd h hc
  obtain ⟨t, ht⟩ := x i
  have hr := ht.run
  rw [ha] at hr
  rw [← hr]
  exact ⟨rfl, fun l hl => ht.seen l (Or.inr hl)⟩

/-! ## Making a race -/

/-- Thread `i` alone can go on to a point where its next access is `P`. -/
inductive Gets (M : Memory S L V) : Prog L V α → S → Prog L V α → S → Prop
  | here (p : Prog L V α) (s : S) : Gets M p s p s
  | read {l : L} {k : V l → Prog L V α} {s : S} {p' : Prog L V α} {s' : S}
    (h : Gets M (k (M.get s l)) s p' s') : Gets M (.read l k) s p' s'
  | write {l : L} {x : V l} {k : Prog L V α} {s : S} {p' : Prog L V α} {s' : S}
    (h : Gets M k (M.put s l x) p' s') : Gets M (.write l x k) s p' s'

theorem Gets.bind {p p' : Prog L V α} {s s' : S} (h : Gets M p s p' s') (f : α → Prog L V β) :
    Gets M (p.bind f) s (p'.bind f) s' := by
  induction h with
  | here p s => exact .here _ _
  | read h ih => exact .read ih
  | write h ih => exact .write ih

theorem Gets.trans {p p' p'' : Prog L V α} {s s' s'' : S} (h : Gets M p s p' s')
    (h' : Gets M p' s' p'' s'') : Gets M p s p'' s'' := by
  induction h with
  | here p s => exact h'
  | read h ih => exact .read (ih h')
  | write h ih => exact .write (ih h')

theorem Gets.all (p : Prog L V α) (s : S) : Gets M p s (.ret (p.run M s).1) (p.run M s).2 := by
  induction p generalizing s with
  | ret a => exact .here _ _
  | read l k ih => exact .read (ih _ _)
  | write l x k ih => exact .write (ih _)

/-- Run the first part, then go on into the second. -/
theorem Gets.after {p : Prog L V α} {f : α → Prog L V β} {s : S} {p' : Prog L V β} {s' : S}
    (h : Gets M (f (p.run M s).1) (p.run M s).2 p' s') : Gets M (p.bind f) s p' s' :=
  ((Gets.all p s).bind f).trans h

theorem Gets.moves [DecidableEq ι] {p p' : Prog L V α} {s s' : S} (h : Gets M p s p' s') {i : ι}
    {ps : ι → Prog L V α} {c : Config S L V α ι} (hi : ps i = p)
    (hc : Interleaves M c (s, ps)) : Interleaves M c (s', Function.update ps i p') := by
  induction h generalizing ps with
  | here p s => rw [← hi, Function.update_eq_self]; exact hc
  | @read l k s p' s' h ih =>
    have := ih (ps := Function.update ps i (k (M.get s l))) (Function.update_self ..)
      (.move i hc (.read hi))
    rwa [Function.update_idem] at this
  | @write l x k s p' s' h ih =>
    have := ih (ps := Function.update ps i k) (Function.update_self ..) (.move i hc (.write hi))
    rwa [Function.update_idem] at this

/-- Two threads race if the first can come to a write and the second, from the memory it finds then,
to an access of the same location. -/
theorem races [DecidableEq ι] {s t u : S} {ps : ι → Prog L V α} {i j : ι} (hij : i ≠ j) {l : L}
    {p q : Prog L V α} (h1 : Gets M (ps i) s p t) (hp : p.Writes l) (h2 : Gets M (ps j) t q u)
    (hq : q.Accesses l) : Races M s ps := by
  refine ⟨_, h2.moves (i := j) (Function.update_of_ne (Ne.symm hij) _ _)
    (h1.moves (i := i) rfl .start), i, j, hij, l, ?_, ?_⟩
  · show Writes l (Function.update (Function.update ps i p) j q i)
    rw [Function.update_of_ne hij, Function.update_self]; exact hp
  · show Accesses l (Function.update (Function.update ps i p) j q j)
    rw [Function.update_self]; exact hq

end Prog
end SpatialDyn
