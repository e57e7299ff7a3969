import Verif.Lemmas.Refs
import Verif.Props.Cache
import Verif.Lemmas.OpsSteps
import Verif.Props.OpsAbaWitness

/-!
# C104: results returned by reference
-/

namespace SpatialDyn

open Body

variable {E : Ext} {b b' b1 b2 b3 : Body} {d : Bool}

/-- The result of the call is stored and marked as valid. -/
def Query.Stored (b : Body) : Query → Prop
  | .tToParent _ => b.c.tpDone = true
  | .tToWorld _ => b.c.twDone = true
  | .jacobian i o | .linearJacobian i o => ∃ k J, b.index i = .ok k ∧ HeldJac k o J b.c
  | .angularJacobian i => ∃ k o J, b.index i = .ok k ∧ HeldJac k o J b.c
  | .centrifugalCoriolis => b.c.ccDone = true
  | .gravity => b.c.gravDone = true
  | .inertia => b.c.crbaDone = true
  | .compositeInertia _ => b.c.crbaDone = true
  | .inertiaInverse => b.c.invDone = true
  | .inertiaInverseAba => b.c.abaInvDone = true
  | .opsInertia J e => ∃ L M X, HeldOps J [e] True False L M X b.c.ops
  | .opsInertiaInverse J => ∃ L M X, HeldOps J [] False False L M X b.c.ops
  | .opsJbar J e => ∃ L M X, HeldOps J [e] False True L M X b.c.ops
  | .opsInertiaAba i o e => ∃ k L M, b.index i = .ok k ∧ HeldAba k o [e] L M b.c.opsAba
  | .opsInertiaInverseAba i o => ∃ k L M, b.index i = .ok k ∧ HeldAba k o [] L M b.c.opsAba
  | _ => True

theorem jacobian_held {i : ℤ} {o : Vec3} {r : (ℕ → Motion) × Body} (h : b.jacobian i o = .ok r) :
    ∃ k, r.2.index i = .ok k ∧ HeldJac k o r.1 r.2.c := by
  have hk := jacobian_kept (ko := True) (ka := True) h
  unfold Body.jacobian at h
  obtain ⟨k, hi, h⟩ := Out.bind_ok h
  refine ⟨k, (hk.index i).trans hi, ?_⟩
  split at h
  · next hc => cases h; exact ⟨hc.1, hc.2.1, hc.2.2, rfl⟩
  · cases h; exact ⟨rfl, rfl, rfl, rfl⟩

theorem opsJbar_eps (h : Inv E b) {J : DMat} {e : ℝ} {r : DMat × Body} (hr : b.opsJbar E J e = .ok r) :
    r.2.c.ops.eps = e := by
  have key : ∀ {r}, b.opsJbarCompute E J e = .ok r → r.2.c.ops.eps = e := by
    intro r hr
    unfold opsJbarCompute at hr
    obtain ⟨s, hs, hr⟩ := Out.bind_ok hr
    cases hr
    exact (opsInertia_run h hs).2.2.2.1
  unfold Body.opsJbar at hr
  split at hr
  · exact key hr
  · obtain ⟨s, -, hr⟩ := Out.bind_ok hr
    split at hr
    · next hc => cases hr; exact hc.2
    · exact key hr

theorem opsInertiaInverseAba_held {l : ℤ} {o : Vec3} {r : Matrix (Fin 6) (Fin 6) ℝ × Body}
    (hr : b.opsInertiaInverseAba l o = .ok r) :
    ∃ k M, b.index l = .ok k ∧ HeldAba k o [] r.1 M r.2.c.opsAba := by
  unfold Body.opsInertiaInverseAba at hr
  obtain ⟨k, hi, h⟩ := Out.bind_ok hr
  refine ⟨k, 0, hi, ?_⟩
  split at h
  · next hc => cases h; exact ⟨hc.1, hc.2.1, hc.2.2, rfl, fun x => absurd rfl x⟩
  · cases h; exact ⟨rfl, rfl, rfl, rfl, fun x => absurd rfl x⟩

theorem opsInertiaAba_held (h : Inv E b) {l : ℤ} {o : Vec3} {e : ℝ}
    {r : Matrix (Fin 6) (Fin 6) ℝ × Body} (hr : b.opsInertiaAba E l o e = .ok r) :
    ∃ k L, b.index l = .ok k ∧ HeldAba k o [e] L r.1 r.2.c.opsAba := by
  unfold Body.opsInertiaAba at hr
  obtain ⟨k, hi, hr⟩ := Out.bind_ok hr
  refine ⟨k, r.2.c.opsAba.LambdaInv, hi, ?_⟩
  split at hr
  · next hc =>
    cases hr
    exact ⟨(h.coh.opsAbaLam hc.1).1, hc.2.1, hc.2.2.1, rfl, fun _ => ⟨hc.1, by simpa using hc.2.2.2, rfl⟩⟩
  · obtain ⟨s, hs, hr⟩ := Out.bind_ok hr
    cases hr
    obtain ⟨k', M, hk', hh⟩ := opsInertiaInverseAba_held hs
    rw [index_self hi] at hk'
    cases hk'
    exact ⟨hh.done, hh.idx, hh.offset, rfl, fun _ => ⟨rfl, by simp, rfl⟩⟩

/-- What a reference reads just after the call, and that the result is marked valid. -/
theorem Query.run_stored (h : Inv E b) {x : Query} {a : Ans} {r : Ref} (hx : x.run E b = .ok (a, b1))
    (hr : x.ref b = some r) : r.read b1 = a ∧ x.Stored b1 := by
  have hk := Query.run_kept hx
  cases x <;> simp only [Query.ref, Option.some.injEq, reduceCtorEq] at hr <;> subst hr <;>
    simp only [Query.run] at hx
  case rigidBody i =>
    obtain ⟨u, hu, e0⟩ := Out.map_ok hx; cases e0
    obtain ⟨k, hi, hu⟩ := Out.bind_ok hu; cases hu
    exact ⟨by rw [index_toNat hi]; rfl, trivial⟩
  case ancestors i =>
    obtain ⟨u, hu, e0⟩ := Out.map_ok hx; cases e0
    obtain ⟨k, hi, hu⟩ := Out.bind_ok hu; cases hu
    exact ⟨by rw [index_toNat hi]; rfl, trivial⟩
  case subtree i =>
    obtain ⟨u, hu, e0⟩ := Out.map_ok hx; cases e0
    obtain ⟨k, hi, hu⟩ := Out.bind_ok hu; cases hu
    exact ⟨by rw [index_toNat hi]; rfl, trivial⟩
  case tToParent i =>
    obtain ⟨u, hu, e0⟩ := Out.map_ok hx; cases e0
    obtain ⟨k, hi, hu⟩ := Out.bind_ok hu; cases hu
    exact ⟨by rw [index_toNat hi]; rfl, rfl⟩
  case tToWorld i =>
    obtain ⟨u, hu, e0⟩ := Out.map_ok hx; cases e0
    obtain ⟨k, hi, hu⟩ := Out.bind_ok hu; cases hu
    rw [index_toNat hi]
    simp only [Ref.read, Query.Stored, touchTw, viewTw]
    split
    · next hw => exact ⟨rfl, hw⟩
    · exact ⟨rfl, rfl⟩
  case jacobian i o =>
    obtain ⟨u, hu, e0⟩ := Out.map_ok hx; cases e0
    obtain ⟨k, hi, hh⟩ := jacobian_held hu
    refine ⟨?_, k, _, hi, hh⟩
    simp only [Ref.read]
    rw [hk.dof, hh.2.2.2]
  case linearJacobian i o =>
    obtain ⟨u, hu, e0⟩ := Out.map_ok hx; cases e0
    obtain ⟨v, hv, e0⟩ := Out.bind_ok hu; cases e0
    obtain ⟨k, hi, hh⟩ := jacobian_held hv
    refine ⟨?_, k, _, hi, hh⟩
    simp only [Ref.read]
    rw [hk.dof, hh.2.2.2]
  case angularJacobian i =>
    obtain ⟨u, hu, e0⟩ := Out.map_ok hx; cases e0
    obtain ⟨v, hv, e0⟩ := Out.bind_ok hu; cases e0
    obtain ⟨k, hi, hh⟩ := jacobian_held hv
    refine ⟨?_, k, _, _, hi, hh⟩
    simp only [Ref.read]
    rw [hk.dof, hh.2.2.2]
  case centrifugalCoriolis =>
    cases hx
    simp only [Ref.read, Query.Stored]
    rw [hk.dof]
    unfold Body.centrifugalCoriolis
    split
    · next hc => exact ⟨rfl, hc⟩
    · exact ⟨rfl, rfl⟩
  case gravity =>
    cases hx
    simp only [Ref.read, Query.Stored]
    rw [hk.dof]
    unfold Body.gravity
    split
    · next hc => exact ⟨rfl, hc⟩
    · exact ⟨rfl, rfl⟩
  case inertia =>
    cases hx
    simp only [Ref.read, Query.Stored]
    rw [hk.dof]
    unfold Body.inertia
    split
    · next hc => exact ⟨rfl, hc⟩
    · exact ⟨rfl, rfl⟩
  case compositeInertia i =>
    obtain ⟨u, hu, e0⟩ := Out.map_ok hx; cases e0
    obtain ⟨k, hi, hu⟩ := Out.bind_ok hu; cases hu
    refine ⟨by rw [index_toNat hi]; rfl, ?_⟩
    simp only [Query.Stored]
    unfold Body.inertia
    split
    · next hc => exact hc
    · rfl
  case inertiaInverse =>
    cases hx
    simp only [Ref.read, Query.Stored]
    rw [hk.dof]
    unfold Body.inertiaInverse
    split
    · next hc => exact ⟨rfl, hc⟩
    · exact ⟨rfl, rfl⟩
  case inertiaInverseAba =>
    cases hx
    simp only [Ref.read, Query.Stored]
    rw [hk.dof]
    unfold Body.inertiaInverseAba
    split
    · next hc => exact ⟨rfl, hc⟩
    · exact ⟨rfl, rfl⟩
  case opsInertia J e =>
    obtain ⟨u, hu, e0⟩ := Out.map_ok hx; cases e0
    obtain ⟨h1, h2, h3, h4, h5⟩ := opsInertia_run h hu
    refine ⟨by rw [h5]; rfl, _, _, u.2.c.ops.Jbar, ⟨((h.step h1).coh.opsLam h2).1, h3, rfl, by simpa using h4,
      fun _ => ⟨by simp, h2, rfl⟩, fun x => x.elim⟩⟩
  case opsInertiaInverse J =>
    obtain ⟨u, hu, e0⟩ := Out.map_ok hx; cases e0
    obtain ⟨h1, h2, h3, h4⟩ := opsInertiaInverse_run h hu
    refine ⟨by rw [h4]; rfl, _, u.2.c.ops.Lambda, u.2.c.ops.Jbar, ⟨h2, h3, rfl, by simp,
      fun x => x.elim, fun x => x.elim⟩⟩
  case opsJbar J e =>
    obtain ⟨u, hu, e0⟩ := Out.map_ok hx; cases e0
    obtain ⟨h1, h2, h3, h4⟩ := opsJbar_run h hu
    refine ⟨by rw [h4]; rfl, _, u.2.c.ops.Lambda, _, ⟨((h.step h1).coh.opsJbar h2).1, h3, rfl,
      by simpa using opsJbar_eps h hu, fun x => x.elim, fun _ => ⟨by simp, h2, rfl⟩⟩⟩
  case opsInertiaInverseAba l o =>
    obtain ⟨u, hu, e0⟩ := Out.map_ok hx; cases e0
    obtain ⟨k, M, hi, hh⟩ := opsInertiaInverseAba_held hu
    exact ⟨by simp only [Ref.read]; rw [hh.inv], k, _, _, (hk.index _).trans hi, hh⟩
  case opsInertiaAba l o e =>
    obtain ⟨u, hu, e0⟩ := Out.map_ok hx; cases e0
    obtain ⟨k, L, hi, hh⟩ := opsInertiaAba_held h hu
    exact ⟨by simp only [Ref.read]; rw [(hh.lam (by simp)).2.2], k, _, _, (hk.index _).trans hi, hh⟩

/-- A stored result stays while the later queries ask for no other Jacobian or task. -/
theorem Query.stored_step {x y : Query} {a : Ans} {r : Ref} (hs : x.Stored b) (hr : x.ref b = some r)
    (ha : x.Agrees b y) (hy : y.run E b = .ok (a, b')) : x.Stored b' ∧ r.read b' = r.read b := by
  have hk := Query.run_kept hy
  have hd := hk.dof
  cases x <;> simp only [Query.ref, Option.some.injEq, reduceCtorEq] at hr <;> subst hr <;>
    simp only [Ref.read, Query.Stored] at hs ⊢
  case rigidBody => obtain ⟨⟨c, rfl⟩, -⟩ := hk; exact ⟨trivial, rfl⟩
  case ancestors => obtain ⟨⟨c, rfl⟩, -⟩ := hk; exact ⟨trivial, rfl⟩
  case subtree => obtain ⟨⟨c, rfl⟩, -⟩ := hk; exact ⟨trivial, rfl⟩
  case tToParent => obtain ⟨h1, h2⟩ := hk.cache.tp hs; exact ⟨h1, by rw [h2]⟩
  case tToWorld => obtain ⟨h1, h2⟩ := hk.cache.tw hs; exact ⟨h1, by rw [h2]⟩
  case jacobian i o =>
    obtain ⟨k, J, hi, hh⟩ := hs
    have hh' := hh.run hi (fun j p e => ha.point _ _ j p rfl e) hy
    exact ⟨⟨k, J, (hk.index _).trans hi, hh'⟩, by rw [hd, hh'.2.2.2, hh.2.2.2]⟩
  case linearJacobian i o =>
    obtain ⟨k, J, hi, hh⟩ := hs
    have hh' := hh.run hi (fun j p e => ha.point _ _ j p rfl e) hy
    exact ⟨⟨k, J, (hk.index _).trans hi, hh'⟩, by rw [hd, hh'.2.2.2, hh.2.2.2]⟩
  case angularJacobian i =>
    obtain ⟨k, o, J, hi, hh⟩ := hs
    have hh' := hh.run hi (fun j p e => ⟨(ha.point _ _ j p rfl e).1,
      .inl ((ha.point _ _ j p rfl e).2.elim id id)⟩) hy
    exact ⟨⟨k, o, J, (hk.index _).trans hi, hh'⟩, by rw [hd, hh'.2.2.2, hh.2.2.2]⟩
  case centrifugalCoriolis => obtain ⟨h1, h2⟩ := hk.cache.cc hs; exact ⟨h1, by rw [hd, h2]⟩
  case gravity => obtain ⟨h1, h2⟩ := hk.cache.grav hs; exact ⟨h1, by rw [hd, h2]⟩
  case inertia => obtain ⟨h1, h2, -⟩ := hk.cache.crba hs; exact ⟨h1, by rw [hd, h2]⟩
  case compositeInertia => obtain ⟨h1, -, h2⟩ := hk.cache.crba hs; exact ⟨h1, by rw [h2]⟩
  case inertiaInverse => obtain ⟨h1, h2⟩ := hk.cache.inv hs; exact ⟨h1, by rw [hd, h2]⟩
  case inertiaInverseAba => obtain ⟨h1, h2⟩ := hk.cache.abaInv hs; exact ⟨h1, by rw [hd, h2]⟩
  case opsInertia J e =>
    obtain ⟨L, M, X, hh⟩ := hs
    have hh' := hh.run (fun K fs e => ha.task _ _ K fs rfl e) hy
    exact ⟨⟨L, M, X, hh'⟩, by rw [(hh'.lam trivial).2.2, (hh.lam trivial).2.2]⟩
  case opsInertiaInverse J =>
    obtain ⟨L, M, X, hh⟩ := hs
    have hh' := hh.run (fun K fs e => ha.task _ _ K fs rfl e) hy
    exact ⟨⟨L, M, X, hh'⟩, by rw [hh'.inv, hh.inv]⟩
  case opsJbar J e =>
    obtain ⟨L, M, X, hh⟩ := hs
    have hh' := hh.run (fun K fs e => ha.task _ _ K fs rfl e) hy
    exact ⟨⟨L, M, X, hh'⟩, by rw [(hh'.jbar trivial).2.2, (hh.jbar trivial).2.2]⟩
  case opsInertiaInverseAba i o =>
    obtain ⟨k, L, M, hi, hh⟩ := hs
    have hh' := hh.run hi (fun j p fs e => ha.taskAba _ _ _ j p fs rfl e) hy
    exact ⟨⟨k, L, M, (hk.index _).trans hi, hh'⟩, by rw [hh'.inv, hh.inv]⟩
  case opsInertiaAba i o e =>
    obtain ⟨k, L, M, hi, hh⟩ := hs
    have hh' := hh.run hi (fun j p fs e => ha.taskAba _ _ _ j p fs rfl e) hy
    exact ⟨⟨k, L, M, (hk.index _).trans hi, hh'⟩,
      by rw [(hh'.lam (by simp)).2.2, (hh.lam (by simp)).2.2]⟩

theorem Query.Agrees.congr {x y : Query} (e : b'.dof = b.dof) (h : x.Agrees b y) : x.Agrees b' y := by
  have er : ∀ i, b'.resolve i = b.resolve i := fun i => by unfold Body.resolve; rw [e]
  have hp : ∀ z : Query, z.point b' = z.point b := fun z => by cases z <;> simp only [Query.point, er]
  have ha : ∀ z : Query, z.taskAba b' = z.taskAba b := fun z => by
    cases z <;> simp only [Query.taskAba, er]
  obtain ⟨h1, h2, h3⟩ := h
  exact ⟨by rw [hp, hp]; exact h1, h2, by rw [ha, ha]; exact h3⟩

theorem Query.ref_congr (e : b'.dof = b.dof) (x : Query) : x.ref b' = x.ref b := by
  have er : ∀ i, b'.resolve i = b.resolve i := fun i => by unfold Body.resolve; rw [e]
  cases x <;> simp only [Query.ref, er]

theorem Ref.use_ok {r : Ref} {n : ℕ} (h : r.inner = true → b.dof = n) : r.use n b = .ok (r.read b) := by
  unfold Ref.use
  rw [if_neg]
  rintro ⟨h1, h2⟩
  exact h2 (h h1)

theorem Query.ref_inner {x : Query} {r : Ref} (hr : x.ref b = some r) : r.inner = true ↔ x.PerLink := by
  cases x <;> simp only [Query.ref, Option.some.injEq, reduceCtorEq] at hr <;> subst hr <;>
    simp [Ref.inner, Query.PerLink]

/-! ## The property -/

/-- C104: a reference reads as the answer of the last call that returns it, whether it was obtained
from that call or from one made before, in whatever state, with whatever arguments (`n` is the number
of links at that time; only references to whole matrices and vectors survive `AddRigidBody`). -/
theorem C104_reads (h : Reach E b d) {x : Query} {a : Ans} {r : Ref} {n : ℕ}
    (hx : x.run E b = .ok (a, b1)) (hr : x.ref b = some r) (hn : x.PerLink → b.dof = n) :
    r.use n b1 = .ok a := by
  obtain ⟨h1, -⟩ := Query.run_stored h.inv hx hr
  rw [Ref.use_ok fun hi => (Query.run_kept hx).dof.trans (hn ((Query.ref_inner hr).1 hi)), h1]

/-- C104 (partial: see `C104_violated`): a reference keeps reading the answer of its call through any
number of further queries that ask for no other Jacobian and for no other task; all other queries are
allowed, rejected ones too. -/
theorem C104_keeps_partial (h : Reach E b d) {x : Query} {a : Ans} {r : Ref}
    (hx : x.run E b = .ok (a, b1)) (hr : x.ref b = some r) (ys : List Query)
    (hy : ∀ y ∈ ys, x.Agrees b y) (he : execAll E b1 (ys.map .query) = some b2) :
    r.use b.dof b2 = .ok a := by
  have key : ∀ (ys : List Query), (∀ y ∈ ys, x.Agrees b y) → ∀ {b1 : Body}, b1.dof = b.dof →
      x.Stored b1 → r.read b1 = a → execAll E b1 (ys.map .query) = some b2 →
      b2.dof = b.dof ∧ r.read b2 = a := by
    intro ys
    induction ys with
    | nil => intro _ b1 hd _ h2 he; cases he; exact ⟨hd, h2⟩
    | cons y ys ih =>
      intro hl b1 hd hs h2 he
      simp only [List.map_cons, execAll] at he
      obtain ⟨b3, h3, h4⟩ := Option.bind_eq_some_iff.1 he
      have hl' : ∀ y ∈ ys, x.Agrees b y := fun y h => hl y (List.mem_cons_of_mem _ h)
      rcases Out.exec_cases h3 with h5 | ⟨-, rfl⟩
      · obtain ⟨⟨a', b4⟩, hr', rfl⟩ := Out.map_ok h5
        obtain ⟨h6, h7⟩ := Query.stored_step hs ((Query.ref_congr hd x).trans hr)
          ((hl y (List.mem_cons_self ..)).congr hd) hr'
        exact ih hl' ((Query.run_kept hr').dof.trans hd) h6 (h7.trans h2) h4
      · exact ih hl' hd hs h2 h4
  obtain ⟨h1, hs⟩ := Query.run_stored h.inv hx hr
  obtain ⟨h2, h3⟩ := key ys hy (Query.run_kept hx).dof hs h1 he
  rw [Ref.use_ok fun _ => h2, h3]

/-- The calls that change the body without computing anything. -/
def Op.Setter : Op → Prop
  | .setQ _ | .setDq _ | .setG _ | .addLoad _ _ | .replaceLoad _ _ | .clearLoad _ | .setBase _
  | .setInertiaBase _ => True
  | _ => False

/-- C104: a change of state, gravity, load or base writes nothing that references point to: they keep
reading the result of the old state until a call computes it again. -/
theorem C104_setters_leave (r : Ref) (n : ℕ) (ops : List Op) (hs : ∀ op ∈ ops, op.Setter)
    (he : execAll E b ops = some b') : r.use n b' = r.use n b := by
  induction ops generalizing b with
  | nil => cases he; rfl
  | cons op ops ih =>
    simp only [execAll] at he
    obtain ⟨b3, h3, h4⟩ := Option.bind_eq_some_iff.1 he
    rw [ih (fun o h => hs o (List.mem_cons_of_mem _ h)) h4]
    have hop := hs op (List.mem_cons_self ..)
    rcases Out.exec_cases h3 with h5 | ⟨-, rfl⟩
    · cases op <;> simp only [Op.Setter] at hop <;> simp only [Op.step] at h5
      · unfold Body.setQ at h5
        split_ifs at h5 <;> cases h5 <;> cases r <;> rfl
      · unfold Body.setDq at h5
        split_ifs at h5 <;> cases h5 <;> cases r <;> rfl
      · cases h5; cases r <;> rfl
      · cases h5; cases r <;> rfl
      · cases h5; cases r <;> rfl
      · cases h5; cases r <;> rfl
      · cases h5; cases r <;> rfl
      · unfold Body.setInertiaBase at h5
        split_ifs at h5; cases h5; cases r <;> rfl
    · rfl

/-- No call takes links away. -/
theorem Op.step_dof_le {op : Op} (h : b.Tree) (hs : op.step E b = .ok b') : b.dof ≤ b'.dof := by
  have key : b'.rbs = b.rbs → b.dof ≤ b'.dof := fun e => by unfold Body.dof; rw [e]
  cases op with
  | addRigidBody rb p =>
    obtain ⟨⟨id, b1⟩, h1, rfl⟩ := Out.map_ok hs
    unfold Body.addRigidBody at h1
    simp only at h1
    split at h1 <;> cases h1
    simp [Body.dof]
  | setQ q => exact key (setQ_stateOnly h.lq hs).rbs
  | setDq dq => exact key (setDq_stateOnly h.ldq hs).rbs
  | setG g => cases hs; exact le_rfl
  | addLoad I i => cases hs; exact le_rfl
  | replaceLoad I i => cases hs; exact le_rfl
  | clearLoad i => cases hs; exact le_rfl
  | setBase T => cases hs; exact le_rfl
  | setInertiaBase I =>
    change b.setInertiaBase I = .ok b' at hs
    unfold Body.setInertiaBase at hs
    split at hs
    · cases hs
    · cases hs
      exact le_rfl
  | query x =>
    obtain ⟨r, hr, rfl⟩ := Out.map_ok hs
    exact key (x.run_same hr).stateOnly.rbs
  | integrate t dt f o => exact key (integrate_stateOnly h hs).rbs
  | discreteIntegrate t dt f o => exact key (discreteIntegrate_stateOnly h hs).rbs

theorem execAll_dof_le (l : List Op) (ht : b.Tree) (hs : execAll E b l = some b') : b.dof ≤ b'.dof := by
  induction l generalizing b with
  | nil => cases hs; exact le_rfl
  | cons op l ih =>
    unfold execAll at hs
    obtain ⟨b1, h1, h2⟩ := Option.bind_eq_some_iff.1 hs
    rcases Out.exec_cases h1 with h3 | ⟨-, rfl⟩
    · exact (Op.step_dof_le ht h3).trans (ih (Op.step_tree ht h3) h2)
    · exact ih ht h2

/-- C104: once a link was added, at any time since the call, references to links, paths, transforms,
composite inertias and Jacobian rows must not be used, whatever calls come before and after. -/
theorem C104_dangling (h : Reach E b d) {x : Query} {r : Ref} (hr : x.ref b = some r)
    (hi : x.PerLink) {l1 l2 : List Op} (h1 : execAll E b l1 = some b1) {rb : RB} {p : ℤ} {k : ℕ}
    (ha : b1.addRigidBody rb p = .ok (k, b2)) (h2 : execAll E b2 l2 = some b3) :
    r.use b.dof b3 = .ub := by
  have t1 := execAll_tree l1 h.inv.tree h1
  have e1 := execAll_dof_le l1 h.inv.tree h1
  have e2 := execAll_dof_le l2 (t1.addRigidBody ha) h2
  have e : b2.dof = b1.dof + 1 := by
    unfold Body.addRigidBody at ha
    simp only at ha
    split at ha <;> cases ha
    simp [Body.dof]
  unfold Ref.use
  exact if_pos ⟨(Query.ref_inner hr).2 hi, by omega⟩

/-- C104 at work: the transform of the only link, kept while a second link is added. -/
example : ∃ b2 : Body, (solo .rz).addRigidBody {} 0 = .ok (1, b2) ∧
    (Query.tToWorld 0).ref (solo .rz) = some (.toWorld 0) ∧ (Ref.toWorld 0).use 1 b2 = .ub := by
  obtain ⟨d, h⟩ := solo_reach ext0 .rz
  exact ⟨_, rfl, rfl, C104_dangling h (x := .tToWorld 0) (l1 := []) (l2 := []) rfl trivial rfl
    (rb := {}) (p := 0) (k := 1) rfl rfl⟩

/-- C104 is violated: two references to Jacobians of the same link at different points are one
matrix, so after the second call the first reads the second result. -/
theorem C104_violated (E : Ext) : ∃ (b : Body) (d : Bool) (x y : Query) (a a' : Ans) (b1 b2 : Body) (r : Ref),
    Reach E b d ∧ x.run E b = .ok (a, b1) ∧
    x.ref b = some r ∧ y.run E b1 = .ok (a', b2) ∧ r.use b.dof b2 = .ok a' ∧ a' ≠ a := by
  obtain ⟨d, h⟩ := solo_reach E .rz
  obtain ⟨⟨J, b1⟩, hJ, h0⟩ := solo_jac E .rz 0
  obtain ⟨⟨K, c⟩, hK, h1⟩ := solo_jac E .rz ⟨1, 0, 0⟩
  obtain ⟨hst, -⟩ := jacobian_run h.inv hJ
  have hl : (solo .rz).LinkIdx 0 0 := ⟨Nat.one_pos, .inl rfl⟩
  obtain ⟨-, k, hk, eK⟩ := jacobian_run h.inv hK
  have hi1 := h.inv.step hst
  have hx : (Query.jacobian 0 0).run E (solo .rz) = .ok (.cols (take (solo .rz).dof J), b1) := by
    simp only [Query.run, hJ]; rfl
  obtain ⟨c', e, -⟩ := hst
  have hl1 : b1.LinkIdx 0 0 := by rw [show b1 = _ from e]; exact hl
  obtain ⟨⟨K', b2⟩, hK'⟩ := jacobian_total b1 hl1 ⟨1, 0, 0⟩
  have hy : (Query.jacobian 0 ⟨1, 0, 0⟩).run E b1 = .ok (.cols (take b1.dof K'), b2) := by
    simp only [Query.run, hK']; rfl
  refine ⟨_, d, _, _, _, _, b1, b2, .jacobian, h, hx, rfl, hy, ?_, ?_⟩
  · have := Query.run_stored hi1 hy rfl
    rw [Ref.use_ok (fun h => Bool.noConfusion h), this.1]
  · intro ee
    have ed : b1.dof = (solo .rz).dof := by rw [show b1 = _ from e]; rfl
    rw [ed] at ee
    have e2 := take_inj (Ans.cols.inj ee) 0 Nat.one_pos
    obtain ⟨-, k', hk', eK'⟩ := jacobian_run hi1 hK'
    have ek : k' = k := by
      rw [show b1 = _ from e] at hk'
      exact Out.ok.inj (hk'.symm.trans hk)
    subst ek
    have e3 : K' = K := by
      refine Eq.trans eK' (Eq.trans ?_ eK.symm)
      rw [show b1 = _ from e]; rfl
    rw [e3] at e2
    have e4 := (h1.symm.trans e2).trans h0
    have := congrArg (fun m : Motion => m.lin.y) e4
    simp [Motion.atPoint, JType.subspace, Vec3.cross] at this

/-- C104 is violated also for the operational-space matrices: a reference to the inverse inertia of
one task takes the value, and the size, of the task of the next call. -/
theorem C104_violated_task (E : Ext) : ∃ b d J K a a' b1 b2 r, Reach E b d ∧
    (Query.opsInertiaInverse J).run E b = .ok (a, b1) ∧ (Query.opsInertiaInverse J).ref b = some r ∧
    (Query.opsInertiaInverse K).run E b1 = .ok (a', b2) ∧ r.use b.dof b2 = .ok a' ∧ a' ≠ a := by
  obtain ⟨d, h⟩ := solo_reach E .rz
  obtain ⟨u, hu⟩ := opsInertiaInverse_total h.inv (J := oneRow) rfl Nat.one_pos
  have hs := (opsInertiaInverse_run h.inv hu).1
  have h1 := h.inv.step hs
  have hd : u.2.dof = 1 := hs.dof_eq
  obtain ⟨v, hv⟩ := opsInertiaInverse_total h1 (J := ⟨2, 1, fun _ _ => 1⟩) hd.symm (by rw [hd]; exact Nat.one_pos)
  have hx : (Query.opsInertiaInverse oneRow).run E (solo .rz) = .ok (.dmat u.1.trunc, u.2) := by
    simp only [Query.run, hu]; rfl
  have hy : (Query.opsInertiaInverse ⟨2, 1, fun _ _ => 1⟩).run E u.2 =
      .ok (.dmat v.1.trunc, v.2) := by
    simp only [Query.run, hv]; rfl
  refine ⟨_, d, _, _, _, _, _, _, .opsInertiaInverse, h, hx, rfl, hy, ?_, ?_⟩
  · have := Query.run_stored h1 hy rfl
    rw [Ref.use_ok (fun h => Bool.noConfusion h), this.1]
  · intro e
    have e1 := congrArg DMat.rows (Ans.dmat.inj e)
    have e2 := congrArg DMat.rows (opsInertiaInverse_ans h.inv hu).2
    have e3 := congrArg DMat.rows (opsInertiaInverse_ans h1 hv).2
    have : (2 : ℕ) = 1 := (e3.symm.trans e1).trans e2
    omega

/-- The hypotheses of `C104_keeps_partial` hold for the branching body: the Jacobian of link 2 is kept
while its transforms, its angular Jacobian, the inertia matrix and a task are asked for. -/
example : ∃ (a : Ans) (b1 b2 : Body) (x : Query) (ys : List Query), Reach ext0 demo false ∧
    x.run ext0 demo = .ok (a, b1) ∧ x.ref demo = some .jacobian ∧ ys.length = 4 ∧
    (∀ y ∈ ys, x.Agrees demo y) ∧ execAll ext0 b1 (ys.map .query) = some b2 := by
  have hl : demo.LinkIdx 2 2 := ⟨by decide, .inl rfl⟩
  obtain ⟨⟨J, b1⟩, hJ⟩ := jacobian_total demo hl 0
  have hx : (Query.jacobian 2 0).run ext0 demo = .ok (.cols (take demo.dof J), b1) := by
    simp only [Query.run, hJ]; rfl
  have h1 : b1.dof = 3 := (Query.run_kept hx).dof
  have h2 : (b1.inertia).2.dof = 3 := (inertia_kept (kj := True) (ko := True) (ka := True)).dof.trans h1
  have h3 : ((b1.inertia).2.gravity).2.dof = 3 :=
    (gravity_kept (kj := True) (ko := True) (ka := True)).dof.trans h2
  obtain ⟨⟨K, b2⟩, hK⟩ := jacobian_total (((b1.inertia).2.gravity).2) (l := -1) (k := 2)
    ⟨by rw [h3]; decide, .inr ⟨by rw [h3]; rfl, by decide⟩⟩ (((b1.inertia).2.gravity).2).c.jacOffset
  refine ⟨_, b1, (b2.gravity).2, _, [.inertia, .gravity, .angularJacobian (-1), .gravity], demo_reach_clean ext0, hx,
    rfl, rfl, ?_, ?_⟩
  · intro y hy
    simp only [List.mem_cons, List.not_mem_nil, or_false] at hy
    rcases hy with rfl | rfl | rfl | rfl
    · exact ⟨fun _ _ _ _ _ h => (by cases h), fun _ _ _ _ h => (by cases h), fun _ _ _ _ _ _ h => (by cases h)⟩
    · exact ⟨fun _ _ _ _ _ h => (by cases h), fun _ _ _ _ h => (by cases h), fun _ _ _ _ _ _ h => (by cases h)⟩
    · refine ⟨fun i o j p h1 h2 => ?_, fun _ _ _ _ h => (by cases h), fun _ _ _ _ _ _ h => (by cases h)⟩
      cases h1; cases h2
      exact ⟨rfl, .inl rfl⟩
    · exact ⟨fun _ _ _ _ _ h => (by cases h), fun _ _ _ _ h => (by cases h), fun _ _ _ _ _ _ h => (by cases h)⟩
  · have e1 : (Op.query .inertia).exec ext0 b1 = some (b1.inertia).2 := rfl
    have e2 : (Op.query .gravity).exec ext0 (b1.inertia).2 = some ((b1.inertia).2.gravity).2 := rfl
    have e3 : (Op.query (.angularJacobian (-1))).exec ext0 ((b1.inertia).2.gravity).2 = some b2 := by
      simp only [Op.exec, Op.step, Query.run, angularJacobian, hK]
      rfl
    simp only [List.map_cons, List.map_nil, execAll, e1, e2, e3, Option.bind_some]
    rfl

end SpatialDyn
