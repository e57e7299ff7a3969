import Verif.Props.OpsAbaWitness
import Verif.Spec.OpsLoads

/-!
# Loads and the operational-space articulated-body functions

C111: right after a call on loads the four functions answer as if there were no load at all; after
`ForwardDynamicsAba` in the same state `InertiaInverseAba` counts the loads.
-/

namespace SpatialDyn
open Finset Body Matrix

variable {E : Ext} {b b' : Body} {d : Bool}

/-- The body with other loads. -/
def Body.withLoad (b : Body) (ld : ℤ → Option Inertia) : Body := { b with load := ld }

theorem touchTw_withLoad (b : Body) (ld : ℤ → Option Inertia) :
    (b.withLoad ld).touchTw = b.touchTw.withLoad ld := by
  by_cases h : b.c.twDone = true
  · have h' : (b.withLoad ld).c.twDone = true := h
    unfold touchTw
    rw [if_pos h, if_pos h']
  · have h' : ¬(b.withLoad ld).c.twDone = true := h
    unfold touchTw
    rw [if_neg h, if_neg h']
    rfl

theorem touch_withLoad (b : Body) (ld : ℤ → Option Inertia) :
    (b.withLoad ld).touchTw.touchTp = b.touchTw.touchTp.withLoad ld := by
  rw [touchTw_withLoad]
  rfl

theorem opsInvAbaCompute_withLoad (b : Body) (ld : ℤ → Option Inertia) (k : ℕ) (x : Vec3) :
    (b.withLoad ld).opsInvAbaCompute k x =
      ((b.opsInvAbaCompute k x).1, (b.opsInvAbaCompute k x).2.withLoad ld) := by
  unfold opsInvAbaCompute
  rw [touch_withLoad]
  rfl

theorem opsInertiaInverseAba_withLoad (b : Body) (ld : ℤ → Option Inertia) (l : ℤ) (x : Vec3) :
    (b.withLoad ld).opsInertiaInverseAba l x =
      (b.opsInertiaInverseAba l x).map fun r => (r.1, r.2.withLoad ld) := by
  unfold opsInertiaInverseAba
  rw [show (b.withLoad ld).index l = b.index l from rfl]
  cases b.index l with
  | ok k =>
    simp only [Out.map, Out.bind]
    by_cases h : b.c.opsAba.lambdaInvDone = true ∧ b.c.opsAba.idx = k ∧ b.c.opsAba.offset = x
    · have h' : (b.withLoad ld).c.opsAba.lambdaInvDone = true ∧ (b.withLoad ld).c.opsAba.idx = k ∧
        (b.withLoad ld).c.opsAba.offset = x := h
      rw [if_pos h, if_pos h']
      rfl
    · have h' : ¬((b.withLoad ld).c.opsAba.lambdaInvDone = true ∧ (b.withLoad ld).c.opsAba.idx = k ∧
        (b.withLoad ld).c.opsAba.offset = x) := h
      rw [if_neg h, if_neg h', opsInvAbaCompute_withLoad]
  | throws => rfl
  | ub => rfl

theorem opsInertiaAba_withLoad (b : Body) (ld : ℤ → Option Inertia) (l : ℤ) (x : Vec3) (e : ℝ) :
    (b.withLoad ld).opsInertiaAba E l x e =
      (b.opsInertiaAba E l x e).map fun r => (r.1, r.2.withLoad ld) := by
  unfold opsInertiaAba
  rw [show (b.withLoad ld).index l = b.index l from rfl]
  cases b.index l with
  | ok k =>
    simp only [Out.bind]
    rw [opsInertiaInverseAba_withLoad]
    by_cases h : b.c.opsAba.lambdaDone = true ∧ b.c.opsAba.idx = k ∧ b.c.opsAba.offset = x ∧
      b.c.opsAba.eps = e
    · have h' : (b.withLoad ld).c.opsAba.lambdaDone = true ∧ (b.withLoad ld).c.opsAba.idx = k ∧
        (b.withLoad ld).c.opsAba.offset = x ∧ (b.withLoad ld).c.opsAba.eps = e := h
      rw [if_pos h, if_pos h']
      rfl
    · have h' : ¬((b.withLoad ld).c.opsAba.lambdaDone = true ∧ (b.withLoad ld).c.opsAba.idx = k ∧
        (b.withLoad ld).c.opsAba.offset = x ∧ (b.withLoad ld).c.opsAba.eps = e) := h
      rw [if_neg h, if_neg h']
      cases b.opsInertiaInverseAba k x <;> rfl
  | throws => rfl
  | ub => rfl

theorem Out.bind_ok_eq {α β : Type*} (a : α) (f : α → Out β) : (Out.ok a).bind f = f a := rfl

theorem withLoad_view (b : Body) (ld : ℤ → Option Inertia) :
    (b.withLoad ld).view.unload = b.view.unload := rfl

theorem withLoad_c (b : Body) (ld : ℤ → Option Inertia) : (b.withLoad ld).c = b.c := rfl

theorem withLoad_vaf (b : Body) (ld : ℤ → Option Inertia) : (b.withLoad ld).vaf = b.vaf := rfl

theorem withLoad_anc (b : Body) (ld : ℤ → Option Inertia) : (b.withLoad ld).anc = b.anc := rfl

theorem withLoad_tw (b : Body) (ld : ℤ → Option Inertia) : (b.withLoad ld).viewTw = b.viewTw := rfl

theorem opsEnd_withLoad (B : Body) (ld : ℤ → Option Inertia) (k : ℤ) (x : Vec3) (e : ℝ)
    (mu : Motion) : (((B.withLoad ld).opsInertiaAba E k x e).bind fun l =>
      Out.ok (mulVec6 l.1 mu, l.2)).map Prod.fst =
    ((B.opsInertiaAba E k x e).bind fun l => Out.ok (mulVec6 l.1 mu, l.2)).map Prod.fst := by
  rw [opsInertiaAba_withLoad]
  cases B.opsInertiaAba E k x e <;> rfl

theorem opsCoriolisAba_withLoad (b : Body) (ld : ℤ → Option Inertia) (l : ℤ) (x : Vec3) (e : ℝ) :
    ((b.withLoad ld).opsCoriolisAba E l x e).map Prod.fst =
      (b.opsCoriolisAba E l x e).map Prod.fst := by
  unfold opsCoriolisAba
  rw [show (b.withLoad ld).index l = b.index l from rfl, touch_withLoad]
  cases b.index l with
  | ok k =>
    simp only [Out.bind_ok_eq, withLoad_view, withLoad_c, withLoad_vaf, withLoad_anc, withLoad_tw]
    exact opsEnd_withLoad { b.touchTw.touchTp with c := _ } ld k x e _
  | throws => rfl
  | ub => rfl

theorem opsGravityAba_withLoad (b : Body) (ld : ℤ → Option Inertia) (l : ℤ) (x : Vec3) (f : FExt)
    (e : ℝ) : ((b.withLoad ld).opsGravityAba E l x f e).map Prod.fst =
      (b.opsGravityAba E l x f e).map Prod.fst := by
  unfold opsGravityAba
  rw [show (b.withLoad ld).index l = b.index l from rfl, touch_withLoad]
  cases b.index l with
  | ok k =>
    simp only [Out.bind_ok_eq, withLoad_view, withLoad_c, withLoad_vaf, withLoad_anc, withLoad_tw]
    exact opsEnd_withLoad { b.touchTw.touchTp with c := _ } ld k x e _
  | throws => rfl
  | ub => rfl

theorem Query.withLoad_ans (b : Body) (ld : ℤ → Option Inertia) (x : Query) (hx : x.OpsAba) :
    (x.run E (b.withLoad ld)).map Prod.fst = (x.run E b).map Prod.fst := by
  have map2 : ∀ {α β : Type} (o o' : Out (α × Body)) (f : α → Ans),
      o.map Prod.fst = o'.map Prod.fst →
      (o.map fun r => (f r.1, r.2)).map Prod.fst = (o'.map fun r => (f r.1, r.2)).map Prod.fst := by
    intro α β o o' f h
    cases o <;> cases o' <;> simp_all [Out.map, Out.bind]
  cases x with
  | opsInertiaInverseAba l y =>
    refine map2 (β := ℕ) _ _ Ans.mat6 ?_
    rw [opsInertiaInverseAba_withLoad]
    cases b.opsInertiaInverseAba l y <;> rfl
  | opsInertiaAba l y e =>
    refine map2 (β := ℕ) _ _ Ans.mat6 ?_
    rw [opsInertiaAba_withLoad]
    cases b.opsInertiaAba E l y e <;> rfl
  | opsCoriolisAba l y e => exact map2 (β := ℕ) _ _ Ans.vec6 (opsCoriolisAba_withLoad b ld l y e)
  | opsGravityAba l y f e => exact map2 (β := ℕ) _ _ Ans.vec6 (opsGravityAba_withLoad b ld l y f e)
  | _ => exact absurd hx id

/-- Calls on loads leave everything else alone and clear the computed dynamics. -/
theorem execAll_onLoads {ops : List Op} (ho : ∀ op ∈ ops, op.OnLoads) (hne : ops ≠ [])
    (hx : execAll E b ops = some b') :
    ∃ ld, b' = { b with c := b.c.clearDynamics }.withLoad ld := by
  induction ops generalizing b with
  | nil => exact absurd rfl hne
  | cons op t ih =>
    have h1 : ∃ ld, op.exec E b = some ({ b with c := b.c.clearDynamics }.withLoad ld) := by
      have := ho op (List.mem_cons_self ..)
      cases op with
      | addLoad I i => exact ⟨_, rfl⟩
      | replaceLoad I i => exact ⟨_, rfl⟩
      | clearLoad i => exact ⟨_, rfl⟩
      | _ => exact absurd this id
    obtain ⟨ld, h1⟩ := h1
    unfold execAll at hx
    rw [h1] at hx
    by_cases ht : t = []
    · subst ht
      cases hx
      exact ⟨ld, rfl⟩
    · obtain ⟨ld', e⟩ := ih (fun o h => ho o (List.mem_cons_of_mem _ h)) ht hx
      exact ⟨ld', e⟩

/-- C111: right after calls on loads, the operational-space articulated-body functions answer the
same whatever these calls were: no load is counted.  It holds for every body and every history. -/
theorem C111_not_counted {ops ops' : List Op} {b1 b2 : Body} (ho : ∀ op ∈ ops, op.OnLoads)
    (hne : ops ≠ []) (hx : execAll E b ops = some b1) (ho' : ∀ op ∈ ops', op.OnLoads)
    (hne' : ops' ≠ []) (hx' : execAll E b ops' = some b2) (x : Query) (hq : x.OpsAba) :
    (x.run E b1).map Prod.fst = (x.run E b2).map Prod.fst := by
  obtain ⟨ld, rfl⟩ := execAll_onLoads ho hne hx
  obtain ⟨ld', rfl⟩ := execAll_onLoads ho' hne' hx'
  rw [Query.withLoad_ans _ _ x hq, Query.withLoad_ans _ _ x hq]

/-- With the articulated inertias at hand, the pass does not read the inertias of the links. -/
theorem opsBackward_unload (σ : Sys) (c : AbaCache) (a : ℕ → Motion) (f : ℕ → Force) :
    σ.unload.opsBackward true c a f = σ.opsBackward true c a f := rfl

/-- C111: after `ForwardDynamicsAba` in the same state, `opspace::InertiaInverseAba` is `J A⁻¹ Jᵀ`
with the loads counted in `A`, for the Jacobian at the origin of the link. -/
theorem C111_counted (h : Reach E b d) (hm : b.Massive)
    (hn : DefiniteForm b.dof b.inertia.1)
    (tau : ℕ → ℝ) (fext : FExt) (o : FDOpts) {l : ℤ} {x : Vec3} {J : (ℕ → Motion) × Body}
    (hJ : b.jacobian l 0 = .ok J) {r : Matrix (Fin 6) (Fin 6) ℝ × Body}
    (hr : (b.forwardDynamicsAba tau fext o).2.opsInertiaInverseAba l x = .ok r) :
    r.1 = jacM b.dof J.1 * (toMat b.dof b.inertia.1)⁻¹ * (jacM b.dof J.1)ᵀ := by
  have hs := forwardDynamicsAba_step h.inv tau fext o
  have hi := h.inv.step hs
  have hd : (b.forwardDynamicsAba tau fext o).2.c.abaDone = true := rfl
  generalize (b.forwardDynamicsAba tau fext o).2 = b' at hr hs hi hd
  obtain ⟨k, hk, hr⟩ := Out.bind_ok hr
  have hkd := index_lt hk
  obtain ⟨c', rfl, hc⟩ := hs
  split at hr
  · next hcd =>
    cases hr
    have hload := (hc.opsAbaInv hcd.1).1
    exact opsAbaInv_val h hm hn hload ⟨c', rfl, hc⟩ hcd.1 (hcd.2.1 ▸ hk) hJ
  · cases hr
    refine Eq.trans ?_ (opsLambda_eq h hm hn true c'.aba (fun _ => hc.aba hd) hkd
      (index_linkIdx hk) hJ)
    have huf : ∀ m, Body.unitForce { b with c := c' } k m = fun j =>
        if j = k then (⟨(b.freshTw j).R.T, 0⟩ : Iso).actF (-Force.unit m) else 0 := by
      intro m
      funext j
      unfold unitForce
      split
      · next hj => subst hj; rw [hi.viewTw j hkd]; rfl
      · rfl
    have e1 : c'.abaDone = true := hd
    unfold opsInvAbaCompute
    simp only [hi.view, hi.viewTw k hkd, huf, e1, opsBackward_unload]
    rfl

/-- C111: the value right after calls on loads: `J A₀⁻¹ Jᵀ`, where `A₀` is the inertia of the robot
once its loads are removed. -/
theorem C111_value {ops ops' : List Op} {b1 b0 : Body} (ho : ∀ op ∈ ops, op.OnLoads)
    (hne : ops ≠ []) (hx : execAll E b ops = some b1) (ho' : ∀ op ∈ ops', op.OnLoads)
    (hne' : ops' ≠ []) (hx' : execAll E b ops' = some b0) (h : Reach E b0 d) (hm : b0.Massive)
    (hn : DefiniteForm b0.dof b0.inertia.1)
    (hload : ∀ k, b0.load k = none) {l : ℤ} {x : Vec3} {J : (ℕ → Motion) × Body}
    (hJ : b0.jacobian l 0 = .ok J) {r : Matrix (Fin 6) (Fin 6) ℝ × Body}
    (hr : b1.opsInertiaInverseAba l x = .ok r) :
    r.1 = jacM b0.dof J.1 * (toMat b0.dof b0.inertia.1)⁻¹ * (jacM b0.dof J.1)ᵀ := by
  have e := C111_not_counted ho hne hx ho' hne' hx' (.opsInertiaInverseAba l x) trivial
  cases hr0 : b0.opsInertiaInverseAba l x with
  | ok s =>
    simp only [Query.run, hr, hr0, Out.map, Out.bind, Out.ok.injEq, Ans.mat6.injEq] at e
    rw [e]
    exact C38_inertia_inverse_partial h hm hn hload hJ hr0
  | throws => simp [Query.run, hr, hr0, Out.map, Out.bind] at e
  | ub => simp [Query.run, hr, hr0, Out.map, Out.bind] at e

/-- A body with a load on which the hypotheses of `C111_counted` hold, and calls on loads as in
`C111_not_counted`. -/
example : (∃ d, Reach E soloLoaded d) ∧ soloLoaded.Definite ∧
    (∃ k, soloLoaded.load k ≠ none) ∧ (∃ J, soloLoaded.jacobian 0 0 = .ok J) ∧
    (∃ r, (soloLoaded.forwardDynamicsAba (fun _ => 1) (fun _ => none)
      ⟨true, true, true, 0⟩).2.opsInertiaInverseAba 0 0 = .ok r) ∧
    (∃ b1, execAll E soloLoaded [.addLoad ball 0, .addLoad ball (-1)] = some b1) ∧
    ∃ b0, execAll E soloLoaded [.clearLoad 0] = some b0 ∧ ∀ k, b0.load k = none := by
  have hl : soloLoaded.LinkIdx 0 0 := ⟨Nat.one_pos, .inl rfl⟩
  refine ⟨soloLoaded_reach E, soloLoaded_definite, ⟨0, ?_⟩, jacobian_total soloLoaded hl 0, ?_,
    ⟨_, rfl⟩, _, rfl, ?_⟩
  · rw [show soloLoaded.load 0 = some ball by simp [soloLoaded, addLoad, solo, resolve]]
    exact Option.some_ne_none _
  · have hl' : (soloLoaded.forwardDynamicsAba (fun _ => 1) (fun _ => none)
      ⟨true, true, true, 0⟩).2.LinkIdx 0 0 := ⟨Nat.one_pos, .inl rfl⟩
    exact (C38_defined (E := E) _ hl' 0 0).2.1
  · intro k
    by_cases hk : k = 0
    · subst hk
      simp [soloLoaded, clearLoad, addLoad, solo, resolve]
    · simp [soloLoaded, clearLoad, addLoad, solo, resolve, hk]

end SpatialDyn
