import Verif.Lemmas.Alike
import Verif.Props.OpsAbaWitness

/-!
# C105: a load is as good as a heavier link
-/

namespace SpatialDyn
open Body

/-- C105 (partial: see `C105_violated` for the operational-space articulated-body functions): two
robots that differ only in how the weight of each link is split between the link and its load give
the same answers to every query about forces, torques and inertias, whatever calls and queries led to
them. -/
theorem C105_loads_are_links_partial {E : Ext} {b b' : Body} {d d' : Bool} (h : Reach E b d)
    (h' : Reach E b' d') (ho : b.SameTotals b') (hm : b.Massive) (x : Query)
    (hx : x.Weighs b.dof) : (x.run E b).map Prod.fst = (x.run E b').map Prod.fst :=
  Query.alike_ans h.inv h'.inv ho hm.symI (hm.posMass h.inv.tree) x hx

/-- The slider of `soloLoaded` built with one heavier link and no load. -/
noncomputable def soloHeavy : Body :=
  { solo .px with rbs := [{ ballRB .px with inertia := ball.add ball, id := 0, idParent := -1 }] }

theorem soloHeavy_exec (E : Ext) : execAll E (Body.init cache0)
    [.addRigidBody { ballRB .px with inertia := ball.add ball } (-1)] = some soloHeavy := by
  simp [execAll, Op.exec, Op.step, addRigidBody, Out.map, Out.bind, Body.init, pushSub, soloHeavy,
    solo]

theorem soloHeavy_reach (E : Ext) : ∃ d, Reach E soloHeavy d := by
  refine reach_execAll _ (Reach.init cache0) ?_ (soloHeavy_exec E)
  intro op hop
  simp only [List.mem_cons, List.not_mem_nil, or_false] at hop
  subst hop
  exact Iso.valid_one

theorem soloHeavy_same : soloLoaded.SameTotals soloHeavy where
  dof := rfl
  parent k := by cases k <;> rfl
  pose k := by cases k <;> rfl
  joint k := by cases k <;> rfl
  total k := by
    cases k with
    | zero => rfl
    | succ k =>
      have e : soloLoaded.load ((k + 1 : ℕ) : ℤ) = none := by
        have hk : ((k + 1 : ℕ) : ℤ) ≠ 0 := by omega
        exact Function.update_of_ne hk (some ball) (fun _ : ℤ => (none : Option Inertia))
      unfold totalInertia
      rw [e]
      rfl
  q := rfl
  dq := rfl
  g := rfl
  T0 := rfl

theorem ball_two : (ball.add ball).com = 0 ∧ (ball.add ball).Icom = (1 : Mat3) + 1 := by
  have hc : (ball.add ball).com = 0 := by
    show (1 / ((1 : ℝ) + 1)) • ((1 : ℝ) • (0 : Vec3) + (1 : ℝ) • (0 : Vec3)) = 0
    simp
  refine ⟨hc, ?_⟩
  show (1 : Mat3) + 1 - (1 : ℝ) • doubleCross ((ball.add ball).com - 0)
    - (1 : ℝ) • doubleCross ((ball.add ball).com - 0) = _
  rw [hc]
  ext <;> simp [doubleCross]

theorem soloHeavy_definite : soloHeavy.Definite := by
  have h0 : ∀ k < soloHeavy.dof, k = 0 := fun k hk => Nat.lt_one_iff.1 hk
  have e1 : (soloHeavy.rb 0).inertia = ball.add ball := rfl
  refine ⟨fun k hk => ?_, fun k hk => ?_, fun k hk v hv => ?_, fun k hk L hL => ?_, fun k hk h => ?_⟩
  all_goals rw [h0 k hk] at *
  · rw [e1]; show (0 : ℝ) < 1 + 1; norm_num
  · rw [e1, ball_two.2]; ext <;> simp [Mat3.T]
  · rw [e1, ball_two.2]
    have := ball_pd v hv
    simp [ball, Mat3.mulVec, Vec3.dot] at this ⊢
    linarith
  · cases hL
  · have := congrArg (fun m : Motion => m.lin.x) h
    simp [soloHeavy, solo, Body.rb, ballRB, mkJoint, JType.subspace] at this

/-- The operational-space articulated-body inertia is the exception: on the slider with the load it
is that of the slider alone, on the slider with the heavier link it is not. -/
theorem C105_violated (E : Ext) : ∃ (b b' : Body) (d d' : Bool), Reach E b d ∧ Reach E b' d' ∧
    b.SameTotals b' ∧ b.Definite ∧
    ((Query.opsInertiaInverseAba 0 0).run E b).map Prod.fst ≠
      ((Query.opsInertiaInverseAba 0 0).run E b').map Prod.fst := by
  have hS : JType.px.subspace ≠ 0 := by
    intro h
    have := congrArg (fun m : Motion => m.lin.x) h
    simp [JType.subspace] at this
  obtain ⟨d, h⟩ := solo_reach E .px
  obtain ⟨d', h'⟩ := soloHeavy_reach E
  obtain ⟨d1, h1⟩ := soloLoaded_reach E
  have hd := solo_definite hS
  have hd' := soloHeavy_definite
  have hm := hd.massive h.inv.tree
  have hm' := hd'.massive h'.inv.tree
  have hl : (solo .px).LinkIdx 0 0 := ⟨Nat.one_pos, .inl rfl⟩
  have hl' : soloHeavy.LinkIdx 0 0 := ⟨Nat.one_pos, .inl rfl⟩
  have hl1 : soloLoaded.LinkIdx 0 0 := ⟨Nat.one_pos, .inl rfl⟩
  obtain ⟨J0, hJ0, e0⟩ := solo_jac E .px 0
  obtain ⟨J, hJ⟩ := jacobian_total soloHeavy hl' 0
  have eJ : J.1 = J0.1 := by
    funext j
    rw [jacobian_val h'.inv hl' hJ j, jacobian_val h.inv hl hJ0 j]
    have eJw : soloHeavy.fresh.Jw 0 j = soloLoaded.fresh.Jw 0 j :=
      soloHeavy_same.lift (fun σ => σ.Jw 0 j) fun _ => rfl
    rw [eJw, soloHeavy_same.freshTw_eq]
    rfl
  obtain ⟨-, ⟨r, hr⟩, -⟩ := C38_defined (E := E) (solo .px) hl 0 0
  obtain ⟨-, ⟨r', hr'⟩, -⟩ := C38_defined (E := E) soloHeavy hl' 0 0
  obtain ⟨-, ⟨r1, hr1⟩, -⟩ := C38_defined (E := E) soloLoaded hl1 0 0
  have er : r1.1 = r.1 := by
    have e1 : soloLoaded.opsInertiaInverseAba 0 0 = .ok (soloLoaded.opsInvAbaCompute 0 0) := by
      unfold opsInertiaInverseAba
      rw [hl1.index]
      simp only [Out.bind]
      rw [if_neg]
      rintro ⟨hc, -⟩
      exact absurd hc Bool.false_ne_true
    have e2 : (solo .px).opsInertiaInverseAba 0 0 = .ok ((solo .px).opsInvAbaCompute 0 0) := by
      unfold opsInertiaInverseAba
      rw [hl.index]
      simp only [Out.bind]
      rw [if_neg]
      rintro ⟨hc, -⟩
      exact absurd hc Bool.false_ne_true
    rw [e1] at hr1
    rw [e2] at hr
    cases hr
    cases hr1
    rfl
  refine ⟨soloLoaded, soloHeavy, d1, d', h1, h', soloHeavy_same, soloLoaded_definite, ?_⟩
  simp only [Query.run, hr1, hr']
  intro hc
  have hc1 : r1.1 = r'.1 := by
    injection hc with hc
    injection hc with hc
  rw [er, C38_inertia_inverse_partial h hm (hd.form h) (fun _ => rfl) hJ0 hr,
    C38_inertia_inverse_partial h' hm' (hd'.form h') (fun _ => rfl) hJ hr', eJ] at hc1
  have hdet : (toMat (solo .px).dof (solo .px).inertia.1).det ≠ 0 := (hd.form h).det_ne
  have hdet' : (toMat soloHeavy.dof soloHeavy.inertia.1).det ≠ 0 := (hd'.form h').det_ne
  have h1 := congrFun (congrFun hc1 0) 0
  rw [solo_inv (show (solo .px).dof = 1 from rfl) _ hdet,
    solo_inv (show soloHeavy.dof = 1 from rfl) _ hdet'] at h1
  have a0 : ∀ n (hn : 0 < n), jacM n J0.1 0 ⟨0, hn⟩ = 1 := by
    intro n hn
    show (J0.1 0).entry 0 = 1
    rw [e0]
    simp [Motion.entry, Motion.atPoint, JType.subspace]
  have m0 : (solo .px).inertia.1 0 0 = 1 := by
    rw [solo_mass h hm rfl (solo_tw _)]
    show JType.px.subspace.dot (ball.app JType.px.subspace) = 1
    simp [JType.subspace, ball, Inertia.app, Motion.dot]
  have m1 : soloHeavy.inertia.1 0 0 = 2 := by
    rw [solo_mass h' hm' rfl (solo_tw .px)]
    show JType.px.subspace.dot ((ball.add ball).app JType.px.subspace) = 2
    simp [JType.subspace, ball, Inertia.app, Inertia.add, Motion.dot]
    norm_num
  rw [a0, a0] at h1
  simp only [toMat, Matrix.of_apply, m0, m1] at h1
  norm_num at h1

/-- The hypotheses of `C105_loads_are_links_partial` hold for a slider with a load and one with a
heavier link. -/
example (E : Ext) : ∃ d d', Reach E soloLoaded d ∧ Reach E soloHeavy d' ∧
    soloLoaded.SameTotals soloHeavy ∧ soloLoaded.Massive ∧
    soloLoaded.load 0 = some ball ∧ soloHeavy.load 0 = none := by
  obtain ⟨d, h⟩ := soloLoaded_reach E
  obtain ⟨d', h'⟩ := soloHeavy_reach E
  exact ⟨d, d', h, h', soloHeavy_same, soloLoaded_definite.massive h.inv.tree, rfl, rfl⟩

end SpatialDyn
