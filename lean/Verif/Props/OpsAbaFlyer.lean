import Verif.Props.OpsAbaWitness

/-!
# A free-flying body

Six joints, so that the operational-space inertia of the last link is regular: a witness for the
hypotheses of C38, C39 and C53.
-/

namespace SpatialDyn
open Finset Body Matrix

/-- Joint types of the free-flying body. -/
def flyerType : ℕ → JType
  | 0 => .px
  | 1 => .py
  | 2 => .pz
  | 3 => .rx
  | 4 => .ry
  | _ => .rz

/-- A free-flying body in the given configuration, with the given cache, spinning. -/
noncomputable def flyer (q : List ℝ) (c : Cache) : Body where
  rbs := [{ ballRB .px with id := 0, idParent := -1 }, { ballRB .py with id := 1, idParent := 0 },
    { ballRB .pz with id := 2, idParent := 1 }, { ballRB .rx with id := 3, idParent := 2 },
    { ballRB .ry with id := 4, idParent := 3 }, { ballRB .rz with id := 5, idParent := 4 }]
  q := q
  dq := [1, 2, 3, 4, 5, 6]
  g := ⟨0, 0, -9.81⟩
  load := fun _ => none
  T0 := 1
  inertiaBase := ⟨1, 0, 0⟩
  anc := [[0], [0, 1], [0, 1, 2], [0, 1, 2, 3], [0, 1, 2, 3, 4], [0, 1, 2, 3, 4, 5]]
  sub := [[0, 1, 2, 3, 4, 5], [1, 2, 3, 4, 5], [2, 3, 4, 5], [3, 4, 5], [4, 5], [5]]
  c := c

/-- The calls that build it. -/
noncomputable def flyerOps : List Op :=
  [.addRigidBody (ballRB .px) (-1), .addRigidBody (ballRB .py) 0, .addRigidBody (ballRB .pz) 1,
   .addRigidBody (ballRB .rx) 2, .addRigidBody (ballRB .ry) 3, .addRigidBody (ballRB .rz) 4,
   .setDq [1, 2, 3, 4, 5, 6], .setQ [1, 0, 0, 0, 0, 0]]

/-- Cache of the flyer. -/
noncomputable def flyerCache : Cache :=
  ((((((((Body.init cache0).c.expand 0).expand 1).expand 2).expand 3).expand 4).expand 5).clearDq).clearQ

theorem flyer_exec (E : Ext) : execAll E (Body.init cache0) flyerOps =
    some (flyer [1, 0, 0, 0, 0, 0] flyerCache) := by
  simp [flyerOps, execAll, Op.exec, Op.step, addRigidBody, setQ, setDq, Out.map, Out.bind, Body.init,
    dof, pushSub, flyer, flyerCache]

/-- `set_q(0)` on it. -/
theorem flyer_setQ : (flyer [1, 0, 0, 0, 0, 0] flyerCache).setQ [0, 0, 0, 0, 0, 0] =
    .ok (flyer [0, 0, 0, 0, 0, 0] flyerCache.clearQ) := by
  simp [setQ, flyer, dof]

theorem flyer_reach (E : Ext) : ∃ d, Reach E (flyer [0, 0, 0, 0, 0, 0] flyerCache.clearQ) d := by
  refine reach_execAll (flyerOps ++ [.setQ [0, 0, 0, 0, 0, 0]]) (Reach.init cache0) ?_ (b' := _) ?_
  · intro op hop
    simp only [flyerOps, List.cons_append, List.nil_append, List.mem_cons, List.not_mem_nil,
      or_false] at hop
    rcases hop with rfl | rfl | rfl | rfl | rfl | rfl | rfl | rfl | rfl <;>
      first | trivial | exact Iso.valid_one
  · rw [exec_append, flyer_exec, Option.bind_some]
    simp [execAll, Op.exec, Op.step, flyer_setQ]

/-- The body of the witness. -/
noncomputable def flyer0 : Body := flyer [0, 0, 0, 0, 0, 0] flyerCache.clearQ

theorem flyer_joint (k : ℕ) (hk : k < 6) : (flyer0.rb k).joint = mkJoint (flyerType k) := by
  interval_cases k <;> rfl

theorem flyer_definite : flyer0.Definite := by
  refine ⟨fun k hk => ?_, fun k hk => ?_, fun k hk v hv => ?_, fun k hk L hL => ?_, fun k hk => ?_⟩
  all_goals (have hk : k < 6 := hk)
  · have : (flyer0.rb k).inertia = ball := by interval_cases k <;> rfl
    rw [this]; norm_num [ball]
  · have : (flyer0.rb k).inertia = ball := by interval_cases k <;> rfl
    rw [this]; exact ball_phys.2.1
  · have : (flyer0.rb k).inertia = ball := by interval_cases k <;> rfl
    rw [this]; exact ball_pd v hv
  · cases hL
  · rw [flyer_joint k hk]
    intro h
    have e : ∀ i, (flyerType k).subspace.entry i = 0 := by
      intro i
      rw [show (flyerType k).subspace = 0 from h]
      unfold Motion.entry
      split <;> rfl
    have := e k
    interval_cases k <;> simp [flyerType, JType.subspace, Motion.entry] at this

theorem flyer_par (k : ℕ) (hk : k < 6) : flyer0.fresh.par k = if k = 0 then none else some (k - 1) := by
  interval_cases k <;> rfl

theorem flyer_anc (k : ℕ) (hk : k < 6) (j : ℕ) (hj : j ≤ k) : Anc flyer0.fresh.par j k := by
  induction k with
  | zero => rw [Nat.le_zero.1 hj]; exact .refl
  | succ n ih =>
    rcases Nat.lt_or_ge j (n + 1) with h | h
    · exact .step (by rw [flyer_par _ hk]; simp) (ih (by omega) (by omega))
    · rw [show j = n + 1 by omega]; exact .refl

theorem flyer_tw (k : ℕ) (hk : k < 6) : flyer0.freshTw k = 1 := by
  obtain ⟨d, h⟩ := flyer_reach ext0
  have hTp : ∀ i < 6, flyer0.freshTp i = 1 := by
    intro i hi
    show (flyer0.rb i).T * (flyer0.rb i).joint.type.Tjoint (flyer0.pos i) = 1
    have e1 : (flyer0.rb i).T = 1 := by interval_cases i <;> rfl
    have e2 : flyer0.pos i = 0 := by interval_cases i <;> rfl
    rw [e1, e2, flyer_joint i hi]
    show 1 * (flyerType i).Tjoint 0 = 1
    rw [Tjoint_zero, one_mul]
  induction k with
  | zero =>
    have := worldLoop_spec (par := flyer0.par) (n := flyer0.dof) h.inv.tree.parLt flyer0.T0 flyer0.freshTp (fun _ => 1) 0 hk
    rw [show flyer0.par 0 = none from rfl] at this
    refine this.trans ?_
    simp only [hTp 0 hk]
    exact one_mul _
  | succ n ih =>
    have := worldLoop_spec (par := flyer0.par) (n := flyer0.dof) h.inv.tree.parLt flyer0.T0 flyer0.freshTp (fun _ => 1) (n + 1) hk
    rw [show flyer0.par (n + 1) = some n by exact (flyer_par (n + 1) hk).trans (by simp)] at this
    refine this.trans ?_
    simp only [hTp (n + 1) hk]
    rw [show worldLoop flyer0.dof flyer0.par flyer0.T0 flyer0.freshTp (fun _ => 1) n = 1 from
      ih (by omega)]
    exact one_mul _

/-- The Jacobian of the last link is the identity. -/
theorem flyer_jac {l : ℤ} (hl : flyer0.LinkIdx l 5) {J : (ℕ → Motion) × Body}
    (hJ : flyer0.jacobian l 0 = .ok J) :
    ∀ (i : Fin 6) (j : Fin flyer0.dof), jacM flyer0.dof J.1 i j = if i.1 = j.1 then 1 else 0 := by
  obtain ⟨d, h⟩ := flyer_reach ext0
  change Reach ext0 flyer0 d at h
  intro i j
  have hj : j.1 < 6 := j.2
  show (J.1 j).entry i = _
  rw [jacobian_val h.inv hl hJ j, flyer_tw 5 (by omega)]
  unfold Sys.Jw
  rw [if_pos (flyer_anc 5 (by omega) j (by omega))]
  unfold Sys.axis
  rw [fresh_Tw hj, flyer_tw j hj, Iso.one_actM,
    show flyer0.fresh.S j = (flyer0.rb j).joint.subspace from rfl, flyer_joint j hj]
  show Motion.entry (Motion.atPoint (flyerType j).subspace _) i = _
  obtain ⟨j, hj'⟩ := j
  simp only at hj ⊢
  interval_cases j <;> fin_cases i <;>
    simp [flyerType, JType.subspace, Motion.entry, Motion.atPoint, Vec3.cross, Iso.app, Mat3.mulVec]

/-- The hypotheses of C38, C39 and C53 hold for the free-flying body. -/
theorem flyer_meets : ∃ (d : Bool) (J : (ℕ → Motion) × Body) (K : DMat),
    (flyer [1, 0, 0, 0, 0, 0] flyerCache).setQ [0, 0, 0, 0, 0, 0] = .ok flyer0 ∧
    (flyer [1, 0, 0, 0, 0, 0] flyerCache).q ≠ [0, 0, 0, 0, 0, 0] ∧
    Careful ext0 Set.univ flyer0 d ∧ flyer0.Massive ∧
    DefiniteForm flyer0.dof flyer0.inertia.1 ∧ (∀ k, flyer0.load k = none) ∧
    flyer0.jacobian 5 0 = .ok J ∧ K.Is (jacM flyer0.dof J.1) ∧
    (flyer0.taskInv (jacM flyer0.dof J.1)).det ≠ 0 ∧
    (∀ e, Exact ext0 (flyer0.taskInv (jacM flyer0.dof J.1)) e) ∧
    ∀ e, ext0.pinv6 (flyer0.taskInv (jacM flyer0.dof J.1)) e =
      (flyer0.taskInv (jacM flyer0.dof J.1))⁻¹ := by
  obtain ⟨d, h⟩ := flyer_reach ext0
  change Reach ext0 flyer0 d at h
  have hd := flyer_definite
  have hl : flyer0.LinkIdx 5 5 := ⟨by show 5 < 6; omega, .inl rfl⟩
  obtain ⟨J, hJ⟩ := jacobian_total flyer0 hl 0
  refine ⟨d, J, ⟨6, flyer0.dof, fun i j => (J.1 j).entry i⟩, flyer_setQ, ?_, h.careful,
    hd.massive h.inv.tree, hd.form h, fun _ => rfl, hJ, ⟨rfl, rfl, fun i j => rfl⟩, ?_,
    fun e => ext0_exact _ e, fun _ => rfl⟩
  · simp [flyer]
  · refine C35_regular h hd fun v hv => ?_
    funext i
    have hi := congrFun hv (⟨i.1, i.2⟩ : Fin flyer0.dof)
    show v i = 0
    rw [← show ((jacM flyer0.dof J.1)ᵀ *ᵥ v) (⟨i.1, i.2⟩ : Fin flyer0.dof) = v i from ?_]
    · exact hi
    · show ∑ k, jacM flyer0.dof J.1 k ⟨i.1, i.2⟩ * v k = v i
      rw [sum_eq_single i]
      · rw [flyer_jac hl hJ, if_pos rfl, one_mul]
      · intro m _ hm
        rw [flyer_jac hl hJ, if_neg (fun c => hm (Fin.ext c)), zero_mul]
      · intro c; exact absurd (mem_univ i) c

end SpatialDyn
