import Verif.Props.LeastEnergy

/-! C125: how the accelerations respond to torques and forces. -/

namespace SpatialDyn
open Finset Matrix Body

variable {E : Ext} {b : Body} {d : Bool}

/-- C125: the change of the accelerations from one set of torques and external forces to another is what the
change of the torques and forces alone would cause through `Inertia`: against any test motion `v`, the power
of the change is the inertia form of `v` with the change of the accelerations. -/
theorem C125_response (h : Reach E b d) (hm : b.Massive) (hn : DefiniteForm b.dof b.inertia.1)
    (tau tau' : ℕ → ℝ) (f f' : FExt) (o : FDOpts) (hf : o.friction = false) (v : ℕ → ℝ) {x : ℕ → Motion}
    {T : ℕ → Iso} (hx : ∀ k < b.dof, b.LinkVel v k (x k))
    (hT : ∀ k < b.dof, (b.tToWorld k).map Prod.fst = .ok (T k)) :
    ∑ i ∈ range b.dof, v i * (tau' i - tau i) +
      ∑ k ∈ range b.dof, ((T k).actM (x k)).dot ((f' k).getD 0 - (f k).getD 0) =
    ∑ i ∈ range b.dof, ∑ j ∈ range b.dof, v i * b.inertia.1 i j *
      ((b.fd E tau' f' o).1 j - (b.fd E tau f o).1 j) := by
  have hk : ∀ i < b.dof, ∑ j ∈ range b.dof, b.inertia.1 i j * ((b.fd E tau' f' o).1 j - (b.fd E tau f o).1 j) =
      tau' i - tau i + b.fresh.genForce (fun k => (f' k).getD 0 - (f k).getD 0) i := by
    intro i hi
    have e1 := fd_solves h hm hn tau' f' o i hi
    have e0 := fd_solves h hm hn tau f o i hi
    unfold Sys.fdRhs Sys.idSpec Sys.extSpec at e1 e0
    simp only [hf, Bool.false_eq_true, if_false] at e1 e0
    have : ∑ j ∈ range b.dof, b.inertia.1 i j * ((b.fd E tau' f' o).1 j - (b.fd E tau f o).1 j) =
        ∑ j ∈ range b.dof, b.fresh.massSpec i j * (b.fd E tau' f' o).1 j -
        ∑ j ∈ range b.dof, b.fresh.massSpec i j * (b.fd E tau f o).1 j := by
      rw [← sum_sub_distrib]
      refine sum_congr rfl fun j hj => ?_
      rw [inertia_entry h hm i j hi (mem_range.1 hj)]
      ring
    rw [this, Sys.genForce_sub]
    linarith
  have e2 : ∑ i ∈ range b.dof, ∑ j ∈ range b.dof, v i * b.inertia.1 i j *
      ((b.fd E tau' f' o).1 j - (b.fd E tau f o).1 j) =
      ∑ i ∈ range b.dof, v i * (tau' i - tau i) +
        ∑ i ∈ range b.dof, v i * b.fresh.genForce (fun k => (f' k).getD 0 - (f k).getD 0) i := by
    rw [← sum_add_distrib]
    refine sum_congr rfl fun i hi => ?_
    rw [← mul_add, ← hk i (mem_range.1 hi), mul_sum]
    exact sum_congr rfl fun j _ => by ring
  rw [e2]
  congr 1
  refine Eq.trans ?_ (Sys.genForce_power (σ := b.fresh) v _).symm
  refine sum_congr rfl fun k hk => ?_
  have hk := mem_range.1 hk
  have hTk : T k = b.freshTw k := by
    have := hT k hk
    unfold Body.tToWorld at this
    rw [index_ofNat hk] at this
    have := Out.ok.inj this
    rw [← this, h.inv.viewTw k hk]
  rw [hTk, (hx k hk).world h.inv hk]

/-- C125: reciprocity.  Two changes of the torques and forces, from any starting points: the power of the
first on the response to the second is the power of the second on the response to the first. -/
theorem C125_reciprocity (h : Reach E b d) (hm : b.Massive) (hn : DefiniteForm b.dof b.inertia.1)
    (t1 t1' t2 t2' : ℕ → ℝ) (f1 f1' f2 f2' : FExt) (o1 o2 : FDOpts) (ho1 : o1.friction = false)
    (ho2 : o2.friction = false) {u1 u2 : ℕ → ℝ} {x1 x2 : ℕ → Motion} {T : ℕ → Iso}
    (hu1 : ∀ i < b.dof, u1 i = (b.fd E t1' f1' o1).1 i - (b.fd E t1 f1 o1).1 i)
    (hu2 : ∀ i < b.dof, u2 i = (b.fd E t2' f2' o2).1 i - (b.fd E t2 f2 o2).1 i)
    (hx1 : ∀ k < b.dof, b.LinkVel u1 k (x1 k)) (hx2 : ∀ k < b.dof, b.LinkVel u2 k (x2 k))
    (hT : ∀ k < b.dof, (b.tToWorld k).map Prod.fst = .ok (T k)) :
    ∑ i ∈ range b.dof, u2 i * (t1' i - t1 i) +
      ∑ k ∈ range b.dof, ((T k).actM (x2 k)).dot ((f1' k).getD 0 - (f1 k).getD 0) =
    ∑ i ∈ range b.dof, u1 i * (t2' i - t2 i) +
      ∑ k ∈ range b.dof, ((T k).actM (x1 k)).dot ((f2' k).getD 0 - (f2 k).getD 0) := by
  rw [C125_response h hm hn t1 t1' f1 f1' o1 ho1 u2 hx2 hT, C125_response h hm hn t2 t2' f2 f2' o2 ho2 u1 hx1 hT]
  rw [sum_comm]
  refine sum_congr rfl fun j hj => sum_congr rfl fun i hi => ?_
  have hi := mem_range.1 hi
  have hj := mem_range.1 hj
  rw [← hu1 j hj, ← hu2 i hi, C24_symmetric h hm i j hi hj]
  ring

/-- C125: a push is never answered by a motion against it. -/
theorem C125_passive (h : Reach E b d) (hd : b.Definite) (tau tau' : ℕ → ℝ) (f f' : FExt) (o : FDOpts)
    (hf : o.friction = false) {u : ℕ → ℝ} {x : ℕ → Motion} {T : ℕ → Iso}
    (hu : ∀ i < b.dof, u i = (b.fd E tau' f' o).1 i - (b.fd E tau f o).1 i)
    (hx : ∀ k < b.dof, b.LinkVel u k (x k)) (hT : ∀ k < b.dof, (b.tToWorld k).map Prod.fst = .ok (T k)) :
    0 ≤ ∑ i ∈ range b.dof, u i * (tau' i - tau i) +
      ∑ k ∈ range b.dof, ((T k).actM (x k)).dot ((f' k).getD 0 - (f k).getD 0) ∧
    ((∃ i < b.dof, (b.fd E tau' f' o).1 i ≠ (b.fd E tau f o).1 i) →
      0 < ∑ i ∈ range b.dof, u i * (tau' i - tau i) +
        ∑ k ∈ range b.dof, ((T k).actM (x k)).dot ((f' k).getD 0 - (f k).getD 0)) := by
  have e : b.gap (b.fd E tau' f' o).1 (b.fd E tau f o).1 = ∑ i ∈ range b.dof, u i * (tau' i - tau i) +
      ∑ k ∈ range b.dof, ((T k).actM (x k)).dot ((f' k).getD 0 - (f k).getD 0) := by
    rw [C125_response h (hd.massive h.inv.tree) (hd.form h) tau tau' f f' o hf u hx hT]
    refine sum_congr rfl fun i hi => sum_congr rfl fun j _ => ?_
    rw [hu i (mem_range.1 hi)]
  rw [← e]
  exact ⟨gap_nonneg h hd _ _, fun hne => gap_pos h hd hne⟩

/-- C125: superposition.  Equal changes of the torques and forces change the accelerations equally, whatever
the starting point, and whether or not gravity and velocity products are counted. -/
theorem C125_superposition (h : Reach E b d) (hm : b.Massive) (hn : DefiniteForm b.dof b.inertia.1)
    (c : ℝ) (t1 t1' t2 t2' t3 t3' : ℕ → ℝ) (f1 f1' f2 f2' f3 f3' : FExt) (o1 o2 o3 : FDOpts)
    (ho1 : o1.friction = false) (ho2 : o2.friction = false) (ho3 : o3.friction = false)
    (ht : ∀ i < b.dof, t3' i - t3 i = c * (t1' i - t1 i) + (t2' i - t2 i))
    (hf : ∀ k < b.dof, (f3' k).getD 0 - (f3 k).getD 0 =
      c • ((f1' k).getD 0 - (f1 k).getD 0) + ((f2' k).getD 0 - (f2 k).getD 0)) (i : ℕ) (hi : i < b.dof) :
    (b.fd E t3' f3' o3).1 i - (b.fd E t3 f3 o3).1 i =
      c * ((b.fd E t1' f1' o1).1 i - (b.fd E t1 f1 o1).1 i) +
        ((b.fd E t2' f2' o2).1 i - (b.fd E t2 f2 o2).1 i) := by
  choose! T hT using fun (k : ℕ) (hk : k < b.dof) => show ∃ T, (b.tToWorld k).map Prod.fst = .ok T by
    unfold Body.tToWorld
    rw [index_ofNat hk]
    exact ⟨_, rfl⟩
  have key : ∀ v : ℕ → ℝ, ∑ i ∈ range b.dof, ∑ j ∈ range b.dof, v i * b.inertia.1 i j *
      (((b.fd E t3' f3' o3).1 j - (b.fd E t3 f3 o3).1 j) -
        (c * ((b.fd E t1' f1' o1).1 j - (b.fd E t1 f1 o1).1 j) +
        ((b.fd E t2' f2' o2).1 j - (b.fd E t2 f2 o2).1 j))) = 0 := by
    intro v
    choose! x hx using linkVel_exists h.inv.tree v
    have e1 := C125_response h hm hn t1 t1' f1 f1' o1 ho1 v hx hT
    have e2 := C125_response h hm hn t2 t2' f2 f2' o2 ho2 v hx hT
    have e3 := C125_response h hm hn t3 t3' f3 f3' o3 ho3 v hx hT
    have s1 : ∑ i ∈ range b.dof, v i * (t3' i - t3 i) = c * ∑ i ∈ range b.dof, v i * (t1' i - t1 i) +
        ∑ i ∈ range b.dof, v i * (t2' i - t2 i) := by
      rw [mul_sum, ← sum_add_distrib]
      exact sum_congr rfl fun i hi => by rw [ht i (mem_range.1 hi)]; ring
    have s2 : ∑ k ∈ range b.dof, ((T k).actM (x k)).dot ((f3' k).getD 0 - (f3 k).getD 0) =
        c * ∑ k ∈ range b.dof, ((T k).actM (x k)).dot ((f1' k).getD 0 - (f1 k).getD 0) +
        ∑ k ∈ range b.dof, ((T k).actM (x k)).dot ((f2' k).getD 0 - (f2 k).getD 0) := by
      rw [mul_sum, ← sum_add_distrib]
      exact sum_congr rfl fun k hk => by rw [hf k (mem_range.1 hk), Motion.dot_add, Motion.dot_smul]
    have s3 : ∀ y z w : ℕ → ℝ, ∑ i ∈ range b.dof, ∑ j ∈ range b.dof, v i * b.inertia.1 i j * (y j - (c * z j + w j)) =
        ∑ i ∈ range b.dof, ∑ j ∈ range b.dof, v i * b.inertia.1 i j * y j -
        (c * ∑ i ∈ range b.dof, ∑ j ∈ range b.dof, v i * b.inertia.1 i j * z j +
        ∑ i ∈ range b.dof, ∑ j ∈ range b.dof, v i * b.inertia.1 i j * w j) := by
      intro y z w
      rw [mul_sum, ← sum_add_distrib, ← sum_sub_distrib]
      refine sum_congr rfl fun i _ => ?_
      rw [mul_sum, ← sum_add_distrib, ← sum_sub_distrib]
      exact sum_congr rfl fun j _ => by ring
    rw [s3 (fun j => (b.fd E t3' f3' o3).1 j - (b.fd E t3 f3 o3).1 j)
      (fun j => (b.fd E t1' f1' o1).1 j - (b.fd E t1 f1 o1).1 j)
      (fun j => (b.fd E t2' f2' o2).1 j - (b.fd E t2 f2 o2).1 j), ← e1, ← e2, ← e3, s1, s2]
    ring
  have hz : b.massM *ᵥ vec b.dof (fun j => (((b.fd E t3' f3' o3).1 j - (b.fd E t3 f3 o3).1 j) -
        (c * ((b.fd E t1' f1' o1).1 j - (b.fd E t1 f1 o1).1 j) +
        ((b.fd E t2' f2' o2).1 j - (b.fd E t2 f2 o2).1 j)))) = 0 := by
    funext k
    have := key fun i => if i = (k : ℕ) then 1 else 0
    simp only [ite_mul, one_mul, zero_mul] at this
    rw [sum_eq_single_of_mem (k : ℕ) (mem_range.2 k.2) (fun i _ hne => by simp [hne])] at this
    simp only [if_true] at this
    rw [← Fin.sum_univ_eq_sum_range fun j => b.inertia.1 k j * (((b.fd E t3' f3' o3).1 j - (b.fd E t3 f3 o3).1 j) -
        (c * ((b.fd E t1' f1' o1).1 j - (b.fd E t1 f1 o1).1 j) +
        ((b.fd E t2' f2' o2).1 j - (b.fd E t2 f2 o2).1 j)))] at this
    exact this
  have hdet : PosMat b.massM := hn.mat
  have := Matrix.eq_zero_of_mulVec_eq_zero hdet.det_ne hz
  have := congrFun this ⟨i, hi⟩
  exact sub_eq_zero.1 this

/-- C125: `ForwardDynamicsAba` responds as `ForwardDynamics` does, on any base. -/
theorem C125_aba (h : Reach E b d) (hd : b.Definite) (tau tau' : ℕ → ℝ) (f f' : FExt) (o : FDOpts)
    (hf : o.friction = false) (i : ℕ) (hi : i < b.dof) :
    (b.forwardDynamicsAba tau' f' o).1 i - (b.forwardDynamicsAba tau f o).1 i =
      (b.fd E tau' f' o).1 i - (b.fd E tau f o).1 i := by
  have hm := hd.massive h.inv.tree
  have hn := hd.form h
  rw [C30_aba_base h hm hn tau' f' o hf i hi, C30_aba_base h hm hn tau f o hf i hi]
  have h' : Reach E (b.setG (b.T0.R.mulVec b.g)) _ := h.step (.setG (b.T0.R.mulVec b.g)) trivial rfl
  have hm' : (b.setG (b.T0.R.mulVec b.g)).Massive := ⟨hm.symm, hm.nonneg, hm.merge, hm.tree⟩
  have hn' : DefiniteForm (b.setG (b.T0.R.mulVec b.g)).dof (b.setG (b.T0.R.mulVec b.g)).inertia.1 :=
    hn.congr fun i hi j hj => by
      rw [inertia_entry h hm i j hi hj, inertia_entry h' hm' i j hi hj]
      rfl
  have e1 := fd_matrix h hm hn tau' f' o hf
  have e0 := fd_matrix h hm hn tau f o hf
  have hM : (b.setG (b.T0.R.mulVec b.g)).massM = b.massM := by
    ext i j
    exact (inertia_entry h' hm' i j i.2 j.2).trans (inertia_entry h hm i j i.2 j.2).symm
  have g : ∀ (t : ℕ → ℝ) (f : FExt), vec b.dof ((b.setG (b.T0.R.mulVec b.g)).fd E t f o).1 =
      b.massM⁻¹ *ᵥ (vec b.dof t - vec b.dof
        ((b.setG (b.T0.R.mulVec b.g)).fresh.idSpec (fun _ => 0) f o.cc o.gravity)) := by
    intro t f
    have := fd_matrix h' hm' hn' t f o hf
    rw [hM] at this
    exact this
  have key : vec b.dof ((b.setG (b.T0.R.mulVec b.g)).fd E tau' f' o).1 -
      vec b.dof ((b.setG (b.T0.R.mulVec b.g)).fd E tau f o).1 =
      vec b.dof (b.fd E tau' f' o).1 - vec b.dof (b.fd E tau f o).1 := by
    rw [e1, e0, g, g, ← Matrix.mulVec_sub, ← Matrix.mulVec_sub]
    congr 1
    funext j
    simp only [Pi.sub_apply, vec, Sys.idSpec]
    have e : ∀ f, (b.setG (b.T0.R.mulVec b.g)).fresh.extSpec f = b.fresh.extSpec f := fun _ => rfl
    rw [e, e]
    ring
  exact congrFun key ⟨i, hi⟩

/-- A robot with a load, pushed at one link and driven at another joint, meets the hypotheses. -/
example (E : Ext) (F : Force) (c : ℝ) (o : FDOpts) : ∃ (d : Bool) (f' : FExt) (t' u1 u2 : ℕ → ℝ)
    (x1 x2 : ℕ → Motion) (T : ℕ → Iso), Reach E demoLoaded d ∧ demoLoaded.Definite ∧ demoLoaded.Massive ∧
    DefiniteForm demoLoaded.dof demoLoaded.inertia.1 ∧ f' 2 = some F ∧ t' 0 = c ∧
    (∀ i < demoLoaded.dof, u1 i = (demoLoaded.fd E 0 f' o).1 i - (demoLoaded.fd E 0 (fun _ => none) o).1 i) ∧
    (∀ i < demoLoaded.dof, u2 i = (demoLoaded.fd E t' (fun _ => none) o).1 i -
      (demoLoaded.fd E 0 (fun _ => none) o).1 i) ∧
    (∀ k < demoLoaded.dof, demoLoaded.LinkVel u1 k (x1 k)) ∧ (∀ k < demoLoaded.dof, demoLoaded.LinkVel u2 k (x2 k)) ∧
    ∀ k < demoLoaded.dof, (demoLoaded.tToWorld k).map Prod.fst = .ok (T k) := by
  obtain ⟨d, h⟩ := demoLoaded_reach E
  choose! x1 hx1 using linkVel_exists h.inv.tree fun i =>
    (demoLoaded.fd E 0 (fun k => if k = 2 then some F else none) o).1 i - (demoLoaded.fd E 0 (fun _ => none) o).1 i
  choose! x2 hx2 using linkVel_exists h.inv.tree fun i =>
    (demoLoaded.fd E (fun i => if i = 0 then c else 0) (fun _ => none) o).1 i -
      (demoLoaded.fd E 0 (fun _ => none) o).1 i
  refine ⟨d, _, _, _, _, x1, x2, fun k => demoLoaded.viewTw k, h, demoLoaded_definite,
    demoLoaded_definite.massive h.inv.tree, demoLoaded_definite.form h, if_pos rfl, if_pos rfl,
    fun _ _ => rfl, fun _ _ => rfl, hx1, hx2, fun k hk => ?_⟩
  unfold Body.tToWorld
  rw [index_ofNat hk]
  rfl

end SpatialDyn
