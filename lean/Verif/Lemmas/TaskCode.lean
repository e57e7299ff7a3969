import Verif.Lemmas.Steer
import Verif.Lemmas.App
import Verif.Spec.TaskLoop

/-!
# The operational-space controller as a steering controller
-/

namespace SpatialDyn
open Finset Matrix OneStep Body

variable {E : Ext} {C : Ctl} {U : C.Quat → Prop} {b b' : Body} {d : Bool} {T : Set ℝ}

/-! ## Calls of the controller are careful -/

/-- A body with a careful history. -/
def Held (E : Ext) (T : Set ℝ) (b : Body) : Prop := ∃ d, Careful E T b d

theorem Held.query (h : Held E T b) {x : Query} (hx : x.Calm) (ht : (Op.query x).Tol T)
    {r : Ans × Body} (hr : x.run E b = .ok r) : Held E T r.2 := by
  obtain ⟨d, h⟩ := h
  exact ⟨_, .step (.query x) h (hx.safe _ _) ht (by simp [Op.exec, Op.step, hr, Out.map, Out.bind])⟩

theorem Held.position (h : Held E T b) {l : ℤ} {x : Vec3} {r : Vec3 × Body}
    (hr : b.position l x = .ok r) : Held E T r.2 :=
  h.query (x := .position l x) (r := (.vec3 r.1, r.2)) trivial trivial
    (by simp only [Query.run, hr, Out.map, Out.bind])

theorem Held.orientation (h : Held E T b) {l : ℤ} {r : Mat3 × Body}
    (hr : b.orientation l = .ok r) : Held E T r.2 :=
  h.query (x := .orientation l) (r := (.mat3 r.1, r.2)) trivial trivial
    (by simp only [Query.run, hr, Out.map, Out.bind])

theorem Held.jacobian (h : Held E T b) {l : ℤ} {x : Vec3} {r : (ℕ → Motion) × Body}
    (hr : b.jacobian l x = .ok r) : Held E T r.2 :=
  h.query (x := .jacobian l x) (r := (.cols (take b.dof r.1), r.2)) trivial trivial
    (by simp only [Query.run, hr, Out.map, Out.bind])

theorem Held.gravity (h : Held E T b) : Held E T b.gravity.2 :=
  h.query (x := .gravity) (r := (.vec (take b.dof b.gravity.1), b.gravity.2)) trivial trivial rfl

theorem Held.opsIsSingular (h : Held E T b) {J : DMat} {e : ℝ} {r : Bool × Body}
    (hr : b.opsIsSingular E J e = .ok r) : Held E T r.2 :=
  h.query (x := .opsIsSingular J e) (r := (.bool r.1, r.2)) trivial trivial
    (by simp only [Query.run, hr, Out.map, Out.bind])

theorem Held.opsTask (h : Held E T b) (h0 : (0 : ℝ) ∈ T) {J N : DMat} {x : ℕ → ℝ}
    {r : (ℕ → ℝ) × DMat × Body} (hr : b.opsTask E J x N = .ok r) : Held E T r.2.2 := by
  obtain ⟨s, hs, rfl⟩ := opsTask_eq hr
  exact h.query (r := (_, s.2.2)) (x := .opsInverseDynamics J x (some N) noExt false OpsOpts.make)
    trivial ⟨h0, fun _ => h0⟩ (by simp only [Query.run, hs, Out.map, Out.bind]; rfl)

theorem Held.integrate (h : Held E T b) {tau : ℕ → ℝ} {dt : ℝ} {f : FExt} {o : IntOpts}
    (hr : b.integrate E tau dt f o = .ok b') : Held E T b' := by
  obtain ⟨d, h⟩ := h
  exact ⟨_, .step (.integrate tau dt f o) h trivial trivial (by simp [Op.exec, Op.step, hr])⟩

theorem Held.set (h : Held E T b) {q dq : List ℝ} {b1 B : Body} (h1 : b.setQ q = .ok b1)
    (h2 : b1.setDq dq = .ok B) : Held E T B := by
  obtain ⟨d, h⟩ := h
  have g1 := Careful.step (b' := b1) (.setQ q) h trivial trivial (by simp [Op.exec, Op.step, h1])
  exact ⟨_, .step (.setDq dq) g1 trivial trivial (by simp [Op.exec, Op.step, h2])⟩

theorem Held.ctlMeasure (h : Held E T b) {a : CtlArgs C} {m : Measured × Body}
    (hr : b.ctlMeasure C a = .ok m) : Held E T m.2 := by
  obtain ⟨j, hj, hr⟩ := Out.bind_ok hr
  obtain ⟨x, hx, hr⟩ := Out.bind_ok hr
  obtain ⟨o, ho, hr⟩ := Out.bind_ok hr
  cases hr
  exact ((h.jacobian hj).position hx).orientation ho

theorem Held.ctlTask (h : Held E T b) (h0 : (0 : ℝ) ∈ T) {m : Measured}
    {t : (ℕ → ℝ) × DMat × (Bool × Bool) × Body} (hr : b.ctlTask E m = .ok t) : Held E T t.2.2.2 := by
  obtain ⟨s6, h6, hr⟩ := Out.bind_ok hr
  have g := h.opsIsSingular h6
  split at hr
  · obtain ⟨t', ht', hr⟩ := Out.bind_ok hr
    obtain ⟨s3, h3, hr⟩ := Out.bind_ok hr
    cases hr
    exact (g.opsTask h0 ht').opsIsSingular h3
  · obtain ⟨t', ht', hr⟩ := Out.bind_ok hr
    cases hr
    exact g.opsTask h0 ht'

theorem Held.ctlTorque (h : Held E T b) (h0 : (0 : ℝ) ∈ T) {a : CtlArgs C} {m : Measured}
    {t : (ℕ → ℝ) × (Bool × Bool) × Body} (hr : b.ctlTorque E C a m = .ok t) : Held E T t.2.2 := by
  obtain ⟨s, hs, hr⟩ := Out.bind_ok hr
  obtain ⟨ddq, -, hr⟩ := Out.bind_ok hr
  obtain ⟨j, hj, hr⟩ := Out.bind_ok hr
  have g := (h.ctlTask h0 hs).opsTask h0 hj
  dsimp only at hr
  split at hr
  · cases hr; exact g.gravity
  · cases hr; exact g

/-- The controller keeps histories careful. -/
theorem Held.opspaceControl (h : Held E T b) (h0 : (0 : ℝ) ∈ T) {a : CtlArgs C}
    {r : ((ℕ → ℝ) × ℕ) × Body} (hr : b.opspaceControl E C a = .ok r) : Held E T r.2 := by
  obtain ⟨m, hm, hr⟩ := Out.bind_ok hr
  obtain ⟨t, ht, hr⟩ := Out.bind_ok hr
  have g := (h.ctlMeasure hm).ctlTorque h0 ht
  dsimp only at hr
  split at hr
  · obtain ⟨b', hb', hr⟩ := Out.bind_ok hr
    cases hr
    exact g.integrate hb'
  · cases hr; exact g

/-! ## Measurements and torques at a state -/

/-- Torques sharing the joints between a task and a posture, in arrays. -/
noncomputable def shareTau (m n : ℕ) (M : ℕ → ℕ → ℝ) (J : ℕ → Motion) (g ddx ddq : ℕ → ℝ) :
    Fin n → ℝ :=
  let K : Matrix (Fin m) (Fin n) ℝ := Matrix.of fun i j => (J j).entry i
  toMat n M *ᵥ (dynInv (toMat n M)⁻¹ K *ᵥ vec m ddx + restProj K *ᵥ vec n ddq) + vec n g

/-- `J A⁻¹ Jᵀ` in arrays. -/
noncomputable def gramN (m n : ℕ) (M : ℕ → ℕ → ℝ) (J : ℕ → Motion) : Matrix (Fin m) (Fin m) ℝ :=
  projInv (toMat n M)⁻¹ (Matrix.of fun i j => (J j).entry i : Matrix (Fin m) (Fin n) ℝ)

namespace Body

theorem massM_fresh (h : Reach E b d) (hm : b.Massive) : b.massM = toMat b.dof b.fresh.massSpec := by
  ext i j
  exact inertia_entry h hm i j i.2 j.2

theorem AtState.reads {y : State b.dof} {B : Body} (hA : AtState E b y B) (hd : 0 < b.dof)
    {off : Vec3} {J : ℕ → Motion} {x : Vec3} {R : Mat3} (hR : B.Reads (-1) off J x R) :
    J = b.jacQ (b.dof - 1) off y.1 ∧ x = b.pointQ (b.dof - 1) off y.1 ∧
      R = (b.twAt (padFin y.1) (b.dof - 1)).R := by
  have hn : B.dof = b.dof := hA.dof
  have hL : B.LinkIdx (-1) (b.dof - 1) := by
    have := lastLink (b := B) (by rw [hn]; exact hd)
    rwa [hn] at this
  have htw : B.freshTw (b.dof - 1) = b.twAt (padFin y.1) (b.dof - 1) := by
    have hp : B.pos = padFin y.1 := by unfold Body.pos; rw [hA.q, getD_ofFn_pad]
    show B.twAt B.pos _ = _
    rw [hp]
    unfold Body.twAt Body.par Body.TpAt
    rw [hn, hA.rb, hA.only.T0]
  obtain ⟨⟨b1, j1⟩, ⟨b2, p1⟩, ⟨b3, o1⟩⟩ := hR
  obtain ⟨b4, p2⟩ := position_of_index hA.inv hL.index off
  obtain ⟨b5, o2⟩ := orientation_of_index hA.inv hL.index
  refine ⟨funext fun j => ?_, ?_, ?_⟩
  · have := jacobian_val hA.inv hL j1 j
    rw [htw, hA.fresh_eq] at this
    exact this
  · have := p1.symm.trans p2
    cases this
    rw [htw]; rfl
  · have := o1.symm.trans o2
    cases this
    rw [htw]

theorem AtState.dqPad {y : State b.dof} {B : Body} (hA : AtState E b y B) {n : ℕ} (hn : n = b.dof)
    (J : ℕ → Motion) : jacVel n J B.dqFun = jacVel b.dof J (padFin y.2) := by
  subst hn
  unfold jacVel
  refine sum_congr rfl fun j hj => ?_
  have := hA.dqFun ⟨j, mem_range.1 hj⟩
  rw [this]
  congr 1
  unfold padFin
  rw [dif_pos (mem_range.1 hj)]

/-- `IsSingular` depends on the configuration only. -/
theorem AtState.singular {y : State b.dof} {B : Body} (hA : AtState E b y B) {d' : Bool}
    (hB : Reach E B d') (hD : b.Definite) (h0 : 0 < b.dof) (m : ℕ) (k : ℕ) (x : Vec3) (e : ℝ) :
    B.Singular E ⟨m, b.dof, fun i j => (b.jacQ k x y.1 j).entry i⟩ e ↔
      (E.pinv (DMat.ofM (projInv (b.massQ y.1)⁻¹ (b.rowsQ m k x y.1))) e).2 = true := by
  have hn : B.dof = b.dof := hA.dof
  have hDB := hA.only.definite hD
  have hmB := hDB.massive hB.inv.tree
  set J : DMat := ⟨m, b.dof, fun i j => (b.jacQ k x y.1 j).entry i⟩ with hJ
  obtain ⟨l, hl⟩ := opsInertia_total (e := e) hB.inv (J := J) hn.symm (by omega)
  have hdet : PosMat B.massM := (hDB.form hB).mat
  have h1 := (opsInertia_eq hB.inv hdet (J := J) (m := m)
    (JM := Matrix.of fun i j => (b.jacQ k x y.1 j).entry i) ⟨rfl, hn.symm, fun _ _ => rfl⟩ hl).2
  have h2 : B.taskInv (Matrix.of fun i j => (b.jacQ k x y.1 j).entry i : Matrix (Fin m) (Fin B.dof) ℝ) =
      projInv (b.massQ y.1)⁻¹ (b.rowsQ m k x y.1) := by
    unfold taskInv
    rw [massM_fresh hB hmB, hA.fresh_eq]
    change gramN m B.dof _ (b.jacQ k x y.1) = _
    rw [hn]
    rfl
  rw [h2] at h1
  rw [← h1]
  have h3 : B.opsIsSingular E J e = .ok (l.2.c.ops.singular, l.2) := by
    unfold opsIsSingular; rw [hl]; rfl
  unfold Singular
  rw [h3]
  constructor
  · rintro ⟨b', hb⟩
    simp only [Out.ok.injEq, Prod.mk.injEq] at hb
    exact hb.1
  · intro h; exact ⟨_, by rw [h]⟩

/-- Error of the task: position and (scaled) orientation. -/
noncomputable def errQ (C : Ctl) (b : Body) (a : CtlArgs C) (c : ℝ) (m : ℕ) (q : Fin b.dof → ℝ) :
    Fin m → ℝ := fun i =>
  (⟨b.pointQ (b.dof - 1) a.xTask q - a.xDes,
    c⁻¹ • C.oriErr (C.ofRot (b.twAt (padFin q) (b.dof - 1)).R) a.quatDes⟩ : Motion).entry i

/-- Its gains. -/
def gainP (a : CtlArgs C) (c : ℝ) (m : ℕ) (i : Fin m) : ℝ :=
  (⟨a.kpKvPos.1, ⟨c * a.kpKvOri.1, c * a.kpKvOri.1, c * a.kpKvOri.1⟩⟩ : Motion).entry i

def gainV (a : CtlArgs C) (m : ℕ) (i : Fin m) : ℝ :=
  (⟨a.kpKvPos.2, ⟨a.kpKvOri.2, a.kpKvOri.2, a.kpKvOri.2⟩⟩ : Motion).entry i

/-- The accelerations asked for. -/
noncomputable def accQ (b : Body) (a : CtlArgs C) (c : ℝ) (m : ℕ) : State b.dof → Fin b.dof → ℝ :=
  opAcc (fun q => (b.massQ q)⁻¹) (b.rowsQ m (b.dof - 1) a.xTask) (errQ C b a c m) (gainP a c m)
    (gainV a m) (vecOf b.dof a.qDes) a.kpKvJoint.1 a.kpKvJoint.2

/-- Does `IsSingular` answer yes? -/
def singQ (E : Ext) (b : Body) (off : Vec3) (q : Fin b.dof → ℝ) : Prop :=
  (E.pinv (DMat.ofM (projInv (b.massQ q)⁻¹ (b.rowsQ 6 (b.dof - 1) off q))) 0.01).2 = true

theorem AtState.opspace {y : State b.dof} {B : Body} (hA : AtState E b y B) (hH : Held E T B)
    (h : Reach E b d) (hD : b.Definite) (h0 : (0 : ℝ) ∈ T) (hE : ∀ e ∈ T, E.LeastSquares e)
    (hL : C.Law U) (hd : 0 < b.dof) {a : CtlArgs C} (ha1 : a.ddxMax ≤ 0) (ht : a.quatTask = none)
    (hg : a.gravityComp = true) (hq : a.qDes.length = b.dof) {m : ℕ} {c : ℝ} (hc : c ≠ 0)
    (hmode : (m = 3 ∧ singQ E b a.xTask y.1) ∨ (m = 6 ∧ ¬ singQ E b a.xTask y.1 ∧ a.dwMax ≤ 0))
    (hX : (projInv (b.massQ y.1)⁻¹ (b.rowsQ m (b.dof - 1) a.xTask y.1)).det ≠ 0) :
    ∃ r, B.opspaceControl E C a = .ok r ∧ vec b.dof r.1.1 = b.tauOf (accQ b a c m) y ∧ Held E T r.2 ∧
      (0 < a.dt → AtState E b
        (rk4 (fun z => b.plant true (b.tauOf (accQ b a c m) y, z)) id a.dt y) r.2) := by
  have hn : B.dof = b.dof := hA.dof
  have hDB := hA.only.definite hD
  obtain ⟨d', hB⟩ := id hH
  have hmB := hDB.massive hB.inv.tree
  have hm := hD.massive h.inv.tree
  obtain ⟨r, hr⟩ := C51_answers (E := E) hB.reach hmB (by omega) a (by rw [hn]; exact hq)
  refine ⟨r, hr, ?_⟩
  obtain ⟨ms, t, hme, htq, s1, s2, hr1, h6, -, -, hint⟩ := opspaceControl_run hB.inv (by omega) hr
  obtain ⟨-, ops, J, x, R, hR, hm'⟩ := ctlMeasure_run hB.inv hme
  obtain ⟨eJ, eX, eR⟩ := hA.reads hd hR
  have hJ : ms.1.J = b.jacQ (b.dof - 1) a.xTask y.1 := by rw [hm', ht, ← eJ]; rfl
  have hsing : t.2.1.1 = true ↔ singQ E b a.xTask y.1 := by
    rw [h6, hJ, hn]
    exact hA.singular hB.reach hD hd 6 _ _ _
  set σ := b.sysAt (padFin y.1) (padFin y.2) with hσ
  have hMB : B.massM = toMat B.dof σ.massSpec := by
    rw [massM_fresh hB.reach hmB, hA.fresh_eq]
  have hXB : (gramN m B.dof σ.massSpec (b.jacQ (b.dof - 1) a.xTask y.1)).det ≠ 0 := by
    rw [hn]; exact hX
  -- the matrix of the task
  have hK : (⟨m, B.dof, fun i j => (b.jacQ (b.dof - 1) a.xTask y.1 j).entry i⟩ : DMat) =
      if t.2.1.1 then jac3 B.dof ms.1.J else jac6 B.dof ms.1.J := by
    rw [hJ]
    rcases hmode with ⟨rfl, hs⟩ | ⟨rfl, hs, -⟩
    · rw [if_pos (hsing.2 hs)]; rfl
    · rw [if_neg (fun e => hs (hsing.1 e))]; rfl
  have hXB' : (B.taskInv ((⟨m, B.dof, fun i j => (b.jacQ (b.dof - 1) a.xTask y.1 j).entry i⟩ :
      DMat).mat m B.dof)).det ≠ 0 := by
    unfold taskInv; rw [hMB]; exact hXB
  have key := ctlTorque_shares hB hDB h0 (hE 0 h0) s1 (by rw [ops]; exact hB.tol) htq hK
    ⟨rfl, hXB', fun e he => (hE e he).exact hXB'⟩
  have key := key.eq (massM_symm hB.reach hmB) (hDB.form hB.reach).det_ne
    (fun v hv => effort_pos hB.reach hDB hv) hXB'
  rw [if_pos hg] at key
  have hdet : PosMat B.massM := (hDB.form hB.reach).mat
  have key := congrArg (B.massM *ᵥ ·) key
  dsimp only at key
  rw [Matrix.mulVec_mulVec, Matrix.mul_nonsing_inv _ (Ne.isUnit hdet.det_ne), Matrix.one_mulVec] at key
  have key := sub_eq_iff_eq_add.1 key
  rw [show a.kpKvJoint = (a.kpKvJoint.1, a.kpKvJoint.2) from rfl,
    hL.pdN_acc _ _ _ _ _ _ _ le_rfl, hA.fresh_eq, hMB] at key
  change vec B.dof t.1 = shareTau m B.dof σ.massSpec (b.jacQ (b.dof - 1) a.xTask y.1) σ.gravitySpec
    (ddxDw ms.1.pos.1 ms.1.ori.1)
    (fun i => -(a.kpKvJoint.1 * (B.q.getD i 0 - a.qDes.getD i 0)) - a.kpKvJoint.2 * B.dq.getD i 0) at key
  rw [hn] at key
  -- the laws
  have e1 : vec b.dof (fun i => -(a.kpKvJoint.1 * (B.q.getD i 0 - a.qDes.getD i 0)) -
      a.kpKvJoint.2 * B.dq.getD i 0) = pdLaw (vecOf b.dof a.qDes) a.kpKvJoint.1 a.kpKvJoint.2 y := by
    funext i
    have e1 := hA.qFun i
    have e2 := hA.dqFun i
    unfold Body.qFun at e1
    unfold Body.dqFun at e2
    simp only [vec, pdLaw, vecOf, e1, e2, Pi.sub_apply, Pi.neg_apply, Pi.smul_apply, smul_eq_mul]
  have hV : jacVel B.dof J B.dqFun =
      jacVel b.dof (b.jacQ (b.dof - 1) a.xTask y.1) (padFin y.2) := by
    rw [hA.dqPad hn, eJ]
  have e2 : vec m (ddxDw ms.1.pos.1 ms.1.ori.1) = taskLaw (gainP a c m) (gainV a m)
      (errQ C b a c m y.1) (b.rowsQ m (b.dof - 1) a.xTask y.1 *ᵥ y.2) := by
    have hp : ms.1.pos.1 = -a.kpKvPos.1.had (b.pointQ (b.dof - 1) a.xTask y.1 - a.xDes) -
        a.kpKvPos.2.had (jacVel b.dof (b.jacQ (b.dof - 1) a.xTask y.1) (padFin y.2)).lin := by
      rw [hm', ht, eX, hV]
      exact hL.pd3_acc _ _ _ _ _ _ ha1
    funext i
    unfold taskLaw
    rw [rowsQ_mulVec]
    rcases hmode with ⟨rfl, -⟩ | ⟨rfl, -, ha2⟩
    · show (⟨ms.1.pos.1, ms.1.ori.1⟩ : Motion).entry i = _
      rw [hp]
      fin_cases i <;> simp [gainP, gainV, errQ, Motion.entry, Vec3.had]
    · show (⟨ms.1.pos.1, ms.1.ori.1⟩ : Motion).entry i = _
      have ho : ms.1.ori.1 = -(a.kpKvOri.1 •
          C.oriErr (C.ofRot (b.twAt (padFin y.1) (b.dof - 1)).R) a.quatDes) -
          a.kpKvOri.2 • (jacVel b.dof (b.jacQ (b.dof - 1) a.xTask y.1) (padFin y.2)).ang := by
        rw [hm', ht, eR, hV]
        dsimp only
        rw [show a.kpKvOri = (a.kpKvOri.1, a.kpKvOri.2) from rfl, hL.pdQ_acc _ _ _ _ _ _ ha2,
          hL.pdQ_err _ _ _ _ _ 0 (0, 0) 0]
        rfl
      rw [hp, ho]
      fin_cases i <;> simp [gainP, gainV, errQ, Motion.entry, Vec3.had] <;> field_simp
  have htau : vec b.dof t.1 = b.tauOf (accQ b a c m) y := by
    rw [key]
    unfold shareTau
    dsimp only
    rw [e1, e2]
    rfl
  refine ⟨by rw [hr1]; exact htau, hH.opspaceControl h0 hr, fun hdt => ?_⟩
  obtain ⟨b2, k1, k2⟩ := (hA.step s2).integrate h.inv hm.symI (hm.posMass h.inv.tree) (c := cache0)
    (by constructor <;> rfl) t.1 a.dt noExt IntOpts.make
  have hb2 : b2 = r.2 := Out.ok.inj (k1.symm.trans (hint hdt))
  rw [hb2] at k2
  have hid : b.codeFilter (IntOpts.make).jointLimits = id := by
    funext z
    unfold codeFilter
    simp [IntOpts.make]
  rw [hid, field_plant h hD (by constructor <;> rfl) rfl rfl (.inl rfl) htau] at k2
  exact k2

end Body
end SpatialDyn
