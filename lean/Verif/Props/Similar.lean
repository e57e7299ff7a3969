import Verif.Lemmas.Similar
import Verif.Props.Weld
import Verif.Props.Rescale
import Verif.Props.Options

/-!
# C134: mirror images, and other units of length

`φ.Similar b b'`: lengths of `b'` are `ℓ` times those of `b`, and some coordinate axes are turned around;
`φ.joint b i` is what the position of joint `i` is multiplied by.  Torques are multiplied by `ℓ²` over
that.
-/

namespace SpatialDyn
open Finset Body

variable {E : Ext} {φ : Similarity} {b b' : Body} {d d' : Bool}

/-- C134: every link is where the image of the robot has it. -/
theorem C134_pose (h : Reach E b d) (h' : Reach E b' d') (hs : φ.Similar b b') {k : ℕ} (hk : k < b.dof) :
    ∃ T, (b.tToWorld (k : ℕ)).map Prod.fst = .ok T ∧
      (b'.tToWorld (k : ℕ)).map Prod.fst = .ok ⟨φ.rot T.R, φ.vec T.t⟩ := by
  have key : ∀ {b : Body} {d : Bool}, Reach E b d → ∀ {k : ℕ}, k < b.dof →
      (b.tToWorld (k : ℕ)).map Prod.fst = .ok (b.freshTw k) := by
    intro b d h k hk
    unfold Body.tToWorld
    rw [index_ofNat hk]
    show Out.ok _ = _
    rw [h.inv.viewTw k hk]
  refine ⟨_, key h hk, ?_⟩
  rw [key h' (hs.dof ▸ hk), hs.tw h.inv.tree h'.inv.tree hk]
  rfl

/-- C134: a point of a link and its image have images of each other as Jacobians. -/
theorem C134_jacobian (h : Reach E b d) (h' : Reach E b' d') (hs : φ.Similar b b') {k : ℕ}
    (hk : k < b.dof) (x : Vec3) :
    ∃ J J', b.jacobian (k : ℕ) x = .ok J ∧ b'.jacobian (k : ℕ) (φ.vec x) = .ok J' ∧
      ∀ j < b.dof, φ.joint b j • J'.1 j = φ.motion (J.1 j) := by
  have hl : b.LinkIdx k k := ⟨hk, .inl rfl⟩
  have hl' : b'.LinkIdx k k := ⟨hs.dof ▸ hk, .inl rfl⟩
  obtain ⟨J, hJ⟩ := jacobian_total b hl x
  obtain ⟨J', hJ'⟩ := jacobian_total b' hl' (φ.vec x)
  refine ⟨J, J', hJ, hJ', fun j hj => ?_⟩
  rw [jacobian_val h.inv hl hJ, jacobian_val h'.inv hl' hJ', hs.tw h.inv.tree h'.inv.tree hk,
    φ.pose_app, ← φ.atPoint, ← hs.jw h.inv h'.inv hk hj]
  ext <;> simp [Motion.atPoint, Vec3.cross] <;> ring

/-- C134: the joint-space inertia. -/
theorem C134_inertia (h : Reach E b d) (h' : Reach E b' d') (hs : φ.Similar b b') (hm : b.Massive)
    (hm' : b'.Massive) {i j : ℕ} (hi : i < b.dof) (hj : j < b.dof) :
    φ.joint b i * b'.inertia.1 i j * φ.joint b j = φ.ℓ ^ 2 * b.inertia.1 i j := by
  rw [inertia_entry h hm i j hi hj, inertia_entry h' hm' i j (hs.dof ▸ hi) (hs.dof ▸ hj)]
  exact hs.mass h.inv h'.inv hi hj

/-- C134: velocity products, gravity and external forces. -/
theorem C134_torques (h : Reach E b d) (h' : Reach E b' d') (hs : φ.Similar b b')
    {F F' : FExt} (hF : ∀ i < b.dof, F' i = (F i).map φ.force) {i : ℕ} (hi : i < b.dof) :
    φ.joint b i * b'.centrifugalCoriolis.1 i = φ.ℓ ^ 2 * b.centrifugalCoriolis.1 i ∧
    φ.joint b i * b'.gravity.1 i = φ.ℓ ^ 2 * b.gravity.1 i ∧
    φ.joint b i * (b'.externalTorques F').1 i = φ.ℓ ^ 2 * (b.externalTorques F).1 i := by
  have hj : i < b'.dof := hs.dof ▸ hi
  refine ⟨?_, ?_, ?_⟩
  · rw [(centrifugalCoriolis_run h.inv).2 i hi, (centrifugalCoriolis_run h'.inv).2 _ hj]
    exact hs.coriolis h.inv h'.inv hi
  · rw [(gravity_run h.inv).2 i hi, (gravity_run h'.inv).2 _ hj]
    exact hs.gravity h.inv h'.inv hi
  · rw [(externalTorques_run h.inv F).2 i hi, (externalTorques_run h'.inv F').2 _ hj]
    exact hs.ext h.inv h'.inv hF hi

/-- Friction does not tell left from right. -/
theorem frictionJoint_neg (c : Fric) (dq tau : ℝ) (comp : Bool) {eps : ℝ} (he : 0 ≤ eps) :
    Sys.frictionJoint c (-dq) (-tau) comp eps = -Sys.frictionJoint c dq tau comp eps := by
  have hsg : ∀ x e : ℝ, 0 ≤ e → Sys.signum (-x) e = -Sys.signum x e := by
    intro x e he
    unfold Sys.signum
    split_ifs <;> first | rfl | linarith | (exfalso; linarith) | simp
  unfold Sys.frictionJoint
  simp only [hsg dq eps he, hsg tau 0 le_rfl, mul_neg, neg_eq_zero, abs_neg]
  split_ifs <;> ring

theorem Similarity.unit (h1 : φ.ℓ = 1) (t : JType) : φ.gain t = 1 ∨ φ.gain t = -1 := by
  obtain ⟨ℓ, ⟨x, y, z⟩, hp, hx, hy, hz⟩ := φ
  dsimp only at hx hy hz h1
  subst h1
  rcases hx with rfl | rfl <;> rcases hy with rfl | rfl <;> rcases hz with rfl | rfl <;> cases t <;>
    norm_num [gain]

theorem Similarity.friction (h1 : φ.ℓ = 1) (t : JType) (c : Fric) {dq dq' tau tau' : ℝ} (comp : Bool)
    {eps : ℝ} (he : 0 ≤ eps) (hd : dq' = φ.gain t * dq) (ht : φ.gain t * tau' = φ.ℓ ^ 2 * tau) :
    φ.gain t * Sys.frictionJoint c dq' tau' comp eps =
      φ.ℓ ^ 2 * Sys.frictionJoint c dq tau comp eps := by
  rcases φ.unit h1 t with e | e <;> rw [e] at hd ht ⊢ <;> rw [h1] at ht ⊢
  · have : tau' = tau := by linarith
    rw [hd, this]
    simp
  · have : tau' = -tau := by linarith
    rw [hd, this, neg_one_mul, neg_one_mul, frictionJoint_neg c dq tau comp he]
    ring

/-- C134: `InverseDynamics`; with friction for mirror images only (friction coefficients and the
threshold of sticking do not change). -/
theorem C134_inverse_dynamics (h : Reach E b d) (h' : Reach E b' d') (hs : φ.Similar b b')
    (hm : b.Massive) (hm' : b'.Massive) {F F' : FExt} (hF : ∀ i < b.dof, F' i = (F i).map φ.force)
    {a a' : ℕ → ℝ} (ha : ∀ i < b.dof, a' i = φ.joint b i * a i) (o : IDOpts)
    (hf : o.friction = true → φ.ℓ = 1 ∧ 0 ≤ o.eps ∧
      ∀ i < b.dof, fric (b'.rb i).joint = fric (b.rb i).joint) {i : ℕ} (hi : i < b.dof) :
    φ.joint b i * (b'.inverseDynamics a' F' o).1 i = φ.ℓ ^ 2 * (b.inverseDynamics a F o).1 i := by
  rw [inverseDynamics_val h.inv hm.symI (hm.posMass h.inv.tree) _ _ _ i hi,
    inverseDynamics_val h'.inv hm'.symI (hm'.posMass h'.inv.tree) _ _ _ i (hs.dof ▸ hi)]
  have e := hs.id h.inv h'.inv ha hF o.cc o.gravity hi
  unfold Sys.addFriction
  cases ho : o.friction with
  | false => simpa using e
  | true =>
    obtain ⟨f1, f2, f3⟩ := hf ho
    simp only [if_true]
    rw [mul_add, mul_add, e]
    congr 1
    unfold Sys.friction
    rw [show b'.fresh.fr i = b.fresh.fr i from f3 i hi]
    exact φ.friction f1 _ _ _ f2 (hs.dq i hi) e

/-- C134: `ForwardDynamics`: corresponding torques cause corresponding accelerations. -/
theorem C134_forward_dynamics (h : Reach E b d) (h' : Reach E b' d') (hs : φ.Similar b b')
    (hm : b.Massive) (hm' : b'.Massive) (hn : DefiniteForm b.dof b.inertia.1) {F F' : FExt}
    (hF : ∀ i < b.dof, F' i = (F i).map φ.force) {t t' : ℕ → ℝ}
    (ht : ∀ i < b.dof, φ.joint b i * t' i = φ.ℓ ^ 2 * t i) (o : FDOpts)
    (hf : o.friction = true → φ.ℓ = 1 ∧ 0 ≤ o.eps ∧
      ∀ i < b.dof, fric (b'.rb i).joint = fric (b.rb i).joint) {i : ℕ} (hi : i < b.dof) :
    (b'.fd E t' F' o).1 i = φ.joint b i * (b.fd E t F o).1 i := by
  have hσ : ∀ i, φ.joint b i ≠ 0 := fun i => φ.gain_ne _
  have hℓ : φ.ℓ ^ 2 ≠ 0 := pow_ne_zero 2 φ.pos.ne'
  have hn' : DefiniteForm b'.dof b'.inertia.1 := by
    intro u ⟨j, hj, hu⟩
    rw [hs.dof] at hj ⊢
    have key := hn (fun l => u l / φ.joint b l) ⟨j, hj, div_ne_zero hu (hσ j)⟩
    refine (mul_pos (pow_pos φ.pos 2) key).trans_eq ?_
    rw [mul_sum]
    refine sum_congr rfl fun k hk => ?_
    simp only [mul_sum]
    refine sum_congr rfl fun l hl => ?_
    have e := C134_inertia h h' hs hm hm' (mem_range.1 hk) (mem_range.1 hl)
    have h1 := hσ l
    have h2 := hσ k
    rw [show φ.ℓ ^ 2 * (u k / φ.joint b k * (b.inertia.1 k l * (u l / φ.joint b l))) =
      u k / φ.joint b k * (φ.ℓ ^ 2 * b.inertia.1 k l) * (u l / φ.joint b l) by ring, ← e]
    field_simp
  have hid : ∀ k < b.dof, φ.joint b k * b'.fresh.idSpec (fun _ => 0) F' o.cc o.gravity k =
      φ.ℓ ^ 2 * b.fresh.idSpec (fun _ => 0) F o.cc o.gravity k := fun k hk =>
    hs.id h.inv h'.inv (fun _ _ => by simp) hF _ _ hk
  have hrhs : ∀ k < b.dof,
      φ.joint b k * b'.fresh.fdRhs t' (b'.fresh.idSpec (fun _ => 0) F' o.cc o.gravity) o k =
        φ.ℓ ^ 2 * b.fresh.fdRhs t (b.fresh.idSpec (fun _ => 0) F o.cc o.gravity) o k := by
    intro k hk
    have e : φ.joint b k * (t' k - b'.fresh.idSpec (fun _ => 0) F' o.cc o.gravity k) =
        φ.ℓ ^ 2 * (t k - b.fresh.idSpec (fun _ => 0) F o.cc o.gravity k) := by
      rw [mul_sub, mul_sub, ht k hk, hid k hk]
    unfold Sys.fdRhs
    cases ho : o.friction with
    | false => simpa using e
    | true =>
      obtain ⟨f1, f2, f3⟩ := hf ho
      simp only [if_true]
      rw [mul_sub, mul_sub (φ.ℓ ^ 2), e]
      congr 1
      unfold Sys.friction
      rw [show b'.fresh.fr k = b.fresh.fr k from f3 k hk]
      exact φ.friction f1 _ _ _ f2 (hs.dq k hk) e
  have key : (fun l => (b'.fd E t' F' o).1 l / φ.joint b l) i = (b.fd E t F o).1 i := by
    refine Sys.solve_unique (x := fun l => (b'.fd E t' F' o).1 l / φ.joint b l)
      (fresh_det h hm hn) (fun k hk => ?_) i hi
    have e := fd_solves h' hm' hn' t' F' o k (hs.dof ▸ hk)
    have e0 := fd_solves h hm hn t F o k hk
    rw [hs.dof] at e
    refine mul_left_cancel₀ hℓ ?_
    rw [e0, ← hrhs k hk, ← e, mul_sum, mul_sum]
    refine sum_congr rfl fun l hl => ?_
    rw [← mul_assoc, ← hs.mass h.inv h'.inv hk (mem_range.1 hl)]
    have := hσ l
    field_simp
  rw [← key]
  have := hσ i
  field_simp

/-- C134: the same with `ForwardDynamicsAba`. -/
theorem C134_forward_dynamics_aba (h : Reach E b d) (h' : Reach E b' d') (hs : φ.Similar b b')
    (hd : b.Definite) (hd' : b'.Definite) {F F' : FExt} (hF : ∀ i < b.dof, F' i = (F i).map φ.force)
    {t t' : ℕ → ℝ} (ht : ∀ i < b.dof, φ.joint b i * t' i = φ.ℓ ^ 2 * t i) (o : FDOpts)
    (hf : o.friction = false) {i : ℕ} (hi : i < b.dof) :
    (b'.forwardDynamicsAba t' F' o).1 i = φ.joint b i * (b.forwardDynamicsAba t F o).1 i := by
  have hm := hd.massive h.inv.tree
  have hm' := hd'.massive h'.inv.tree
  rw [C30_aba_base h hm (hd.form h) t F o hf i hi,
    C30_aba_base h' hm' (hd'.form h') t' F' o hf _ (hs.dof ▸ hi)]
  obtain ⟨_, h1, hm1, hn1⟩ := setG_ready h hm (hd.form h) (b.T0.R.mulVec b.g)
  obtain ⟨_, h2, hm2, -⟩ := setG_ready h' hm' (hd'.form h') (b'.T0.R.mulVec b'.g)
  have hs' : φ.Similar (b.setG (b.T0.R.mulVec b.g)) (b'.setG (b'.T0.R.mulVec b'.g)) :=
    { hs with g := (by
        show b'.T0.R.mulVec b'.g = φ.vec (b.T0.R.mulVec b.g)
        rw [hs.T0, hs.g]
        obtain ⟨ℓ, ⟨x, y, z⟩, hp, hx, hy, hz⟩ := φ
        dsimp only at hx hy hz
        rcases hx with rfl | rfl <;> rcases hy with rfl | rfl <;> rcases hz with rfl | rfl <;>
          ext <;> simp [Similarity.vec, Similarity.dir, Similarity.pose, Similarity.rot, Mat3.mulVec] <;>
            ring) }
  exact C134_forward_dynamics h1 h2 hs' hm1 hm2 hn1 hF ht o (fun e => by rw [hf] at e; cases e) hi

/-- The image of a state. -/
noncomputable def Similarity.state (φ : Similarity) {b b' : Body} (hs : φ.Similar b b') :
    State b.dof →ₗ[ℝ] State b'.dof where
  toFun y := (fun i => φ.joint b i * y.1 (Fin.cast hs.dof i), fun i => φ.joint b i * y.2 (Fin.cast hs.dof i))
  map_add' x y := by
    ext i <;> simp [mul_add]
  map_smul' a y := by
    ext i <;> simp <;> ring

/-- Corresponding states stay so after `set_q` and `set_dq`. -/
theorem Similarity.Similar.after (hs : φ.Similar b b') {B B' : Body} (h : StateOnly b B)
    (h' : StateOnly b' B') (hq : ∀ i < b.dof, B'.q.getD i 0 = φ.joint b i * B.q.getD i 0)
    (hdq : ∀ i < b.dof, B'.dq.getD i 0 = φ.joint b i * B.dq.getD i 0) : φ.Similar B B' := by
  have hr : B.rb = b.rb := by unfold Body.rb; rw [h.rbs]
  have hr' : B'.rb = b'.rb := by unfold Body.rb; rw [h'.rbs]
  have hn : B.dof = b.dof := by unfold Body.dof; rw [h.rbs]
  have hn' : B'.dof = b'.dof := by unfold Body.dof; rw [h'.rbs]
  have hj : φ.joint B = φ.joint b := by funext i; unfold Similarity.joint; rw [hr]
  have hti : B.totalInertia = b.totalInertia := by funext i; unfold totalInertia; rw [hr, h.load]
  have hti' : B'.totalInertia = b'.totalInertia := by
    funext i; unfold totalInertia; rw [hr', h'.load]
  refine ⟨by rw [hn, hn', hs.dof], ?_, ?_, ?_, ?_, ?_, ?_, ?_, ?_, ?_, ?_⟩
  · rw [hr, hr', hn]; exact hs.parent
  · rw [hr, hr', hn]; exact hs.pose
  · rw [hr, hr', hn]; exact hs.type
  · unfold AxesOK; rw [hr, hn]; exact hs.axes
  · unfold AxesOK; rw [hr', hn']; exact hs.axes'
  · rw [hti, hti', hn]; exact hs.total
  · rw [hj, hn]; exact hq
  · rw [hj, hn]; exact hdq
  · rw [h.g, h'.g, hs.g]
  · rw [h.T0, h'.T0, hs.T0]

/-- The equations of motion of the image are the image of the equations of motion. -/
theorem Similarity.Similar.field (hs : φ.Similar b b') (h : Reach E b d) (h' : Reach E b' d')
    (hd : b.Definite) (hd' : b'.Definite) {F F' : FExt} (hF : ∀ i < b.dof, F' i = (F i).map φ.force)
    {t t' : ℕ → ℝ} (ht : ∀ i < b.dof, φ.joint b i * t' i = φ.ℓ ^ 2 * t i) (o : IntOpts)
    (hf : o.friction = false) {c : Cache} (hc : c.Clear) (y : State b.dof) :
    b'.field E c t' F' o (φ.state hs y) = φ.state hs (b.field E c t F o y) := by
  obtain ⟨b1, e1, n1⟩ := setQ_total (b := b) (q := List.ofFn y.1) (by simp)
  obtain ⟨B, e2, n2⟩ := setDq_total (b := b1) (q := List.ofFn y.2) (by simp [n1])
  obtain ⟨b1', e1', n1'⟩ := setQ_total (b := b') (q := List.ofFn (φ.state hs y).1) (by simp)
  obtain ⟨B', e2', n2'⟩ := setDq_total (b := b1') (q := List.ofFn (φ.state hs y).2) (by simp [n1'])
  obtain ⟨s, n, -, -, -, _, r⟩ := h.after_set ⟨b1, e1, e2⟩
  obtain ⟨s', n', -, -, -, _, r'⟩ := h'.after_set ⟨b1', e1', e2'⟩
  have get : ∀ {n : ℕ} (x : Fin n → ℝ), (fun i : Fin n => (List.ofFn x).getD i 0) = x := by
    intro n x; funext i; simp
  have hB : φ.Similar B B' := by
    refine hs.after s s' (fun i hi => ?_) fun i hi => ?_
    · rw [setDq_q e2, setQ_q e1, setDq_q e2', setQ_q e1']
      simp [List.getD, hi, hs.dof, Similarity.state]
    · rw [setDq_dq e2, setDq_dq e2']
      simp [List.getD, hi, hs.dof, Similarity.state]
  have hj : φ.joint B = φ.joint b := by
    funext i; unfold Similarity.joint Body.rb; rw [s.rbs]
  have hdB := s.definite hd
  have hdB' := s'.definite hd'
  have hF' : ∀ i < B.dof, F' i = (F i).map φ.force := by rw [n]; exact hF
  have ht' : ∀ i < B.dof, φ.joint B i * t' i = φ.ℓ ^ 2 * t i := by rw [n, hj]; exact ht
  have acc : ∀ i < b.dof, B'.acceleration E t' F' o i = φ.joint b i * B.acceleration E t F o i := by
    intro i hi
    rw [← hj]
    unfold acceleration
    split
    · exact C134_forward_dynamics_aba r r' hB hdB hdB' hF' ht' _ hf (n ▸ hi)
    · exact C134_forward_dynamics r r' hB (hdB.massive r.inv.tree) (hdB'.massive r'.inv.tree)
        (hdB.form r) hF' ht' _ (fun e => by rw [show _ = false from hf] at e; cases e) (n ▸ hi)
  have k : ∀ i : Fin b.dof, B.acceleration E t F o i = (b.field E c t F o y).2 i := by
    intro i
    rw [field_of_set h (hd.massive h.inv.tree) hc t F o e1 e2 i, get, get]
  have k' : ∀ i : Fin b'.dof, B'.acceleration E t' F' o i =
      (b'.field E c t' F' o (φ.state hs y)).2 i := by
    intro i
    rw [field_of_set h' (hd'.massive h'.inv.tree) hc t' F' o e1' e2' i, get, get]
  refine Prod.ext rfl (funext fun i => ?_)
  rw [← k' i, acc i (hs.dof ▸ i.2)]
  show _ = φ.joint b i * (b.field E c t F o y).2 (Fin.cast hs.dof i)
  rw [← k]
  rfl

section
variable {V W : Type*} [AddCommGroup V] [Module ℝ V] [AddCommGroup W] [Module ℝ W]

theorem lin_map (M : V →ₗ[ℝ] W) : ∀ (as : List ℝ) (ks : List V), lin as (ks.map M) = M (lin as ks)
  | [], _ => by simp [lin]
  | _ :: _, [] => by simp [lin]
  | a :: as, k :: ks => by simp [lin, lin_map M as ks]

theorem rkSlopes_map (M : V →ₗ[ℝ] W) {F : V → V} {F' : W → W} (hF : ∀ y, F' (M y) = M (F y))
    (dt : ℝ) (y : V) : ∀ (rows : List (List ℝ)) (ks : List V),
    rkSlopes F' id dt (M y) rows (ks.map M) = (rkSlopes F id dt y rows ks).map M
  | [], _ => rfl
  | row :: rows, ks => by
    unfold rkSlopes
    rw [← rkSlopes_map M hF dt y rows]
    congr 1
    rw [lin_map, List.map_append, List.map_singleton, id, id, ← hF, map_add, map_smul]

theorem rkStep_map (M : V →ₗ[ℝ] W) {F : V → V} {F' : W → W} (hF : ∀ y, F' (M y) = M (F y))
    (rows : List (List ℝ)) (ws : List ℝ) (dt : ℝ) (y : V) :
    rkStep rows ws F' id dt (M y) = M (rkStep rows ws F id dt y) := by
  unfold rkStep
  have := rkSlopes_map M hF dt y rows [F y]
  rw [List.map_singleton, ← hF] at this
  rw [this, lin_map, id, id, map_add, map_smul]
end

theorem Similarity.Similar.scheme (hs : φ.Similar b b') {F : State b.dof → State b.dof}
    {F' : State b'.dof → State b'.dof} (hF : ∀ y, F' (φ.state hs y) = φ.state hs (F y)) (m : Method)
    (dt : ℝ) (y : State b.dof) :
    Body.scheme m F' _root_.id dt (φ.state hs y) = φ.state hs (Body.scheme m F _root_.id dt y) := by
  cases m with
  | euler =>
    show taylor F' _root_.id dt (φ.state hs y) = φ.state hs (taylor F _root_.id dt y)
    unfold taylor
    rw [hF]
    ext i <;> simp [Similarity.state] <;> ring
  | heuns => exact rkStep_map _ hF _ _ _ _
  | rk4 => exact rkStep_map _ hF _ _ _ _

/-- C134: simulations of corresponding robots from corresponding states, with corresponding torques and
forces, stay in corresponding states for ever, whatever the method and the step size. -/
theorem C134_simulation (h : Reach E b d) (h' : Reach E b' d') (hs : φ.Similar b b') (hd : b.Definite)
    (hd' : b'.Definite) {F F' : FExt} (hF : ∀ i < b.dof, F' i = (F i).map φ.force) {t t' : ℕ → ℝ}
    (ht : ∀ i < b.dof, φ.joint b i * t' i = φ.ℓ ^ 2 * t i) (o : IntOpts) (hf : o.friction = false)
    (hl : o.jointLimits = false) (dt : ℝ) (n : ℕ) :
    ∃ B B', steps E t dt F o n b = .ok B ∧ steps E t' dt F' o n b' = .ok B' ∧
      ∀ i < b.dof, B'.q.getD i 0 = φ.joint b i * B.q.getD i 0 ∧
        B'.dq.getD i 0 = φ.joint b i * B.dq.getD i 0 := by
  have hc : b.c.clearQ.Clear := b.c.clear_clearQ
  obtain ⟨B, e, a⟩ := steps_scheme h (hd.massive h.inv.tree) hc t dt F o hl n
  obtain ⟨B', e', a'⟩ := steps_scheme h' (hd'.massive h'.inv.tree) hc t' dt F' o hl n
  refine ⟨B, B', e, e', fun i hi => ?_⟩
  have h0 : b'.state = φ.state hs b.state := by
    ext i
    · exact hs.q i (hs.dof ▸ i.2)
    · exact hs.dq i (hs.dof ▸ i.2)
  have key : ∀ n : ℕ, (Body.scheme o.method (b'.field E b.c.clearQ t' F' o) id dt)^[n] b'.state =
      φ.state hs ((Body.scheme o.method (b.field E b.c.clearQ t F o) id dt)^[n] b.state) := by
    intro n
    induction n with
    | zero => exact h0
    | succ n ih =>
      rw [Function.iterate_succ_apply', Function.iterate_succ_apply', ih]
      exact hs.scheme (fun y => hs.field h h' hd hd' hF ht o hf hc y) _ _ _
  rw [a.q, a.dq, a'.q, a'.dq, key n]
  constructor <;> simp [List.getD, hi, hs.dof, Similarity.state]

/-- C134: the image of a motion is a motion of the image. -/
theorem C134_motion (h : Reach E b d) (h' : Reach E b' d') (hs : φ.Similar b b') (hd : b.Definite)
    (hd' : b'.Definite) {F F' : FExt} (hF : ∀ i < b.dof, F' i = (F i).map φ.force) {t t' : ℕ → ℝ}
    (ht : ∀ i < b.dof, φ.joint b i * t' i = φ.ℓ ^ 2 * t i) (o : IntOpts) (hf : o.friction = false)
    {T : ℝ} {q dq q' dq' : ℝ → List ℝ} (hM : b.Moves E t F o T q dq)
    (hl : ∀ s, (q' s).length = b.dof ∧ (dq' s).length = b.dof)
    (hq : ∀ s, ∀ i < b.dof, (q' s).getD i 0 = φ.joint b i * (q s).getD i 0 ∧
      (dq' s).getD i 0 = φ.joint b i * (dq s).getD i 0) :
    b'.Moves E t' F' o T q' dq' := by
  have hc : b.c.clearQ.Clear := b.c.clear_clearQ
  rw [moves_iff h (hd.massive h.inv.tree) hc] at hM
  rw [moves_iff h' (hd'.massive h'.inv.tree) hc]
  refine ⟨fun s _ => by rw [hs.dof]; exact hl s, fun s hS => ?_⟩
  have e : stateOf b' q' dq' = fun s => φ.state hs (stateOf b q dq s) := by
    funext s
    ext i
    · exact (hq s i (hs.dof ▸ i.2)).1
    · exact (hq s i (hs.dof ▸ i.2)).2
  have k := hM.2 s hS
  rw [e, hs.field h h' hd hd' hF ht o hf hc]
  exact ((LinearMap.toContinuousLinearMap (φ.state hs)).hasFDerivAt (x := stateOf b q dq s)).comp_hasDerivWithinAt s k

/-- The links of the turntable twice as large, of the same weight. -/
def bigRB (t : JType) : RB := { T := 1, inertia := ⟨1, 0, (4 : ℝ) • (1 : Mat3)⟩, joint := mkJoint t }

/-- The turntable with the slider, twice as large and seen in a mirror. -/
noncomputable def polarMirror : Body where
  rbs := [{ bigRB .rz with id := 0, idParent := -1 }, { bigRB .px with id := 1, idParent := 0 }]
  q := [0, 2]
  dq := [-1, 0]
  g := ⟨0, 0, 2 * -9.81⟩
  load := fun _ => none
  T0 := 1
  inertiaBase := ⟨1, 0, 0⟩
  anc := [[0], [0, 1]]
  sub := [[0, 1], [1]]
  c := polar.c.clearG

theorem polarMirror_reach (E : Ext) : ∃ d, Reach E polarMirror d := by
  have e : execAll E (Body.init cache0) [.addRigidBody (bigRB .rz) (-1), .addRigidBody (bigRB .px) 0,
      .setQ [0, 2], .setDq [-1, 0], .setG ⟨0, 0, 2 * -9.81⟩] = some polarMirror := by
    simp [execAll, Op.exec, Op.step, addRigidBody, setQ, setDq, setG, Out.map, Out.bind, Body.init, dof,
      pushSub, polarMirror, polar]
  refine reach_execAll _ (Reach.init cache0) ?_ e
  intro op hop
  simp only [List.mem_cons, List.not_mem_nil, or_false] at hop
  rcases hop with rfl | rfl | rfl | rfl | rfl <;> first | trivial | exact Iso.valid_one

theorem polarMirror_definite : polarMirror.Definite := by
  have hI : ∀ k < 2, (polarMirror.rb k).inertia = ⟨1, 0, (4 : ℝ) • (1 : Mat3)⟩ := by
    intro k hk; interval_cases k <;> rfl
  refine ⟨fun k hk => ?_, fun k hk => ?_, fun k hk v hv => ?_, fun k hk L hL => ?_, fun k hk => ?_⟩
  all_goals (have hk : k < 2 := hk)
  · rw [hI k hk]; norm_num
  · rw [hI k hk]; ext <;> simp [Mat3.T]
  · rw [hI k hk]
    have := ball_pd v hv
    simp [ball, Mat3.mulVec, Vec3.dot] at this ⊢
    linarith
  · cases hL
  · intro e
    have e1 := congrArg (fun m : Motion => m.lin.x) e
    have e2 := congrArg (fun m : Motion => m.ang.z) e
    interval_cases k <;>
      simp [polarMirror, Body.rb, bigRB, mkJoint, JType.subspace] at e1 e2

/-- The hypotheses are met by moving robots: twice as large and seen in a mirror, the turntable turns
the other way and the slider is two metres out. -/
example (E : Ext) : ∃ (φ : Similarity) (d d' : Bool), Reach E polar d ∧ Reach E polarMirror d' ∧
    φ.Similar polar polarMirror ∧ polar.Definite ∧ polarMirror.Definite ∧ φ.ℓ = 2 ∧ φ.hand = -1 ∧
    φ.joint polar 0 = -1 ∧ φ.joint polar 1 = 2 := by
  obtain ⟨d, h⟩ := polar_reach E
  obtain ⟨d', h'⟩ := polarMirror_reach E
  refine ⟨⟨2, ⟨1, -1, 1⟩, by norm_num, .inl rfl, .inr rfl, .inl rfl⟩, d, d', h, h', ?_, polar_definite,
    polarMirror_definite, rfl, by norm_num [Similarity.hand], ?_, ?_⟩
  · refine ⟨rfl, fun i hi => ?_, fun i hi => ?_, fun i hi => ?_, fun i hi => ?_, fun i hi => ?_,
      fun i hi => ?_, fun i hi => ?_, fun i hi => ?_, ?_, ?_⟩
    all_goals try (have hi : i < 2 := hi)
    · interval_cases i <;> rfl
    · interval_cases i <;> (show (1 : Iso) = Similarity.pose _ 1) <;> exact (Similarity.pose_one _).symm
    · interval_cases i <;> rfl
    · interval_cases i <;> rfl
    · interval_cases i <;> rfl
    · have : ∀ ψ : Similarity, ψ.ℓ = 2 → ψ.s = ⟨1, -1, 1⟩ →
          (⟨1, 0, (4 : ℝ) • (1 : Mat3)⟩ : Inertia) = ψ.inertia ball := by
        intro ψ h1 h2
        unfold Similarity.inertia Similarity.vec Similarity.dir Similarity.rot ball
        rw [h1, h2]
        ext <;> norm_num
      interval_cases i <;> exact this _ rfl rfl
    · interval_cases i <;> norm_num [polar, polarMirror, Similarity.joint, Similarity.gain, Body.rb, ballRB, mkJoint]
    · interval_cases i <;> norm_num [polar, polarMirror, Similarity.joint, Similarity.gain, Body.rb, ballRB, mkJoint]
    · ext <;> norm_num [polar, polarMirror, Similarity.vec, Similarity.dir]
    · exact (Similarity.pose_one _).symm
  · norm_num [polar, Similarity.joint, Similarity.gain, Body.rb, ballRB, mkJoint]
  · norm_num [polar, Similarity.joint, Similarity.gain, Body.rb, ballRB, mkJoint]

end SpatialDyn
