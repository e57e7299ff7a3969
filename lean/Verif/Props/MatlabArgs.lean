import Verif.Props.MatlabDiscrete
import Verif.Props.InverseKin

/-!
# C86, C87: what the MATLAB functions do with their arguments
-/

namespace SpatialDyn
namespace Mex
open Body

variable {E : Ext} {C : Ctl} {b : Body} {d : Bool}

/-! ## C86: `inverse_kinematics` -/

theorem read_ok {a : Arr} {k : ℕ} (h : k < a.numel) : a.read k = .ok (a.e k) := if_pos h

theorem read_cases (a : Arr) (k : ℕ) : ∃ v, a.read k = .ok v ∨ a.read k = .ub := by
  unfold Arr.read
  split
  · exact ⟨_, .inl rfl⟩
  · exact ⟨0, .inr rfl⟩

/-- C86 does not hold: the documented call, with a position of three entries and a quaternion of four,
reads a fourth entry of the position, whatever the rest of the arguments. -/
theorem C86_violated (b : Body) (s : Option ℕ) {x quat : Arr} (hx : x.dims = [3, 1])
    (hq : quat.dims = [4, 1]) (rest : List Val) :
    Mex.inverseKinematics E C b s (.num x :: .num quat :: rest) = .ub := by
  have hn : x.numel = 3 := by unfold Arr.numel; rw [hx]; rfl
  simp [Mex.inverseKinematics, Val.toNum, Out.bind, rows_of hx, rows_of hq, Arr.read, hn]

/-- C86 does not hold: the orientation asked for is not used. -/
theorem C86_ignored_violated (b : Body) (s : Option ℕ) (x : Val) {quat quat' : Arr}
    (hq : quat.dims.head? = some 4) (hq' : quat'.dims.head? = some 4) (rest : List Val) :
    Mex.inverseKinematics E C b s (x :: .num quat :: rest) =
      Mex.inverseKinematics E C b s (x :: .num quat' :: rest) := by
  have e : quat.rows 4 = quat'.rows 4 := by unfold Arr.rows; rw [hq, hq']
  simp only [Mex.inverseKinematics, Val.toNum, Out.bind, e]

/-- C86 does not hold: the call without a guess, which the test of the arguments admits, reads an
argument that is not there. -/
theorem C86_guess_violated (b : Body) (s : Option ℕ) {x quat : Arr} (hx : x.dims.head? = some 3)
    (hq : quat.dims.head? = some 4) :
    Mex.inverseKinematics E C b s [.num x, .num quat] = .ub := by
  have e : x.rows 3 = true := by unfold Arr.rows; rw [hx]; simp
  have e' : quat.rows 4 = true := by unfold Arr.rows; rw [hq]; simp
  simp only [Mex.inverseKinematics, Val.toNum, Out.bind, e, e', Bool.not_true, Bool.false_eq_true,
    if_false]
  obtain ⟨x0, h | h⟩ := read_cases x 0 <;> rw [h]
  obtain ⟨x1, h | h⟩ := read_cases x 1 <;> rw [h]
  obtain ⟨x2, h | h⟩ := read_cases x 2 <;> rw [h]
  obtain ⟨x3, h | h⟩ := read_cases x 3 <;> rw [h]

/-- C86, where the call is defined: when the array of the position has a second column, the function
answers with `InverseKinematics` from the guess, for the link and the offset asked for; the orientation is
the quaternion with real part `x`, imaginary parts `y`, `z` and the first entry of the second column. -/
theorem C86_partial {s : Option ℕ} {x quat q0 : Arr} {n m k : ℕ} (hx : x.dims = [3, n + 2])
    (hq : quat.dims = [4, m]) (h0 : q0.dims = [b.dof, k + 1]) {args : List Val} {i : ℤ} {o : Vec3}
    (ha : Asks args i o) : ∃ B, b.setQ (q0.column b.dof [0]) = .ok B ∧
    Mex.inverseKinematics E C b s (.num x :: .num quat :: .num q0 :: args) =
      (B.inverseKinematics E C ⟨⟨x.at [0, 0], x.at [1, 0], x.at [2, 0]⟩,
        C.ofXyzw (x.at [1, 0]) (x.at [2, 0]) (x.at [0, 1]) (x.at [0, 0]), i, o⟩ s).map fun r =>
        ((some ⟨[b.dof], fun k => r.1.getD k 0⟩, B), r.2) := by
  have hn : x.numel = 3 * (n + 2) := by unfold Arr.numel; rw [hx]; simp
  obtain ⟨B, hB, eB⟩ := setQ_total (b := b) (column_length q0 b.dof [0])
  have hc : q0.col b.dof 0 = .ok (q0.column b.dof [0]) := by
    have := col_eq (rows_of h0) (is := [0]) (by rw [h0]; exact ⟨by omega, trivial⟩)
    simpa [h0, place] using this
  refine ⟨B, hB, ?_⟩
  have r := fun k (hk : k < 4) => read_ok (a := x) (k := k) (by omega)
  simp only [Mex.inverseKinematics, Val.toNum, Out.bind, rows_of hx, rows_of hq, rows_of h0,
    Bool.not_true, Bool.false_eq_true, if_false, r 0 (by omega), r 1 (by omega), r 2 (by omega),
    r 3 (by omega), hc, hB, ha.named.2]
  have e : x.at [0, 0] = x.e 0 ∧ x.at [1, 0] = x.e 1 ∧ x.at [2, 0] = x.e 2 ∧ x.at [0, 1] = x.e 3 := by
    simp [Arr.at, hx, place]
  rw [e.1, e.2.1, e.2.2.1, e.2.2.2, eB]
  cases B.inverseKinematics E C _ s <;> rfl

/-- C86 does not hold: a call refused for its named arguments has already moved the body to the guess. -/
theorem C86_refused_violated {s : Option ℕ} {x quat q0 a : Arr} {n m k : ℕ} (hx : x.dims = [3, n + 2])
    (hq : quat.dims = [4, m]) (h0 : q0.dims = [b.dof, k + 1]) (ha : a.dims.head? ≠ some 3)
    (rest : List Val) : ∃ B, b.setQ (q0.column b.dof [0]) = .ok B ∧
    Mex.inverseKinematics E C b s (.num x :: .num quat :: .num q0 ::
      .chars "offset".toList :: .num a :: rest) = .ok ((none, B), s) := by
  have hn : x.numel = 3 * (n + 2) := by unfold Arr.numel; rw [hx]; simp
  obtain ⟨B, hB, eB⟩ := setQ_total (b := b) (column_length q0 b.dof [0])
  have hc : q0.col b.dof 0 = .ok (q0.column b.dof [0]) := by
    have := col_eq (rows_of h0) (is := [0]) (by rw [h0]; exact ⟨by omega, trivial⟩)
    simpa [h0, place] using this
  refine ⟨B, hB, ?_⟩
  have r := fun k (hk : k < 4) => read_ok (a := x) (k := k) (by omega)
  have e : a.rows 3 = false := by unfold Arr.rows; simpa using ha
  simp only [Mex.inverseKinematics, Val.toNum, Out.bind, rows_of hx, rows_of hq, rows_of h0,
    Bool.not_true, Bool.false_eq_true, if_false, r 0 (by omega), r 1 (by omega), r 2 (by omega),
    r 3 (by omega), hc, hB, named_cons, Val.toChars, sOffset, if_true, e, Bool.not_false]

/-! ## C87: arguments of the wrong shape -/

/-- The call gives no output and leaves the body as it is. -/
def Refused (b : Body) (r : Res) : Prop := r = .ok (none, b)

theorem rows_not {Q : Arr} {n : ℕ} (h : Q.dims.head? ≠ some n) : Q.rows n = false := by
  unfold Arr.rows; simpa using h

/-- C87: joint positions with the wrong number of rows are refused by every function. -/
theorem C87_positions {Q : Arr} (hQ : Q.dims.head? ≠ some b.dof) (u v : Val) (rest : List Val) :
    Refused b (Mex.inertia b (.num Q :: rest)) ∧ Refused b (Mex.gravity b (.num Q :: rest)) ∧
    Refused b (Mex.hessian b (.num Q :: rest)) ∧ Refused b (Mex.position b (.num Q :: rest)) ∧
    Refused b (Mex.jacobian b (.num Q :: rest)) ∧
    Refused b (Mex.jacobianDynamicInverse E b (.num Q :: rest)) ∧
    Refused b (Mex.centrifugalCoriolis b (.num Q :: u :: rest)) ∧
    Refused b (Mex.inverseDynamics b (.num Q :: u :: v :: rest)) ∧
    Refused b (Mex.positionDerivative b (.num Q :: u :: v :: rest)) ∧
    Refused b (Mex.velocityDerivative b (.num Q :: u :: v :: rest)) ∧
    Refused b (Mex.discreteInverseDynamics E b (.num Q :: u :: rest)) := by
  have e := rows_not hQ
  refine ⟨?_, ?_, ?_, ?_, ?_, ?_, ?_, ?_, ?_, ?_, ?_⟩ <;>
    simp [Refused, Mex.inertia, Mex.gravity, Mex.hessian, Mex.position, Mex.jacobian,
      Mex.jacobianDynamicInverse, Mex.centrifugalCoriolis, Mex.inverseDynamics,
      Mex.positionDerivative, Mex.velocityDerivative, Mex.discreteInverseDynamics, motion3, Val.toNum,
      Out.bind, e]

/-- C87: `inverse_dynamics` and its derivatives refuse matrices of different sizes. -/
theorem C87_motions {Q dQ ddQ : Arr} (h : dQ.dims ≠ Q.dims ∨ ddQ.dims ≠ Q.dims) (rest : List Val) :
    Refused b (Mex.inverseDynamics b (.num Q :: .num dQ :: .num ddQ :: rest)) ∧
    Refused b (Mex.positionDerivative b (.num Q :: .num dQ :: .num ddQ :: rest)) ∧
    Refused b (Mex.velocityDerivative b (.num Q :: .num dQ :: .num ddQ :: rest)) := by
  have key : ∀ k, motion3 b (.num Q) (.num dQ) (.num ddQ) k = .ok (none, b) := fun k => by
    simp only [motion3, Val.toNum, Out.bind]
    split_ifs <;> first | rfl | (exfalso; tauto)
  exact ⟨key _, key _, key _⟩

/-- C87: `discrete_inverse_dynamics` refuses a matrix with fewer than two columns. -/
theorem C87_discrete {Q : Arr} (h : Q.dims = [b.dof, 0] ∨ Q.dims = [b.dof, 1]) (v : Val)
    (rest : List Val) : Refused b (Mex.discreteInverseDynamics E b (.num Q :: v :: rest)) := by
  rcases h with h | h <;>
    simp [Refused, Mex.discreteInverseDynamics, Val.toNum, Out.bind, rows_of h, h]

/-- C87: an offset without three rows and a link number without one row are refused. -/
theorem C87_named {Q a : Arr} {ds : List ℕ} (hQ : Q.dims = b.dof :: ds) {args : List Val} {i : ℤ}
    {x : Vec3} (ha : Asks args i x) {s : Str}
    (hs : s = "offset".toList ∧ a.dims.head? ≠ some 3 ∨ s = "link".toList ∧ a.dims.head? ≠ some 1)
    (rest : List Val) :
    Refused b (Mex.position b (.num Q :: (args ++ .chars s :: .num a :: rest))) ∧
    Refused b (Mex.jacobian b (.num Q :: (args ++ .chars s :: .num a :: rest))) ∧
    Refused b (Mex.jacobianDynamicInverse E b (.num Q :: (args ++ .chars s :: .num a :: rest))) := by
  have key : named (args ++ .chars s :: .num a :: rest) (-1, 0) = .ok none := by
    rw [named_append _ _ _ ha.named.1, ha.named.2]
    simp only [Out.bind]
    rw [named_cons]
    rcases hs with ⟨rfl, h⟩ | ⟨rfl, h⟩
    · simp [Val.toChars, Out.bind, sOffset, Val.toNum, rows_not h]
    · have hne : ¬ "link".toList = sOffset := by unfold sOffset; decide
      simp only [Val.toChars, Out.bind, if_neg hne, sLink, if_true, Val.toNum, rows_not h,
        Bool.not_false]
  refine ⟨?_, ?_, ?_⟩ <;>
    simp [Refused, Mex.position, Mex.jacobian, Mex.jacobianDynamicInverse, Val.toNum, Out.bind,
      rows_of hQ, key]

/-- C87: with the body alone the functions answer for its present state. -/
theorem C87_current (h : Reach E b d) (hd : 0 < b.dof) :
    (∃ A b', Mex.inertia b [] = .ok (some A, b') ∧ A.dims = [b.dof, b.dof] ∧ b.Same b' ∧
      ∀ i < b.dof, ∀ j < b.dof, A.at [i, j] = b.inertia.1 i j) ∧
    (∃ A b', Mex.gravity b [] = .ok (some A, b') ∧ A.dims = [b.dof] ∧ b.Same b' ∧
      ∀ i < b.dof, A.at [i] = b.gravity.1 i) ∧
    (∃ A b' H, Mex.hessian b [] = .ok (some A, b') ∧ A.dims = [b.dof, b.dof, 6] ∧ b.Same b' ∧
      (b.hessian (-1) 0).map Prod.fst = .ok H ∧
      ∀ i < b.dof, ∀ j < b.dof, ∀ r < 6, A.at [i, j, r] = (H i j).entry r) ∧
    (∃ A b' x, Mex.position b [] = .ok (some A, b') ∧ A.dims = [3] ∧ b.Same b' ∧
      (b.position (-1) 0).map Prod.fst = .ok x ∧ A.at [0] = x.x ∧ A.at [1] = x.y ∧ A.at [2] = x.z) ∧
    ∃ A b' J, Mex.jacobian b [] = .ok (some A, b') ∧ A.dims = [6, b.dof] ∧ b.Same b' ∧
      (b.jacobian (-1) 0).map Prod.fst = .ok J ∧
      ∀ r < 6, ∀ j < b.dof, A.at [r, j] = (J j).entry r := by
  have hl := last_idx hd
  refine ⟨?_, ?_, ?_, ?_, ?_⟩
  · refine ⟨_, _, rfl, rfl, Query.run_same (E := E) .inertia rfl, fun i hi j hj => ?_⟩
    show byCols _ _ (place [b.dof, b.dof] [i, j]) = _
    rw [place2, byCols_at hi]
  · refine ⟨_, _, rfl, rfl, Query.run_same (E := E) .gravity rfl, fun i hi => ?_⟩
    show b.gravity.1 (place [b.dof] [i]) = _
    rw [place1]
  · obtain ⟨B, hB⟩ := hessian_some hd
    refine ⟨⟨[b.dof, b.dof, 6], byCols3 b.dof (hessOf b)⟩, B, _, by
      simp only [Mex.hessian, hB, Out.bind], rfl, hessian_same hB, by rw [hB]; rfl,
      fun i hi j hj r hr => ?_⟩
    show byCols3 _ _ (place [b.dof, b.dof, 6] [i, j, r]) = _
    have e3 : place [b.dof, b.dof, 6] [i, j, r] = i + b.dof * (j + b.dof * r) := by simp [place]
    rw [e3, byCols3_at hi hj]
  · have hp : ∃ x B, b.position (-1) 0 = .ok (x, B) := by
      unfold Body.position; rw [hl.index]; exact ⟨_, _, rfl⟩
    obtain ⟨x, B, hx⟩ := hp
    have hq : (Query.position (-1) 0).run E b = .ok (.vec3 x, B) := by
      simp only [Query.run, hx, Out.map, Out.bind]
    have hs : b.Same B := Query.run_same _ hq
    exact ⟨⟨[3], entry3 x⟩, B, x, by simp only [Mex.position, hx, Out.bind], rfl, hs,
      by rw [hx]; rfl, rfl, rfl, rfl⟩
  · obtain ⟨⟨J, B⟩, hJ⟩ := jacobian_total b hl 0
    refine ⟨⟨[6, b.dof], byCols6 J⟩, B, J, by simp only [Mex.jacobian, hJ, Out.bind], rfl,
      jacobian_same hJ, by rw [hJ]; rfl, fun r hr j hj => ?_⟩
    show byCols6 _ (place [6, b.dof] [r, j]) = _
    rw [place2, byCols6_at hr]

/-- C87 does not hold for `centrifugal_coriolis`: with the body alone it gives no output, the code
for that call being behind a test that excludes it. -/
theorem C87_coriolis_violated (b : Body) : Mex.centrifugalCoriolis b [] = .ok (none, b) := rfl

/-- C87 does not hold for `centrifugal_coriolis`: for velocities with fewer columns than the positions
it prints a message, goes on, and reads beyond the velocities. -/
theorem C87_columns_violated (hd : 0 < b.dof) {Q dQ : Arr} {n m : ℕ} (hQ : Q.dims = [b.dof, m])
    (hdQ : dQ.dims = [b.dof, n]) (hn : n < m) (rest : List Val) :
    Mex.centrifugalCoriolis b (.num Q :: .num dQ :: rest) = .ub := by
  have colQ : ∀ {i}, i < m → Q.col b.dof i = .ok (Q.column b.dof [i]) := fun {i} hi => by
    have := col_eq (rows_of hQ) (is := [i]) (by rw [hQ]; exact ⟨hi, trivial⟩)
    simpa [hQ, place] using this
  have coldQ : ∀ {i}, i < n → dQ.col b.dof i = .ok (dQ.column b.dof [i]) := fun {i} hi => by
    have := col_eq (rows_of hdQ) (is := [i]) (by rw [hdQ]; exact ⟨hi, trivial⟩)
    simpa [hdQ, place] using this
  have bad : dQ.col b.dof n = .ub := by
    have e : dQ.numel = b.dof * n := by unfold Arr.numel; rw [hdQ]; simp
    unfold Arr.col
    rw [e, if_neg]
    rw [Nat.mul_le_mul_left_iff hd]
    omega
  set f : Body → ℕ → Out ((ℕ → ℝ) × Body) := fun b i =>
    (Q.col b.dof i).bind fun q => (b.setQ q).bind fun b =>
      (dQ.col b.dof i).bind fun dq => (b.setDq dq).bind fun b =>
      let r := b.centrifugalCoriolis; .ok (r.1, r.2) with hf
  have good : ∀ k ≤ n, ∃ e b1, loop (b.dof * m) b.dof f k b = .ok (e, b1) ∧ b1.dof = b.dof := by
    intro k
    induction k with
    | zero => exact fun _ => ⟨_, b, rfl, rfl⟩
    | succ k ih =>
      intro hk
      obtain ⟨e, b1, h1, p1⟩ := ih (by omega)
      obtain ⟨B, hB, eB⟩ := setQ_total (b := b1) (q := Q.column b.dof [k])
        (by rw [p1]; exact column_length _ _ _)
      obtain ⟨B', hB', eB'⟩ := setDq_total (b := B) (q := dQ.column b.dof [k])
        (by rw [eB, p1]; exact column_length _ _ _)
      have hfk : f b1 k = .ok (B'.centrifugalCoriolis.1, B'.centrifugalCoriolis.2) := by
        rw [hf]
        simp only [p1, colQ (by omega : k < m), Out.bind, hB, eB, coldQ (by omega : k < n), hB']
      have hs : B'.Same B'.centrifugalCoriolis.2 := Query.run_same (E := ext0) .centrifugalCoriolis rfl
      have hp : ∃ e', put (b.dof * m) b.dof k B'.centrifugalCoriolis.1 e = .ok e' :=
        ⟨_, if_pos (Nat.mul_le_mul_left _ (by omega))⟩
      obtain ⟨e', hp⟩ := hp
      refine ⟨e', B'.centrifugalCoriolis.2, ?_, ?_⟩
      · show (loop (b.dof * m) b.dof f k b).bind _ = _
        rw [h1]
        simp only [Out.bind, hfk, hp]
      · unfold Body.dof
        rw [hs.stateOnly.rbs]
        exact eB'.trans (eB.trans p1)
  obtain ⟨e, b1, h1, p1⟩ := good n le_rfl
  have h2 : ∀ k, loop (b.dof * m) b.dof f (n + 1 + k) b = .ub := by
    intro k
    induction k with
    | zero =>
      obtain ⟨B, hB, eB⟩ := setQ_total (b := b1) (q := Q.column b.dof [n])
        (by rw [p1]; exact column_length _ _ _)
      have hb : f b1 n = .ub := by
        rw [hf]
        simp only [p1, colQ hn, Out.bind, hB, eB, bad]
      show (loop (b.dof * m) b.dof f n b).bind _ = _
      rw [h1]
      simp only [Out.bind, hb]
    | succ k ih =>
      show (loop (b.dof * m) b.dof f (n + 1 + k) b).bind _ = _
      rw [ih]
      rfl
  obtain ⟨k, rfl⟩ : ∃ k, m = n + 1 + k := ⟨m - (n + 1), by omega⟩
  have h3 := h2 k
  have h4 : Mex.centrifugalCoriolis b (.num Q :: .num dQ :: rest) =
      fill [b.dof, n + 1 + k] b.dof ([n + 1 + k] : List ℕ).prod b f := by
    rw [hf, Mex.centrifugalCoriolis]
    show (if (!Q.rows b.dof) = true then _ else if (!dQ.rows b.dof) = true then _ else _) = _
    simp only [rows_of hQ, rows_of hdQ, Bool.not_true, Bool.false_eq_true, if_false, hQ,
      List.tail_cons]
  rw [h4]
  simp only [fill, List.prod_cons, List.prod_nil, mul_one, h3]
  rfl

/-- C87 does not hold for `jacobian_dynamic_inverse`: with the body alone it writes a matrix of `dof` rows
to a map of six. -/
theorem C87_inverse_violated (hd : b.dof ≠ 6) : Mex.jacobianDynamicInverse E b [] = .ub := by
  simp [Mex.jacobianDynamicInverse, hd]

/-! ## The hypotheses are met -/

/-- A free-flying body with one hundred configurations, a link and an offset. -/
example : ∃ (d d' : Bool) (Q a k : Arr) (args : List Val), Reach ext0 flyer0 d ∧
    Careful ext0 {0} flyer0 d' ∧ flyer0.Massive ∧ 0 < flyer0.dof ∧ Q.dims = [flyer0.dof, 100] ∧
    args = [.chars "link".toList, .num k, .chars "offset".toList, .num a] ∧
    Asks args 2 ⟨1, 2, 3⟩ ∧ flyer0.LinkIdx 2 2 := by
  obtain ⟨d, h⟩ := flyer_reach ext0
  obtain ⟨d', h'⟩ := flyer_careful
  let k : Arr := ⟨[1, 1], fun _ => 2⟩
  let a : Arr := ⟨[3, 1], fun k => k + 1⟩
  have h1 : Asks ([] ++ [.chars "link".toList, .num k]) 2 0 :=
    .link .none (ds := [1]) rfl (by simp) (by simp [k])
  have h2 := h1.offset (a := a) (ds := [1]) rfl (by simp)
  have e : (⟨a.e 0, a.e 1, a.e 2⟩ : Vec3) = ⟨1, 2, 3⟩ := by simp [a]; norm_num
  rw [e] at h2
  exact ⟨d, d', ⟨[flyer0.dof, 100], fun k => k⟩, a, k, _, h, h', flyer_definite.massive h.inv.tree,
    by show 0 < 6; omega, rfl, rfl, h2, ⟨by show 2 < 6; omega, .inl rfl⟩⟩

theorem px_ne : JType.px.subspace ≠ 0 := fun h => by
  have := congrArg (fun m : Motion => m.lin.x) h
  simp [JType.subspace] at this

/-- A sliding mass and four configurations one tenth of a second apart. -/
example : ∃ Q a : Arr, DReach ext0 (cart cache0) false none ∧ (cart cache0).NoPast none ∧
    (cart cache0).Massive ∧ (∀ k < (cart cache0).dof, (cart cache0).load k = none) ∧
    Q.dims = [(cart cache0).dof, 2 + 2] ∧ 0 < a.numel ∧ a.e 0 ≠ 0 :=
  ⟨⟨[1, 4], fun k => k ^ 2⟩, ⟨[1, 1], fun _ => 0.1⟩, cart_reach _ _, noPast_none _,
    (show (cart cache0).Definite from solo_definite (t := .px) px_ne).massive
      (cart_reach ext0 cache0).reach.inv.tree, fun _ _ => rfl, rfl, by simp [Arr.numel], by norm_num⟩

end Mex
end SpatialDyn
