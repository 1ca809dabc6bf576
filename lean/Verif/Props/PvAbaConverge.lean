import Verif.Props.ContactAba

/-!
# C80: `constrainedABA` converges

Each turn brings the multipliers nearer to those of every solution of the constrained equations, so that the residual falls below
every positive tolerance. The notation is that of `Props/PvAba.lean`.
-/

namespace Pin
open Finset
variable {K : Type*} [Field K] [LinearOrder K] [IsStrictOrderedRing K] [HasEps K] {s : Sys K} {q v tau : ℕ → K}
  {ms : ℕ → RCM K} {nc : ℕ} {lg : SE3 K → Motion K} {x : PvData K}

/-- a step of the multipliers along the error of the contacts -/
theorem con_descent (h : s.Packed) (hq : s.At q) (hy : s.Heavy q) (hj : ∀ k < nc, 1 ≤ (ms k).j1 ∧ (ms k).j1 < s.n) {mu : K}
    (hmu : 0 < mu) (d d' : Data K) {a b : ℕ → K} {f L err : ℕ → ℕ → K} {n : ℕ → K} (hn : ∀ k < nc, 1 ≤ n k)
    (hb : ∀ r < s.nv, (rnea s d q v b).tau r + s.conPower q ms nc (fun k e => L k e + n k / mu * err k e) (Sys.unit r) = tau r)
    (ha : ∀ r < s.nv, (rnea s d q v a).tau r + s.conPower q ms nc f (Sys.unit r) = tau r)
    (he : ∀ k < nc, ∀ r < (ms k).type.dim, err k r = ((ms k).accIn (forwardKinematicsA s d' q v b)).row r
      - ((ms k).accIn (forwardKinematicsA s d' q v a)).row r) :
    conSum ms nc (fun k r => (L k r + 1 / mu * err k r - f k r) ^ 2) + (1 / mu) ^ 2 * conSum ms nc (fun k r => err k r ^ 2)
      ≤ conSum ms nc (fun k r => (L k r - f k r) ^ 2) := by
  set w : ℕ → K := fun r => b r + -1 * a r with hw
  have hpow : ∀ (F : ℕ → ℕ → K) (c : ℕ → K),
      (∀ r < s.nv, (rnea s d q v c).tau r + s.conPower q ms nc F (Sys.unit r) = tau r) →
      s.massForm q w c + s.dotv w (nonLinearEffects s d q v).nle + s.conPower q ms nc F w = s.dotv w tau := by
    intro F c hF
    rw [← C12_affine h.wf d d hq v c w, conPower_coord h (fun k hk => (hj k hk).2) F w, ← s.dotv_add]
    exact sum_congr rfl fun r hr => by dsimp only; rw [hF r (mem_range.1 hr)]
  have e1 := hpow _ _ hb
  have e2 := hpow _ _ ha
  have e3 : s.massForm q w w = s.massForm q w b - s.massForm q w a := by
    conv_lhs => rw [hw]
    rw [s.massForm_add_right h.par, s.massForm_smul_right h.par]
    ring
  have hpos : 0 ≤ s.massForm q w w := Sys.massForm_nonneg h hy w
  have herr : ∀ k < nc, ∀ r < (ms k).type.dim, (s.conVel q (ms k) w).row r = err k r := by
    intro k hk r hr
    have e1 := accIn_affine h hq (ms k) (hj k hk).1 (hj k hk).2 d' d' v w a
    have e2 : (fun r => w r + a r) = b := by funext r; simp only [hw]; ring
    rw [e2] at e1
    rw [he k hk r hr, e1, Motion.row_add]
    ring
  have e4 : conSum ms nc (fun k r => (L k r - f k r) ^ 2)
      = conSum ms nc (fun k r => (L k r + 1 / mu * err k r - f k r) ^ 2) + (1 / mu) ^ 2 * conSum ms nc (fun k r => err k r ^ 2)
        - 2 * (1 / mu) * (s.conPower q ms nc (fun k e => L k e + n k / mu * err k e) w - s.conPower q ms nc f w)
        + 2 * (1 / mu) ^ 2 * conSum ms nc (fun k r => (n k - 1) * err k r ^ 2) := by
    unfold conSum Sys.conPower
    simp only [mul_sum, ← sum_sub_distrib, ← sum_add_distrib]
    refine sum_congr rfl fun k hk => sum_congr rfl fun r hr => ?_
    rw [herr k (mem_range.1 hk) r (mem_range.1 hr)]
    ring
  have e5 : s.conPower q ms nc (fun k e => L k e + n k / mu * err k e) w - s.conPower q ms nc f w = -s.massForm q w w := by
    rw [e3]; linear_combination e1 - e2
  have e6 : 0 ≤ conSum ms nc (fun k r => (n k - 1) * err k r ^ 2) :=
    sum_nonneg fun k hk => sum_nonneg fun r _ => mul_nonneg (sub_nonneg.2 (hn k (mem_range.1 hk))) (sq_nonneg _)
  rw [e4, e5]
  have e7 := mul_nonneg (one_div_nonneg.2 hmu.le) hpos
  have e8 := mul_nonneg (sq_nonneg (1 / mu)) e6
  nlinarith

theorem conSum_rows (ms : ℕ → RCM K) (nc : ℕ) (f : ℕ → K) :
    ∑ r ∈ range (conRow ms nc), f r = conSum ms nc (fun k r => f (conRow ms k + r)) := by
  unfold conSum
  induction nc with
  | zero => rfl
  | succ n ih =>
    rw [sum_range_succ, ← ih]
    exact sum_range_add f (conRow ms n) (ms n).type.dim

/-- **C80**, convergence: if accelerations `a` and multipliers `f` meet the constraints and the equations of motion, then the
call reaches the tolerance, from any state of `Data`: it does when `max_iter - 2` is above the squared distance of the multipliers after
two iterations to `f`, times `(mu / absolute_accuracy)²`. -/
theorem C80_converges (h : s.Packed) (hf : PvFit s ms nc) (hx : CabaReach s ms nc x) (hq : s.At q) (hy : s.Heavy q)
    (hg : s.grav.ang = 0) (ks : ℕ → Corr K) (cd : ℕ → PvCon K) {st : ProxSet K} (hmu : 0 < st.mu) (d d' : Data K)
    (hacc : 0 < st.absAcc) (hn : 2 ≤ st.maxIter) {a : ℕ → K} {f : ℕ → ℕ → K}
    (ha : ∀ r < s.nv, (rnea s d q v a).tau r + s.conPower q ms nc f (Sys.unit r) = tau r)
    (hc : ∀ k < nc, ∀ r < (ms k).type.dim, ((ms k).accIn (forwardKinematicsA s d' q v a)).row r
      = ((constrainedABA lg s x q v tau ms ks nc cd st).2 k).aerr.row r)
    (hd : conSum ms nc (fun k r => (cabaForce ms (constrainedABA lg s x q v tau ms ks nc cd { st with maxIter := 2 }).1 k r
      - cabaForce ms x k r - f k r) ^ 2) < (st.maxIter - 2 : ℕ) * (st.absAcc / st.mu) ^ 2) :
    (constrainedABA lg s x q v tau ms ks nc cd st).1.absRes ≤ st.absAcc := by
  have hj : ∀ k < nc, 1 ≤ (ms k).j1 ∧ (ms k).j1 < s.n := fun k hk => ⟨(hf k hk).2.1, (hf k hk).2.2.1⟩
  have key : ∀ m, let y := (constrainedABA lg s x q v tau ms ks nc cd { st with maxIter := m + 2 }).1
      y.absRes ≤ st.absAcc ∨
      conSum ms nc (fun k r => (cabaForce ms y k r - cabaForce ms x k r - f k r) ^ 2) + m * (st.absAcc / st.mu) ^ 2
        ≤ conSum ms nc (fun k r => (cabaForce ms (constrainedABA lg s x q v tau ms ks nc cd { st with maxIter := 2 }).1 k r
          - cabaForce ms x k r - f k r) ^ 2) := by
    intro m
    induction m with
    | zero => exact .inr (by rw [Nat.cast_zero, zero_mul, add_zero])
    | succ m ih =>
      dsimp only at ih ⊢
      rcases caba_next (q := q) (v := v) (tau := tau) (ms := ms) (nc := nc) h lg x ks cd st (m + 1) with ⟨e1, e2⟩ | ⟨e1, e2⟩
      · exact .inl (by rw [e2]; exact e1)
      · have e1 := e1.resolve_left (by omega)
        rcases ih with ih | ih
        · exact absurd ih (not_le.2 e1)
        · right
          obtain ⟨-, -, -, c4⟩ := caba_core (lg := lg) (v := v) (tau := tau) h hf hq hy hg (hx.ready h hf) ks cd
            (st := { st with maxIter := m + 2 }) hmu d d'
          obtain ⟨p1, p2⟩ := c4 (by change 2 ≤ m + 2; omega)
          dsimp only at p1
          have c1 := (C80_equations (lg := lg) (v := v) (tau := tau) h hf hx hq hy hg ks cd
            (st := { st with maxIter := m + 2 }) hmu d d').1
          have hdes := con_descent h hq hy hj hmu d d' (n := fun k => (conCount ms nc (ms k).j1 : K)) (fun k hk => by
            rw [Nat.one_le_cast]
            exact card_pos.2 ⟨k, mem_filter.2 ⟨mem_range.2 hk, rfl⟩⟩) c1 ha (fun k hk r hr => by
            rw [hc k hk r hr]; rfl)
          set y := (constrainedABA lg s x q v tau ms ks nc cd { st with maxIter := m + 2 }).1 with hyd
          have e3 : conSum ms nc (fun k r => (cabaForce ms (constrainedABA lg s x q v tau ms ks nc cd
                { st with maxIter := m + 1 + 2 }).1 k r - cabaForce ms x k r - f k r) ^ 2)
              = conSum ms nc (fun k r => (cabaForce ms y k r - cabaForce ms x k r + 1 / st.mu
                * (((ms k).accIn (forwardKinematicsA s d' q v y.data.ddq)).row r
                  - ((constrainedABA lg s x q v tau ms ks nc cd { st with maxIter := m + 2 }).2 k).aerr.row r) - f k r) ^ 2) :=
            sum_congr rfl fun k hk => sum_congr rfl fun r hr => by
              dsimp only
              rw [← p1 k (mem_range.1 hk) r (mem_range.1 hr)]
              have := e2 (conRow ms k + r)
              unfold cabaForce
              rw [this]
              ring
          have e4 : y.absRes ^ 2 ≤ conSum ms nc (fun k r => (((ms k).accIn (forwardKinematicsA s d' q v y.data.ddq)).row r
                  - ((constrainedABA lg s x q v tau ms ks nc cd { st with maxIter := m + 2 }).2 k).aerr.row r) ^ 2) := by
            rw [p2]
            refine (infNorm_sq_sum _ _).trans_eq ?_
            rw [conSum_rows]
            exact sum_congr rfl fun k hk => sum_congr rfl fun r hr => by
              dsimp only
              rw [p1 k (mem_range.1 hk) r (mem_range.1 hr)]
          have e5 : st.absAcc ^ 2 ≤ y.absRes ^ 2 := pow_le_pow_left₀ hacc.le e1.le 2
          have e6 := mul_le_mul_of_nonneg_left (e5.trans e4) (sq_nonneg (1 / st.mu))
          rw [e3]
          have e7 : (st.absAcc / st.mu) ^ 2 = (1 / st.mu) ^ 2 * st.absAcc ^ 2 := by ring
          push_cast
          rw [e7] at ih ⊢
          linarith
  have hst : ({ st with maxIter := st.maxIter - 2 + 2 } : ProxSet K) = st := by
    rw [show st.maxIter - 2 + 2 = st.maxIter by omega]
  have := key (st.maxIter - 2)
  rw [hst] at this
  rcases this with e | e
  · exact e
  · have : 0 ≤ conSum ms nc (fun k r => (cabaForce ms (constrainedABA lg s x q v tau ms ks nc cd st).1 k r
        - cabaForce ms x k r - f k r) ^ 2) := sum_nonneg fun k _ => sum_nonneg fun r _ => sq_nonneg _
    linarith

set_option maxRecDepth 100000 in
/-- the slider of `sysX1` with torque 15 and the point held, on fresh data: the solution `0`, `5`; after two iterations the multiplier is
-10, and with tolerance 1 the bound is 226 -/
example : (∀ r < 1, (rnea Ex.sysX1 Data.zero (fun _ => 0) (fun _ => 0) (fun _ => 0)).tau r
      + Ex.sysX1.conPower (fun _ => 0) Ex.msXy 1 (fun _ e => if e = 0 then 5 else 0) (Sys.unit r) = 15) ∧
    (∀ r < 3, ((Ex.msXy 0).accIn (forwardKinematicsA Ex.sysX1 Data.zero (fun _ => 0) (fun _ => 0) (fun _ => 0))).row r
      = ((Ex.hold (initPvSolver Ex.sysX1 Ex.pvZ Ex.msXy 1) 15 2).2 0).aerr.row r) ∧
    conSum Ex.msXy 1 (fun k r => (cabaForce Ex.msXy (Ex.hold (initPvSolver Ex.sysX1 Ex.pvZ Ex.msXy 1) 15 2).1 k r
      - cabaForce Ex.msXy (initPvSolver Ex.sysX1 Ex.pvZ Ex.msXy 1) k r - if r = 0 then 5 else 0) ^ 2)
      < ((228 - 2 : ℕ) : ℚ) * (1 / 1) ^ 2 := by
  decide +kernel

end Pin
