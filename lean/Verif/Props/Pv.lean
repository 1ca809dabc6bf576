import Verif.Algo.PvMain

/-!
# C79: `pv` solves the equations of motion under contact constraints

`x` is any state of `Data` after `initPvSolver` and any number of calls to `pv` with the same contacts. `d`, `d'` are any
other `Data`: `rnea` and `forwardKinematics` on them say what the returned acceleration does. `pvForce` are the multipliers,
`aerr` the `contact_acceleration_error` of the contact data.
-/

namespace Pin
open Finset
variable {K : Type*} [Field K] [LinearOrder K] [IsStrictOrderedRing K] [HasEps K] {s : Sys K} {q v tau : ℕ → K}
  {ms : ℕ → RCM K} {nc : ℕ} {lg : SE3 K → Motion K} {x : PvData K}

/-- the feedback of one contact -/
theorem pvFeedback_row (m : RCM K) (k : Corr K) (c : PvCon K) {r : ℕ} (hr : r < m.type.dim) :
    (pvFeedback lg m k c).aerr.row r = (baumgarte k (match m.type with
      | .CONTACT_6D => -lg c.c1Mc2
      | .CONTACT_3D => ⟨-c.c1Mc2.trans, 0⟩) c.vc1).row r := by
  unfold pvFeedback
  cases ht : m.type with
  | CONTACT_6D =>
    rw [ht] at hr
    dsimp only
    have hr' : r < 6 := hr
    by_cases h1 : ∀ i < CType.CONTACT_6D.dim, k.Kd i = 0
    · have z1 := h1 r hr
      rw [if_pos h1]
      by_cases h2 : ∀ i < CType.CONTACT_6D.dim, k.Kp i = 0
      · have z2 := h2 r hr
        rw [if_pos h2]
        clear h1 h2 hr
        interval_cases r <;> simp [Motion.row, baumgarte, z1, z2]
      · rw [if_neg h2]
        clear h1 h2 hr
        interval_cases r <;> simp [Motion.row, baumgarte, diagMul, z1]
    · rw [if_neg h1]
      by_cases h2 : ∀ i < CType.CONTACT_6D.dim, k.Kp i = 0
      · have z2 := h2 r hr
        rw [if_pos h2]
        clear h1 h2 hr
        interval_cases r <;> simp [Motion.row, baumgarte, diagMul, z2]
      · rw [if_neg h2]
        clear h1 h2 hr
        interval_cases r <;> simp [Motion.row, baumgarte, diagMul] <;> ring
  | CONTACT_3D =>
    rw [ht] at hr
    dsimp only
    have hr' : r < 3 := hr
    by_cases h1 : ∀ i < CType.CONTACT_3D.dim, k.Kd i = 0
    · have z1 := h1 r hr
      rw [if_pos h1]
      by_cases h2 : ∀ i < CType.CONTACT_3D.dim, k.Kp i = 0
      · have z2 := h2 r hr
        rw [if_pos h2]
        clear h1 h2 hr
        interval_cases r <;> simp [Motion.row, baumgarte, z1, z2]
      · rw [if_neg h2]
        clear h1 h2 hr
        interval_cases r <;> simp [Motion.row, baumgarte, diagMul, z1]
    · rw [if_neg h1]
      by_cases h2 : ∀ i < CType.CONTACT_3D.dim, k.Kp i = 0
      · have z2 := h2 r hr
        rw [if_pos h2]
        clear h1 h2 hr
        interval_cases r <;> simp [Motion.row, baumgarte, diagMul, z2]
      · rw [if_neg h2]
        clear h1 h2 hr
        interval_cases r <;> simp [Motion.row, baumgarte, diagMul] <;> ring

section main
variable (h : s.Packed) (hf : PvFit s ms nc) (hx : PvReach s ms nc x) (hq : s.At q) (hy : s.Heavy q) (hg : s.grav.ang = 0)
  (ks : ℕ → Corr K) (cd : ℕ → PvCon K) {st : ProxSet K} (hn : 1 ≤ st.maxIter) (d d' : Data K)
include h hf hx hq hy hg hn

/-- **C79**, equations of motion and of the contacts: the inverse dynamics of the returned acceleration are the torques minus
the torques of the multipliers, and the contacts have the acceleration that the feedback asks for up to `mu` times the
reported residual. -/
theorem C79_equations (hmu : 0 < st.mu ∨ st.mu = 0 ∧ s.ConIndep q ms nc) :
    let y := pv lg s x q v tau ms ks nc cd st
    (∀ r < s.nv, (rnea s d q v y.1.data.ddq).tau r + s.conPower q ms nc (pvForce ms y.1) (Sys.unit r) = tau r) ∧
    ∀ k < nc, ∀ r < (ms k).type.dim,
      |((ms k).accIn (forwardKinematicsA s d' q v y.1.data.ddq)).row r - (y.2 k).aerr.row r| ≤ st.mu * y.1.absRes := by
  obtain ⟨e1, e2, e3, e4, p, e5, e6⟩ := pv_core (lg := lg) (v := v) (tau := tau) h hf hq hy hg (hx.ready h hf) ks cd hmu hn d d'
  refine ⟨fun r hr => ?_, fun k hk r hr => ?_⟩
  · have := e1 (Sys.unit r)
    rw [Sys.dotv_unit hr, Sys.dotv_unit hr] at this
    rw [this]; ring
  · have hm : 0 ≤ st.mu := by rcases hmu with e | ⟨e, -⟩ <;> linarith
    rw [e6 k hk r hr, abs_mul, abs_of_nonneg hm, e5 (by omega), (e2 k hk r hr).1, abs_sub_comm]
    exact mul_le_mul_of_nonneg_left (le_infNorm _ (fun r => p r - _) _ (e2 k hk r hr).2) hm

/-- **C79**, the vector of the multipliers: each entry of `data.lambdaA[0]` is one entry of the multiplier of one contact. -/
theorem C79_layout (hmu : 0 < st.mu ∨ st.mu = 0 ∧ s.ConIndep q ms nc) :
    let y := (pv lg s x q v tau ms ks nc cd st).1
    ∃ off : ℕ → ℕ, (∀ k < nc, ∀ r < (ms k).type.dim, pvForce ms y k r = y.lamA 0 (off k + r)) ∧
      (∀ k < nc, ∀ r < (ms k).type.dim, off k + r < y.dim 0) ∧
      ∀ t < y.dim 0, ∃! c : ℕ × ℕ, (c.1 < nc ∧ c.2 < (ms c.1).type.dim) ∧ off c.1 + c.2 = t := by
  obtain ⟨-, e2, e3, -⟩ := pv_core (lg := lg) (v := v) (tau := tau) h hf hq hy hg (hx.ready h hf) ks cd hmu hn
    Data.zero Data.zero
  intro y
  refine ⟨_, fun k hk r hr => (e2 k hk r hr).1, fun k hk r hr => (e2 k hk r hr).2, fun t ht => ?_⟩
  have := e3 (fun r => if r = t then 1 else 0)
  rw [sum_ite_eq', if_pos (mem_range.2 ht), sum_sigma', ← sum_filter, sum_const, nsmul_one] at this
  have h1 := Nat.cast_eq_one.1 this.symm
  obtain ⟨⟨k, r⟩, hc⟩ := card_eq_one.1 h1
  have hmem : ∀ k' r', (k' < nc ∧ r' < (ms k').type.dim) ∧ rootOff s.par y.pind (ms k').j1 + contactRow ms k' + r' = t ↔
      k' = k ∧ r' = r := by
    intro k' r'
    have := congrArg (fun S => (⟨k', r'⟩ : Σ _ : ℕ, ℕ) ∈ S) hc
    simpa using this
  exact ⟨(k, r), (hmem k r).2 ⟨rfl, rfl⟩, fun c hc => Prod.ext ((hmem _ _).1 hc).1 ((hmem _ _).1 hc).2⟩

/-- **C79**, without regularisation: the contacts have exactly the acceleration that the feedback asks for. -/
theorem C79_exact (hmu : st.mu = 0) (hi : s.ConIndep q ms nc) :
    let y := pv lg s x q v tau ms ks nc cd st
    ∀ k < nc, ∀ r < (ms k).type.dim,
      ((ms k).accIn (forwardKinematicsA s d' q v y.1.data.ddq)).row r = (y.2 k).aerr.row r := by
  intro y k hk r hr
  have := (C79_equations h hf hx hq hy hg ks cd hn Data.zero d' (.inr ⟨hmu, hi⟩) (lg := lg) (v := v) (tau := tau)).2 k hk r hr
  rw [hmu, zero_mul] at this
  exact sub_eq_zero.1 (abs_eq_zero.1 (le_antisymm this (abs_nonneg _)))

omit hx hg hn in
/-- **C79**, the equations have one solution: with independent contacts, accelerations and multipliers that meet the
equations of motion and give the contacts the same accelerations are equal. -/
theorem C79_unique {a b : ℕ → K} {f g : ℕ → ℕ → K} (hi : s.ConIndep q ms nc)
    (ha : ∀ r < s.nv, (rnea s d q v a).tau r + s.conPower q ms nc f (Sys.unit r) = tau r)
    (hb : ∀ r < s.nv, (rnea s d q v b).tau r + s.conPower q ms nc g (Sys.unit r) = tau r)
    (hc : ∀ k < nc, ∀ r < (ms k).type.dim, ((ms k).accIn (forwardKinematicsA s d' q v a)).row r
      = ((ms k).accIn (forwardKinematicsA s d' q v b)).row r) :
    (∀ r < s.nv, a r = b r) ∧ ∀ k < nc, ∀ r < (ms k).type.dim, f k r = g k r := by
  have hj : ∀ k < nc, (ms k).j1 < s.n := fun k hk => (hf k hk).2.2.1
  set w : ℕ → K := fun r => a r + -1 * b r with hw
  have hpow : ∀ w' (F : ℕ → ℕ → K) (c : ℕ → K),
      (∀ r < s.nv, (rnea s d q v c).tau r + s.conPower q ms nc F (Sys.unit r) = tau r) →
      s.massForm q w' c + s.dotv w' (nonLinearEffects s d q v).nle + s.conPower q ms nc F w' = s.dotv w' tau := by
    intro w' F c hF
    rw [← C12_affine h.wf d d hq v c w', conPower_coord h hj F w', ← s.dotv_add]
    exact sum_congr rfl fun r hr => by dsimp only; rw [hF r (mem_range.1 hr)]
  have hdiff : ∀ w', s.massForm q w' w + s.conPower q ms nc (fun k r => f k r - g k r) w' = 0 := by
    intro w'
    have e1 := hpow w' f a ha
    have e2 := hpow w' g b hb
    have e3 : s.conPower q ms nc (fun k r => f k r - g k r) w' = s.conPower q ms nc f w' - s.conPower q ms nc g w' := by
      unfold Sys.conPower
      simp only [mul_sub, sum_sub_distrib]
    rw [hw, s.massForm_add_right h.par, s.massForm_smul_right h.par, e3]
    linear_combination e1 - e2
  have hvel : ∀ k < nc, ∀ r < (ms k).type.dim, (s.conVel q (ms k) w).row r = 0 := by
    intro k hk r hr
    have e1 := accIn_affine h hq (ms k) (hf k hk).2.1 (hj k hk) d' d' v w b
    have e2 : (fun r => w r + b r) = a := by funext r; simp [hw]
    rw [e2] at e1
    have e3 := hc k hk r hr
    rw [e1, Motion.row_add] at e3
    linear_combination e3
  have hz : s.massForm q w w = 0 := by
    have := hdiff w
    have e : s.conPower q ms nc (fun k r => f k r - g k r) w = 0 := by
      unfold Sys.conPower
      refine sum_eq_zero fun k hk => sum_eq_zero fun r hr => ?_
      rw [hvel k (mem_range.1 hk) r (mem_range.1 hr), zero_mul]
    rwa [e, add_zero] at this
  have hw0 : ∀ r < s.nv, w r = 0 := by
    intro r hr
    by_contra hne
    exact absurd hz (Sys.massForm_pos h hy.body hy.cols hy.arm w ⟨r, hr, hne⟩).ne'
  refine ⟨fun r hr => ?_, fun k hk r hr => ?_⟩
  · have := hw0 r hr
    simp only [hw] at this
    linear_combination this
  · refine sub_eq_zero.1 (hi (fun k r => f k r - g k r) (fun w' => ?_) k hk r hr)
    have := hdiff w'
    rwa [Sys.massForm_congr_right h.wf (b := fun _ => 0) hw0, Sys.massForm_zero_right h.par, zero_add] at this

/-- **C79**, `pv` without regularisation returns the solution: any accelerations and multipliers that meet the equations
of motion and the contact accelerations are those of `data.ddq` and `data.lambdaA`. -/
theorem C79_solution (hmu : st.mu = 0) (hi : s.ConIndep q ms nc) {a : ℕ → K} {f : ℕ → ℕ → K}
    (ha : ∀ r < s.nv, (rnea s d q v a).tau r + s.conPower q ms nc f (Sys.unit r) = tau r)
    (hc : ∀ k < nc, ∀ r < (ms k).type.dim, ((ms k).accIn (forwardKinematicsA s d' q v a)).row r
      = ((pv lg s x q v tau ms ks nc cd st).2 k).aerr.row r) :
    (∀ r < s.nv, (pv lg s x q v tau ms ks nc cd st).1.data.ddq r = a r) ∧
    ∀ k < nc, ∀ r < (ms k).type.dim, pvForce ms (pv lg s x q v tau ms ks nc cd st).1 k r = f k r :=
  C79_unique h hf hq hy d d' hi
    (C79_equations h hf hx hq hy hg ks cd hn d d' (.inr ⟨hmu, hi⟩)).1 ha
    fun k hk r hr => (C79_exact h hf hx hq hy hg ks cd hn d' hmu hi k hk r hr).trans (hc k hk r hr).symm

/-- **C79**, the feedback: the acceleration asked for is `-Kp e - Kd ė`, `e` and `ė` from what the contact data hold when
`pv` is called. -/
theorem C79_feedback_partial (hmu : 0 < st.mu ∨ st.mu = 0 ∧ s.ConIndep q ms nc) :
    let y := pv lg s x q v tau ms ks nc cd st
    ∀ k < nc, ∀ r < (ms k).type.dim, (y.2 k).aerr.row r
      = (baumgarte (ks k) (match (ms k).type with
          | .CONTACT_6D => -lg (cd k).c1Mc2
          | .CONTACT_3D => ⟨-(cd k).c1Mc2.trans, 0⟩) (cd k).vc1).row r := by
  intro y k hk r hr
  obtain ⟨-, -, -, e, -⟩ := pv_core (lg := lg) (v := v) (tau := tau) h hf hq hy hg (hx.ready h hf) ks cd hmu hn
    Data.zero Data.zero
  rw [show (y.2 k).aerr = _ from e k hk]
  exact pvFeedback_row _ _ _ hr

end main

/-- **C79**, without contacts `pv` is forward dynamics -/
theorem C79_free (h : s.Packed) (hx : PvReach s ms 0 x) (hq : s.At q) (hy : s.Heavy q) (hg : s.grav.ang = 0)
    (ks : ℕ → Corr K) (cd : ℕ → PvCon K) {st : ProxSet K} (hn : 1 ≤ st.maxIter) (hmu : 0 < st.mu) (d : Data K) :
    ∀ r < s.nv, (rnea s d q v (pv lg s x q v tau ms ks 0 cd st).1.data.ddq).tau r = tau r := by
  intro r hr
  have := (C79_equations (lg := lg) (v := v) (tau := tau) h (fun k hk => by omega) hx hq hy hg ks cd hn d d (.inl hmu)).1 r hr
  simpa [Sys.conPower] using this

/-! ## the hypotheses are met -/

namespace Ex
/-- sliders along `x`, `y` and `z` on top of each other, with gravity -/
def sysXyz : Sys ℚ where
  n := 4
  par i := i - 1
  pl _ := 1
  Y i := ⟨i, 0, ⟨1, 0, 1, 0, 0, 1⟩⟩
  jt i := jPrismatic (if i = 1 then 0 else if i = 2 then 1 else 2)
  iq i := i - 1
  iv i := i - 1
  nv := 3
  arm _ := 1 / 2
  grav := ⟨⟨0, 0, -10⟩, 0⟩

/-- a point of the last body held in the world -/
def msXyz (_ : ℕ) : RCM ℚ := ⟨.CONTACT_3D, 3, 0, ⟨1, ⟨1, 2, 3⟩⟩, 1, .LOCAL, fun _ => true, fun _ => false, []⟩
/-- a frame of the last body held in the world -/
def msXyz6 (_ : ℕ) : RCM ℚ := ⟨.CONTACT_6D, 3, 0, ⟨1, ⟨1, 2, 3⟩⟩, 1, .LOCAL, fun _ => true, fun _ => false, []⟩

def pvZ : PvData ℚ := ⟨Data.zero, fun _ => 0, fun _ => 0, fun _ => 0, fun _ _ => 0, fun _ _ _ => 0, fun _ _ => 0,
  fun _ _ _ => 0, fun _ _ => 0, fun _ => 0, 0⟩
/-- contact data as constructed, `contact-info.hpp:898-931` -/
def cdF : ℕ → PvCon ℚ := fun _ => ⟨0, 1, 0, 0, 0⟩
/-- the gains `Kp` and `Kd`, the desired acceleration `des` along `x` -/
def gains (Kp Kd des : ℚ) : ℕ → Corr ℚ := fun _ => ⟨fun _ => Kp, fun _ => Kd, ⟨⟨des, 0, 0⟩, 0⟩⟩
/-- `log6` of translations -/
def lgT (M : SE3 ℚ) : Motion ℚ := ⟨M.trans, 0⟩
/-- one step without regularisation -/
def stZ : ProxSet ℚ := ⟨0, 0, 0, 1⟩
/-- velocity or torque `a` along `x` -/
def alongX (a : ℚ) : ℕ → ℚ := fun r => if r = 0 then a else 0

theorem sysXyz_packed : sysXyz.Packed := by
  refine ⟨⟨by decide, fun i h1 hi => ?_⟩, fun i h1 hi => ?_, rfl⟩ <;>
  · change i < 4 at hi
    interval_cases i <;> first | rfl | decide

theorem sysXyz_heavy (q : ℕ → ℚ) : sysXyz.Heavy q := by
  refine ⟨fun i h1 _ => ⟨?_, fun w hw => ?_⟩, fun i h1 hi x hx k hk => ?_, fun _ _ => by norm_num [sysXyz]⟩
  · show (0 : ℚ) < i
    exact_mod_cast h1
  · have h := lt_of_le_of_ne (Inertia.sqNorm_nonneg w) fun e => hw (Inertia.eq_zero_of_sqNorm e.symm)
    simp only [sysXyz, Sym3.vtiv, V3.sqNorm] at h ⊢
    nlinarith
  · change k < 1 at hk
    change i < 4 at hi
    obtain rfl : k = 0 := by omega
    interval_cases i <;>
    simpa [comb, sysXyz, Sys.jnv, Sys.S, jPrismatic, Motion.ext_iff, V3.ext_iff, cols, V3.axis] using hx

theorem sysXyz_at (q : ℕ → ℚ) : sysXyz.At q := ⟨fun _ _ _ => SE3.valid_one, fun _ _ _ => jPrismatic_ok _ _⟩

set_option maxRecDepth 100000 in
theorem sysXyz_vel : ∀ r < 3, ∀ c < 3, (sysXyz.conVel (fun _ => 0) (msXyz 0) (Sys.unit r)).row c = if r = c then 1 else 0 := by
  decide +kernel

theorem sysXyz_indep : sysXyz.ConIndep (fun _ => 0) msXyz 1 := by
  intro f hf k hk r hr
  obtain rfl : k = 0 := by omega
  have hr : r < 3 := hr
  have := hf (Sys.unit r)
  unfold Sys.conPower at this
  rw [sum_range_one, show (msXyz 0).type.dim = 3 from rfl,
    sum_congr rfl fun c hc => by rw [sysXyz_vel r hr c (mem_range.1 hc)]] at this
  simpa [hr] using this
end Ex

/-- a point contact without regularisation, and a frame contact on the tree `sysY` beside a point contact with it -/
example : (Ex.sysXyz.Packed ∧ PvFit Ex.sysXyz Ex.msXyz 1 ∧ PvReach Ex.sysXyz Ex.msXyz 1 (initPvSolver Ex.sysXyz Ex.pvZ Ex.msXyz 1) ∧
      Ex.sysXyz.At (fun _ => 0) ∧ Ex.sysXyz.Heavy (fun _ => 0) ∧ Ex.sysXyz.grav.ang = 0 ∧ Ex.sysXyz.grav ≠ 0 ∧
      Ex.sysXyz.ConIndep (fun _ => 0) Ex.msXyz 1 ∧ 1 ≤ Ex.stZ.maxIter ∧ Ex.stZ.mu = 0) ∧
    Ex.sysY.Packed ∧ PvFit Ex.sysY Ex.msY 2 ∧ Ex.sysY.At (fun _ => 1) ∧ Ex.sysY.Heavy (fun _ => 1) ∧ Ex.sysY.grav.ang = 0 := by
  refine ⟨⟨Ex.sysXyz_packed, fun k _ => ⟨⟨rfl, rfl⟩, (by decide : 1 ≤ 3), (by decide : 3 < 4), M3.IsRot.one⟩, .init _, Ex.sysXyz_at _, Ex.sysXyz_heavy _,
    rfl, by decide, Ex.sysXyz_indep, le_rfl, rfl⟩, Ex.sysY_packed, fun k hk => ?_,
    ⟨fun _ _ _ => SE3.valid_one, fun _ _ _ => jPrismatic_ok _ _⟩, Ex.sysY_heavy _, rfl⟩
  interval_cases k
  · exact ⟨⟨rfl, rfl⟩, by decide, by decide, M3.IsRot.one⟩
  · exact ⟨⟨rfl, rfl⟩, by decide, by decide, SE3.valid_one⟩

/-- equations that the acceleration of `C79_solution` meets -/
example : ∀ r < 3, (pv Ex.lgT Ex.sysXyz (initPvSolver Ex.sysXyz Ex.pvZ Ex.msXyz 1) (fun _ => 0) (fun _ => 0) (Ex.alongX 5) Ex.msXyz
    (Ex.gains 0 0 0) 1 Ex.cdF Ex.stZ).1.data.ddq r = 0 := by
  decide +kernel

/-! ## findings -/

namespace Ex
/-- the call on new contact data, at configuration and velocity `a`, `b` along `x` -/
def call (a b : ℚ) (ms : ℕ → RCM ℚ) (ks : ℕ → Corr ℚ) (cd : ℕ → PvCon ℚ) : PvData ℚ × (ℕ → PvCon ℚ) :=
  pv lgT sysXyz (initPvSolver sysXyz pvZ ms 1) (alongX a) (alongX b) (fun _ => 0) ms ks 1 cd stZ
end Ex

set_option maxRecDepth 100000 in
/-- `pv` reads the velocity of a contact from the contact data before it writes it (`pv.hxx:493-506, 536`): on new contact data
the damping `Kd` of the corrector does nothing. A point that moves at 1 m/s with `Kd = 1` should have the acceleration -1, and gets
0; the call after that, on the same contact data, gives -1. -/
theorem C79_velocity_counterexample :
    let y := Ex.call 0 1 Ex.msXyz (Ex.gains 0 1 0) Ex.cdF
    (Ex.sysXyz.conVel (Ex.alongX 0) (Ex.msXyz 0) (Ex.alongX 1)).row 0 = 1 ∧ y.1.data.ddq 0 = 0 ∧
    (Ex.call 0 1 Ex.msXyz (Ex.gains 0 1 0) y.2).1.data.ddq 0 = -1 := by
  decide +kernel

theorem pvContact_vc1 {K : Type*} [Field K] [DecidableEq K] {ms : ℕ → RCM K} (lg : SE3 K → Motion K) (ks : ℕ → Corr K) (x : PvData K)
    (n : ℕ) (z : PvLoop K) {k : ℕ} (ht : (ms k).type = .CONTACT_6D) :
    ((pvContact lg ms ks x n z).cd k).vc1 = (z.cd k).vc1 := by
  by_cases e : k = n
  · subst e
    unfold pvContact
    dsimp only
    rw [ht]
    dsimp only
    rw [upd_self]
    unfold pvFeedback
    rw [ht]
    dsimp only
    split_ifs <;> rfl
  · unfold pvContact
    dsimp only
    split <;>
    · dsimp only
      rw [upd_ne _ _ e]

/-- For a `CONTACT_6D` the velocity in the contact data is never written (`pv.hxx:534-545`): `Kd` has no effect, whatever the model,
the velocity and the number of calls. -/
theorem C79_velocity6_counterexample {K : Type*} [Field K] [LinearOrder K] {s : Sys K} {ms : ℕ → RCM K} {nc : ℕ}
    (lg : SE3 K → Motion K) (x : PvData K) (q v tau : ℕ → K) (ks : ℕ → Corr K) (cd : ℕ → PvCon K) (st : ProxSet K) {k : ℕ}
    (ht : (ms k).type = .CONTACT_6D) : ((pv lg s x q v tau ms ks nc cd st).2 k).vc1 = (cd k).vc1 := by
  unfold pv pvSetup
  dsimp only
  exact upTo_ind (fun _ (z : PvLoop K) => (z.cd k).vc1 = (cd k).vc1) rfl
    fun n z _ ih => (pvContact_vc1 lg ks _ n z ht).trans ih

set_option maxRecDepth 100000 in
/-- a frame contact that moves, with `Kd = 1`, in two calls -/
example : (Ex.sysXyz.conVel (Ex.alongX 0) (Ex.msXyz6 0) (Ex.alongX 1)).row 0 = 1 ∧
    ((Ex.call 0 1 Ex.msXyz6 (Ex.gains 0 1 0) (Ex.call 0 1 Ex.msXyz6 (Ex.gains 0 1 0) Ex.cdF).2).2 0).aerr.row 0 = 0 := by
  decide +kernel

set_option maxRecDepth 100000 in
/-- `pv` does not compute the placement `c1Mc2` that the stiffness `Kp` of the corrector multiplies (`pv.hxx:509-527`): on new contact
data `Kp` does nothing. A point contact whose body has drifted by 1 m along `x` with `Kp = 1` should have the acceleration -1, and
gets 0. -/
theorem C79_placement_counterexample :
    (Ex.sysXyz.oM (Ex.alongX 1) 3).trans = ⟨1, 0, 0⟩ ∧ (Ex.call 1 0 Ex.msXyz (Ex.gains 1 0 0) Ex.cdF).1.data.ddq 0 = 0 := by
  decide +kernel

set_option maxRecDepth 100000 in
/-- `pv` does not read the acceleration `contact_acceleration_desired` of the contact data, which `constraintDynamics` adds to the
constraint (`constrained-dynamics.hxx:433-438`): a point asked for the acceleration 1 gets 0. -/
theorem C79_desired_counterexample : (Ex.call 0 0 Ex.msXyz (Ex.gains 0 0 1) Ex.cdF).1.data.ddq 0 = 0 := by
  decide +kernel

set_option maxRecDepth 100000 in
/-- "`data.lambdaA[0]` stores the constraint forces" (`pv.hpp:61-62`): it stores minus the forces. A body pushed by 5 along `x` and held
by the contact gets 5, where the force of the contact on the body is -5. -/
theorem C79_sign_counterexample :
    let y := (pv Ex.lgT Ex.sysXyz (initPvSolver Ex.sysXyz Ex.pvZ Ex.msXyz 1) (fun _ => 0) (fun _ => 0) (Ex.alongX 5) Ex.msXyz
      (Ex.gains 0 0 0) 1 Ex.cdF Ex.stZ).1
    y.lamA 0 0 = 5 ∧ (rnea Ex.sysXyz Data.zero (fun _ => 0) (fun _ => 0) y.data.ddq).tau 0 = 5 + -5 := by
  decide +kernel

end Pin
