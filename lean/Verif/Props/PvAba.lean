import Verif.Algo.PvAbaMain
import Verif.Props.Pv

/-!
# C80: `constrainedABA` solves the equations of motion under contact constraints

`x` is any state of `Data` after `initPvSolver` and any number of calls to `constrainedABA` with the same contacts. `d`, `d'`
are any other `Data`: `rnea` and `forwardKinematics` on them say what the returned acceleration does. `cabaForce` are the
multipliers in `data.lambdaA[0]`, `aerr` the `contact_acceleration_error` of the contact data.
-/

namespace Pin
open Finset
variable {K : Type*} [Field K] [LinearOrder K] [IsStrictOrderedRing K] [HasEps K] {s : Sys K} {q v tau : ℕ → K}
  {ms : ℕ → RCM K} {nc : ℕ} {lg : SE3 K → Motion K} {x : PvData K}

section main
variable (h : s.Packed) (hf : PvFit s ms nc) (hx : CabaReach s ms nc x) (hq : s.At q) (hy : s.Heavy q) (hg : s.grav.ang = 0)
  (ks : ℕ → Corr K) (cd : ℕ → PvCon K) {st : ProxSet K} (hmu : 0 < st.mu) (d d' : Data K)
include h hf hx hq hy hg hmu

/-- **C80**, equations of motion and of the contacts, for every history: the inverse dynamics of the returned acceleration are
the torques minus the torques of the multipliers that the call added to `data.lambdaA[0]` and of a penalty on the error of the
contacts; with `max_iter ≥ 2` that error is at most the reported residual. -/
theorem C80_equations :
    let y := constrainedABA lg s x q v tau ms ks nc cd st
    let err := fun k r => ((ms k).accIn (forwardKinematicsA s d' q v y.1.data.ddq)).row r - (y.2 k).aerr.row r
    (∀ r < s.nv, (rnea s d q v y.1.data.ddq).tau r + s.conPower q ms nc (fun k r => cabaForce ms y.1 k r - cabaForce ms x k r
      + conCount ms nc (ms k).j1 / st.mu * err k r) (Sys.unit r) = tau r) ∧
    (2 ≤ st.maxIter → ∀ k < nc, ∀ r < (ms k).type.dim, |err k r| ≤ y.1.absRes) := by
  obtain ⟨e1, e2, -⟩ := caba_core (lg := lg) (v := v) (tau := tau) h hf hq hy hg (hx.ready h hf) ks cd hmu d d'
  refine ⟨fun r hr => ?_, e2⟩
  have := e1 (Sys.unit r)
  rw [Sys.dotv_unit hr, Sys.dotv_unit hr] at this
  rw [this]; ring

/-- **C80**, converged: when the reported residual is zero, the contacts have exactly the acceleration that the feedback asks
for, and the equations of motion hold with the multipliers that the call added. -/
theorem C80_exact (hn : 2 ≤ st.maxIter) (h0 : (constrainedABA lg s x q v tau ms ks nc cd st).1.absRes = 0) :
    let y := constrainedABA lg s x q v tau ms ks nc cd st
    (∀ r < s.nv, (rnea s d q v y.1.data.ddq).tau r
      + s.conPower q ms nc (fun k r => cabaForce ms y.1 k r - cabaForce ms x k r) (Sys.unit r) = tau r) ∧
    ∀ k < nc, ∀ r < (ms k).type.dim,
      ((ms k).accIn (forwardKinematicsA s d' q v y.1.data.ddq)).row r = (y.2 k).aerr.row r := by
  intro y
  obtain ⟨e1, e2⟩ := C80_equations (lg := lg) (v := v) (tau := tau) h hf hx hq hy hg ks cd hmu d d'
  have e3 : ∀ k < nc, ∀ r < (ms k).type.dim,
      ((ms k).accIn (forwardKinematicsA s d' q v y.1.data.ddq)).row r - (y.2 k).aerr.row r = 0 := fun k hk r hr =>
    abs_eq_zero.1 (le_antisymm ((e2 hn k hk r hr).trans_eq h0) (abs_nonneg _))
  refine ⟨fun r hr => ?_, fun k hk r hr => sub_eq_zero.1 (e3 k hk r hr)⟩
  rw [← e1 r hr]
  refine congrArg _ (sum_congr rfl fun k hk => sum_congr rfl fun c hc => ?_)
  dsimp only
  rw [e3 k (mem_range.1 hk) c (mem_range.1 hc), mul_zero, add_zero]

/-- **C80**, converged and with independent contacts: `constrainedABA` returns the one solution of the equations. -/
theorem C80_solution (hn : 2 ≤ st.maxIter) (h0 : (constrainedABA lg s x q v tau ms ks nc cd st).1.absRes = 0)
    (hi : s.ConIndep q ms nc) {a : ℕ → K} {f : ℕ → ℕ → K}
    (ha : ∀ r < s.nv, (rnea s d q v a).tau r + s.conPower q ms nc f (Sys.unit r) = tau r)
    (hc : ∀ k < nc, ∀ r < (ms k).type.dim, ((ms k).accIn (forwardKinematicsA s d' q v a)).row r
      = ((constrainedABA lg s x q v tau ms ks nc cd st).2 k).aerr.row r) :
    (∀ r < s.nv, (constrainedABA lg s x q v tau ms ks nc cd st).1.data.ddq r = a r) ∧
    ∀ k < nc, ∀ r < (ms k).type.dim,
      cabaForce ms (constrainedABA lg s x q v tau ms ks nc cd st).1 k r - cabaForce ms x k r = f k r := by
  obtain ⟨e1, e2⟩ := C80_exact (lg := lg) (v := v) (tau := tau) h hf hx hq hy hg ks cd hmu d d' hn h0
  exact C79_unique h hf hq hy d d' hi e1 ha fun k hk r hr => (e2 k hk r hr).trans (hc k hk r hr).symm

/-- **C80**, the feedback: the acceleration asked for is `-Kp e - Kd ė`, `e` and `ė` from what the contact data hold when
`constrainedABA` is called. -/
theorem C80_feedback_partial :
    let y := constrainedABA lg s x q v tau ms ks nc cd st
    ∀ k < nc, ∀ r < (ms k).type.dim, (y.2 k).aerr.row r
      = (baumgarte (ks k) (match (ms k).type with
          | .CONTACT_6D => -lg (cd k).c1Mc2
          | .CONTACT_3D => ⟨-(cd k).c1Mc2.trans, 0⟩) (cd k).vc1).row r := by
  intro y k hk r hr
  obtain ⟨-, -, e, -⟩ := caba_core (lg := lg) (v := v) (tau := tau) h hf hq hy hg (hx.ready h hf) ks cd hmu
    Data.zero Data.zero
  rw [show (y.2 k).aerr = _ from e k hk]
  exact pvFeedback_row _ _ _ hr

omit hx in
/-- **C80**, the two solvers agree: on the same contacts, `constrainedABA` converged and `pv` without regularisation return the
same accelerations, and `constrainedABA` after `initPvSolver` the same multipliers, in the order of the contacts. -/
theorem C80_pv {x₁ x₂ : PvData K} (hx₁ : PvReach s ms nc x₁) {st₁ : ProxSet K} (hn₁ : 1 ≤ st₁.maxIter) (hmu₁ : st₁.mu = 0)
    (hi : s.ConIndep q ms nc) (hn : 2 ≤ st.maxIter)
    (h0 : (constrainedABA lg s (initPvSolver s x₂ ms nc) q v tau ms ks nc cd st).1.absRes = 0) :
    let y₁ := pv lg s x₁ q v tau ms ks nc cd st₁
    let y := constrainedABA lg s (initPvSolver s x₂ ms nc) q v tau ms ks nc cd st
    (∀ r < s.nv, y.1.data.ddq r = y₁.1.data.ddq r) ∧
    ∀ k < nc, ∀ r < (ms k).type.dim, cabaForce ms y.1 k r = pvForce ms y₁.1 k r := by
  intro y₁ y
  have hp : 0 < st₁.mu ∨ st₁.mu = 0 ∧ s.ConIndep q ms nc := .inr ⟨hmu₁, hi⟩
  have e := C80_solution (lg := lg) (v := v) (tau := tau) h hf (.init x₂) hq hy hg ks cd hmu Data.zero Data.zero hn h0 hi
    (C79_equations (lg := lg) h hf hx₁ hq hy hg ks cd hn₁ Data.zero Data.zero hp).1 fun k hk r hr => by
      rw [C79_exact (lg := lg) h hf hx₁ hq hy hg ks cd hn₁ Data.zero hmu₁ hi k hk r hr,
        C79_feedback_partial h hf hx₁ hq hy hg ks cd hn₁ hp k hk r hr,
        C80_feedback_partial h hf (.init x₂) hq hy hg ks cd hmu k hk r hr]
      rfl
  refine ⟨e.1, fun k hk r hr => ?_⟩
  rw [← e.2 k hk r hr]
  exact (sub_zero _).symm

omit hx in
/-- **C80**, the multipliers after `initPvSolver`: the equations of motion hold with those in `data.lambdaA[0]` up to the
reported residual over `mu`, times the number of contacts on the joint and the Jacobian of the contacts. -/
theorem C80_multiplier (x : PvData K) (hn : 2 ≤ st.maxIter) :
    let y := (constrainedABA lg s (initPvSolver s x ms nc) q v tau ms ks nc cd st).1
    ∀ r < s.nv, |(rnea s d q v y.data.ddq).tau r + s.conPower q ms nc (cabaForce ms y) (Sys.unit r) - tau r|
      ≤ y.absRes / st.mu * ∑ k ∈ range nc, ∑ c ∈ range (ms k).type.dim,
        conCount ms nc (ms k).j1 * |(s.conVel q (ms k) (Sys.unit r)).row c| := by
  intro y r hr
  obtain ⟨e1, e2⟩ := C80_equations (lg := lg) (v := v) (tau := tau) h hf (.init x) hq hy hg ks cd hmu d Data.zero
  rw [← e1 r hr]
  have e3 : s.conPower q ms nc (cabaForce ms y) (Sys.unit r) - s.conPower q ms nc (fun k c => cabaForce ms y k c
      - cabaForce ms (initPvSolver s x ms nc) k c + conCount ms nc (ms k).j1 / st.mu
      * (((ms k).accIn (forwardKinematicsA s Data.zero q v y.data.ddq)).row c
        - ((constrainedABA lg s (initPvSolver s x ms nc) q v tau ms ks nc cd st).2 k).aerr.row c)) (Sys.unit r)
      = ∑ k ∈ range nc, ∑ c ∈ range (ms k).type.dim, -((s.conVel q (ms k) (Sys.unit r)).row c * (conCount ms nc (ms k).j1 / st.mu
        * (((ms k).accIn (forwardKinematicsA s Data.zero q v y.data.ddq)).row c
          - ((constrainedABA lg s (initPvSolver s x ms nc) q v tau ms ks nc cd st).2 k).aerr.row c))) := by
    unfold Sys.conPower
    simp only [← sum_sub_distrib]
    refine sum_congr rfl fun k _ => sum_congr rfl fun c _ => ?_
    rw [show cabaForce ms (initPvSolver s x ms nc) k c = 0 from rfl]
    ring
  rw [add_sub_add_left_eq_sub, e3, mul_sum]
  refine (abs_sum_le_sum_abs _ _).trans (sum_le_sum fun k hk => ?_)
  rw [mul_sum]
  refine (abs_sum_le_sum_abs _ _).trans (sum_le_sum fun c hc => ?_)
  have e4 := e2 hn k (mem_range.1 hk) c (mem_range.1 hc)
  rw [abs_neg, abs_mul, abs_mul, abs_div, abs_of_pos hmu, Nat.abs_cast]
  calc _ ≤ |(s.conVel q (ms k) (Sys.unit r)).row c| * (conCount ms nc (ms k).j1 / st.mu * y.absRes) :=
        mul_le_mul_of_nonneg_left (mul_le_mul_of_nonneg_left e4 (by positivity)) (abs_nonneg _)
    _ = _ := by ring

end main

/-- **C80**, without contacts `constrainedABA` is forward dynamics -/
theorem C80_free (h : s.Packed) (hx : CabaReach s ms 0 x) (hq : s.At q) (hy : s.Heavy q) (hg : s.grav.ang = 0)
    (ks : ℕ → Corr K) (cd : ℕ → PvCon K) {st : ProxSet K} (hmu : 0 < st.mu) (d : Data K) :
    ∀ r < s.nv, (rnea s d q v (constrainedABA lg s x q v tau ms ks 0 cd st).1.data.ddq).tau r = tau r := by
  intro r hr
  have := (C80_equations (lg := lg) (v := v) (tau := tau) h (fun k hk => by omega) hx hq hy hg ks cd hmu d d).1 r hr
  simpa [Sys.conPower] using this

/-! ## the hypotheses are met -/

namespace Ex
/-- a slider along `x` on the ground, with gravity `-10` along `x` -/
def sysX1 : Sys ℚ where
  n := 2
  par i := i - 1
  pl _ := 1
  Y _ := ⟨1, 0, ⟨1, 0, 1, 0, 0, 1⟩⟩
  jt _ := jPrismatic 0
  iq i := i - 1
  iv i := i - 1
  nv := 1
  arm _ := 0
  grav := ⟨⟨-10, 0, 0⟩, 0⟩

/-- a slider along `x` that carries a slider along `y`, without gravity -/
def sysXy : Sys ℚ where
  n := 3
  par i := i - 1
  pl _ := 1
  Y _ := ⟨1, 0, ⟨1, 0, 1, 0, 0, 1⟩⟩
  jt i := jPrismatic (if i = 1 then 0 else 1)
  iq i := i - 1
  iv i := i - 1
  nv := 2
  arm _ := 0
  grav := 0

/-- point contacts: the first on joint 1, the second on joint 2 -/
def msXy (k : ℕ) : RCM ℚ := ⟨.CONTACT_3D, if k = 0 then 1 else 2, 0, 1, 1, .LOCAL, fun _ => true, fun _ => false, []⟩

/-- `mu = 1`, stop on a residual of zero, `max_iter = n` -/
def stC (n : ℕ) : ProxSet ℚ := ⟨0, 0, 1, n⟩

/-- the call on `sysX1` at rest, with the torque `a` and the point held -/
def hold (x : PvData ℚ) (a : ℚ) (n : ℕ) : PvData ℚ × (ℕ → PvCon ℚ) :=
  constrainedABA lgT sysX1 x (fun _ => 0) (fun _ => 0) (fun _ => a) msXy (gains 0 0 0) 1 cdF (stC n)

theorem sysX1_packed : sysX1.Packed := by
  refine ⟨⟨by decide, fun i h1 hi => ?_⟩, fun i h1 hi => ?_, rfl⟩ <;>
  · change i < 2 at hi
    interval_cases i <;> first | rfl | decide

theorem sysX1_heavy (q : ℕ → ℚ) : sysX1.Heavy q := by
  refine ⟨fun i h1 _ => ⟨by norm_num [sysX1], fun w hw => ?_⟩, fun i h1 hi x hx k hk => ?_, fun _ _ => le_rfl⟩
  · have h := lt_of_le_of_ne (Inertia.sqNorm_nonneg w) fun e => hw (Inertia.eq_zero_of_sqNorm e.symm)
    simp only [sysX1, Sym3.vtiv, V3.sqNorm] at h ⊢
    nlinarith
  · change k < 1 at hk
    change i < 2 at hi
    obtain rfl : k = 0 := by omega
    interval_cases i
    simpa [comb, sysX1, Sys.jnv, Sys.S, jPrismatic, Motion.ext_iff, V3.ext_iff, cols, V3.axis] using hx

theorem sysX1_at (q : ℕ → ℚ) : sysX1.At q := ⟨fun _ _ _ => SE3.valid_one, fun _ _ _ => jPrismatic_ok _ _⟩
end Ex

/-- two contacts on a tree, after a call; and `mu`, `max_iter` -/
example : Ex.sysY.Packed ∧ PvFit Ex.sysY Ex.msY 2 ∧ CabaReach Ex.sysY Ex.msY 2
      (constrainedABA Ex.lgT Ex.sysY (initPvSolver Ex.sysY Ex.pvZ Ex.msY 2) (fun _ => 1) (fun _ => 1) (Ex.alongX 5) Ex.msY
        (Ex.gains 0 0 0) 2 Ex.cdF (Ex.stC 9)).1 ∧
    Ex.sysY.At (fun _ => 1) ∧ Ex.sysY.Heavy (fun _ => 1) ∧ Ex.sysY.grav.ang = 0 ∧ 0 < (Ex.stC 9).mu ∧ 2 ≤ (Ex.stC 9).maxIter := by
  refine ⟨Ex.sysY_packed, fun k hk => ?_, .call _ _ _ _ _ _ _ (.init _) ⟨fun _ _ _ => SE3.valid_one, fun _ _ _ => jPrismatic_ok _ _⟩,
    ⟨fun _ _ _ => SE3.valid_one, fun _ _ _ => jPrismatic_ok _ _⟩, Ex.sysY_heavy _, rfl, by decide, by decide⟩
  interval_cases k
  · exact ⟨⟨rfl, rfl⟩, by decide, by decide, M3.IsRot.one⟩
  · exact ⟨⟨rfl, rfl⟩, by decide, by decide, SE3.valid_one⟩

set_option maxRecDepth 100000 in
/-- a call that converges, from a state in which the free body falls: `C80_exact` -/
example : Ex.sysX1.Packed ∧ PvFit Ex.sysX1 Ex.msXy 1 ∧ Ex.sysX1.At (fun _ => 0) ∧ Ex.sysX1.Heavy (fun _ => 0) ∧ Ex.sysX1.grav.ang = 0 ∧
    (Ex.hold (initPvSolver Ex.sysX1 Ex.pvZ Ex.msXy 1) 0 1).1.data.ddq 0 = -5 ∧
    (Ex.hold (initPvSolver Ex.sysX1 Ex.pvZ Ex.msXy 1) 0 2).1.absRes = 0 ∧
    (Ex.hold (initPvSolver Ex.sysX1 Ex.pvZ Ex.msXy 1) 0 2).1.data.ddq 0 = 0 ∧
    (Ex.hold (initPvSolver Ex.sysX1 Ex.pvZ Ex.msXy 1) 0 2).1.lamA 0 0 = -10 := by
  refine ⟨Ex.sysX1_packed, fun k hk => ?_, Ex.sysX1_at _, Ex.sysX1_heavy _, rfl, ?_⟩
  · obtain rfl : k = 0 := by omega
    exact ⟨⟨rfl, rfl⟩, by decide, by decide, SE3.valid_one⟩
  · decide +kernel

/-! ## findings -/

set_option maxRecDepth 100000 in
/-- `constrainedABA` adds to `data.lambdaA[0]` and never sets it to zero (`pv.hxx:790`; only `initPvSolver` does): from the second
call on, "`data.lambdaA[0]` stores the constraint forces" (`pv.hpp:109-110`) fails. Here the second call converges, with the
acceleration and the residual zero; the torque is 35/2 and that of gravity 10, so that the contact takes 15/2, and `data.lambdaA[0]`
is -5/2. -/
theorem C80_accumulate_counterexample :
    let y := (Ex.hold (Ex.hold (initPvSolver Ex.sysX1 Ex.pvZ Ex.msXy 1) 15 2).1 (35 / 2) 2).1
    y.absRes = 0 ∧ y.data.ddq 0 = 0 ∧ (rnea Ex.sysX1 Data.zero (fun _ => 0) (fun _ => 0) y.data.ddq).tau 0 = 10 ∧
    y.lamA 0 0 = -(5 / 2) := by
  decide +kernel

set_option maxRecDepth 100000 in
/-- `constrainedABA` computes the first residual before the accelerations (`pv.hxx:768-785`), from the `data.a` that the call before
it left: two equal calls give different accelerations, here 15/2 and -5/4. -/
theorem C80_history_counterexample :
    let y := Ex.hold (initPvSolver Ex.sysX1 Ex.pvZ Ex.msXy 1) 15 2
    y.1.data.ddq 0 = 15 / 2 ∧ (Ex.hold y.1 15 2).1.data.ddq 0 = -(5 / 4) := by
  decide +kernel

set_option maxRecDepth 100000 in
/-- After `initPvSolver` on new data, `data.a` is zero and that residual is the gravity, not an error of the contact: the first step
can go away from the solution. The acceleration of the held point is 5/2 with `max_iter = 1` and 15/2 with `max_iter = 2`. -/
theorem C80_first_step_counterexample :
    (Ex.hold (initPvSolver Ex.sysX1 Ex.pvZ Ex.msXy 1) 15 1).1.data.ddq 0 = 5 / 2 ∧
    (Ex.hold (initPvSolver Ex.sysX1 Ex.pvZ Ex.msXy 1) 15 2).1.data.ddq 0 = 15 / 2 := by
  decide +kernel

set_option maxRecDepth 100000 in
/-- With `max_iter = 1` the loop that writes `settings.absolute_residual` does not run (`pv.hxx:787, 836`): the reported residual is that of
an earlier call, here zero for a contact with the acceleration 5/2. -/
theorem C80_residual_counterexample :
    let y := (Ex.hold (Ex.hold (initPvSolver Ex.sysX1 Ex.pvZ Ex.msXy 1) 0 2).1 15 1).1
    y.absRes = 0 ∧ y.data.ddq 0 = 5 / 2 := by
  decide +kernel

set_option maxRecDepth 100000 in
/-- `constrainedABA` uses all the columns of `KA` of a joint with a contact (`pv.hxx:752-755`), also those of the contacts on its
descendants, which `pv` leaves there: after a call to `pv` on the same data, `constrainedABA` solves another system. Contacts on a
slider and on the slider that it carries, torque 15 on the first one, `max_iter = 1`: the acceleration is 15/4 after
`initPvSolver`, and 3 after `initPvSolver` and `pv` (with any settings; here `max_iter = 0`). -/
theorem C80_after_pv_counterexample :
    let x := initPvSolver Ex.sysXy Ex.pvZ Ex.msXy 2
    let z := (pv Ex.lgT Ex.sysXy x (fun _ => 0) (fun _ => 0) (Ex.alongX 15) Ex.msXy (Ex.gains 0 0 0) 2 Ex.cdF (Ex.stC 0)).1
    (constrainedABA Ex.lgT Ex.sysXy x (fun _ => 0) (fun _ => 0) (Ex.alongX 15) Ex.msXy (Ex.gains 0 0 0) 2 Ex.cdF
      (Ex.stC 1)).1.data.ddq 0 = 15 / 4 ∧
    (constrainedABA Ex.lgT Ex.sysXy z (fun _ => 0) (fun _ => 0) (Ex.alongX 15) Ex.msXy (Ex.gains 0 0 0) 2 Ex.cdF
      (Ex.stC 1)).1.data.ddq 0 = 3 := by
  decide +kernel

end Pin
