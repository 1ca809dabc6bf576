import Verif.Algo.ContactAbaMain
import Verif.Props.PvAba

/-!
# C81: `contactABA` solves the equations of motion under contact constraints

`x` is any state of `Data`, `cd` any contact data. `d` is any other `Data`: `rnea` and `forwardKinematics` on it say what the
returned acceleration does. `des` are the desired contact accelerations of the contact models, `force` is `contact_force` of the
contact data.
-/

namespace Pin
open Finset
variable {K : Type*} [Field K] [LinearOrder K] [IsStrictOrderedRing K] [HasEps K] {s : Sys K} {q v tau : ℕ → K}
  {ms : ℕ → RCM K} {nc : ℕ} {des : ℕ → Motion K}

section main
variable (h : s.Packed) (hf : CtFit s ms nc) (hq : s.At q) (hy : s.Heavy q) (x : CtData K) {cd : ℕ → CtCon K}
  (hp : CtPoint ms nc cd) {st : ProxSet K} (hmu : 0 ≤ st.mu) (d : Data K)
include h hf hq hy hp hmu

/-- **C81**, equations of motion, for every history: the inverse dynamics of the returned acceleration are the torques minus those
of the multipliers, `contact_force + mu * drift`, and of a penalty on the error of the contacts. -/
theorem C81_equations :
    let y := contactABA s x q v tau ms des nc cd st
    ∀ r < s.nv, (rnea s d q v y.1.data.ddq).tau r + s.conPower q ms nc (fun k e => ctMult s q v ms st.mu d y.2 k e
      + st.mu * ctErr s q v ms des d y.1.data.ddq k e) (Sys.unit r) = tau r := by
  intro y r hr
  have key : ∃ z, CtInv s q v tau ms des nc st.mu z ∧ z.1.data = y.1.data ∧ z.2 = y.2 := by
    have h0 := (ctStart_ok (v := v) (tau := tau) (des := des) h hq hy hf x hp hmu).1
    by_cases hn : nc = 0
    · refine ⟨_, h0, ?_⟩
      simp only [y, contactABA, if_pos hn, and_self]
    · have h0' : CtInv s q v tau ms des nc st.mu ({ (ctStart s x q v tau ms des nc cd st).1 with iter := 0 },
          (ctStart s x q v tau ms des nc cd st).2) := ⟨⟨h0.base.J, h0.base.a, h0.base.f, by
            obtain ⟨A, hA, hF⟩ := h0.base.fac
            exact ⟨A, hA, fun i h1 hi => ⟨(hF i h1 hi).StU, (hF i h1 hi).Dinv, (hF i h1 hi).UDinv, (hF i h1 hi).Y⟩⟩⟩,
          ⟨h0.sol.acc, h0.sol.eq⟩, h0.aug, h0.con, h0.point⟩
      refine ⟨_, (ctLoop_ok h hq hy hf hmu d st.maxIter _ 0 h0').1, ?_⟩
      simp only [y, contactABA, if_neg hn, and_self]
  obtain ⟨z, hz, e1, e2⟩ := key
  have := ctInv_power h hq hf hz d d d (Sys.unit r)
  rw [Sys.dotv_unit hr, Sys.dotv_unit hr, e1, e2] at this
  rw [this]
  refine congrArg _ (sum_congr rfl fun k _ => sum_congr rfl fun e _ => ?_)
  unfold ctMult ctErr
  dsimp only
  ring

/-- **C81**, the residual: when the reported residual is below the tolerance, no entry of the error of a contact is larger. -/
theorem C81_residual (hnc : 0 < nc) (hn : 1 ≤ st.maxIter) (hr : (contactABA s x q v tau ms des nc cd st).1.absRes < st.absAcc) :
    let y := contactABA s x q v tau ms des nc cd st
    ∀ k < nc, ∀ e < (ms k).type.dim, |ctErr s q v ms des d y.1.data.ddq k e| ≤ y.1.absRes := by
  have h0 := (ctStart_ok (v := v) (tau := tau) (des := des) h hq hy hf x hp hmu).1
  have hne : nc ≠ 0 := by omega
  have h0' : CtInv s q v tau ms des nc st.mu ({ (ctStart s x q v tau ms des nc cd st).1 with iter := 0 },
      (ctStart s x q v tau ms des nc cd st).2) := ⟨⟨h0.base.J, h0.base.a, h0.base.f, by
        obtain ⟨A, hA, hF⟩ := h0.base.fac
        exact ⟨A, hA, fun i h1 hi => ⟨(hF i h1 hi).StU, (hF i h1 hi).Dinv, (hF i h1 hi).UDinv, (hF i h1 hi).Y⟩⟩⟩,
      ⟨h0.sol.acc, h0.sol.eq⟩, h0.aug, h0.con, h0.point⟩
  have := (ctLoop_ok h hq hy hf hmu d st.maxIter _ 0 h0').2
  unfold contactABA at hr ⊢
  dsimp only at hr ⊢
  rw [if_neg hne] at hr ⊢
  exact this hr hn

/-- **C81**, convergence: if the constraints can be met, by accelerations `a` and multipliers `f`, then `contactABA` reaches any
tolerance: it does when `max_iter` is above the squared distance of the first multipliers to `f`, over `(mu * absolute_accuracy)²`. -/
theorem C81_converges (hnc : 0 < nc) (hacc : 0 < st.absAcc) {a : ℕ → K} {f : ℕ → ℕ → K}
    (ha : ∀ r < s.nv, (rnea s d q v a).tau r + s.conPower q ms nc f (Sys.unit r) = tau r)
    (hc : ∀ k < nc, ∀ r < (ms k).type.dim, ctErr s q v ms des d a k r = 0)
    (hn : conSum ms nc (fun k r => (ctMult s q v ms st.mu d cd k r - f k r) ^ 2) < st.maxIter * (st.mu * st.absAcc) ^ 2) :
    (contactABA s x q v tau ms des nc cd st).1.absRes < st.absAcc := by
  obtain ⟨h0, hfo⟩ := ctStart_ok (v := v) (tau := tau) (des := des) h hq hy hf x hp hmu
  have hne : nc ≠ 0 := by omega
  have h0' : CtInv s q v tau ms des nc st.mu ({ (ctStart s x q v tau ms des nc cd st).1 with iter := 0 },
      (ctStart s x q v tau ms des nc cd st).2) := ⟨⟨h0.base.J, h0.base.a, h0.base.f, by
        obtain ⟨A, hA, hF⟩ := h0.base.fac
        exact ⟨A, hA, fun i h1 hi => ⟨(hF i h1 hi).StU, (hF i h1 hi).Dinv, (hF i h1 hi).UDinv, (hF i h1 hi).Y⟩⟩⟩,
      ⟨h0.sol.acc, h0.sol.eq⟩, h0.aug, h0.con, h0.point⟩
  have := ctLoop_stop h hq hy hf hmu hacc d ha hc st.maxIter _ 0 h0' (by
    refine lt_of_eq_of_lt (sum_congr rfl fun k hk => sum_congr rfl fun r _ => ?_) hn
    unfold ctMult
    dsimp only
    rw [hfo k (mem_range.1 hk)])
  unfold contactABA
  dsimp only
  rw [if_neg hne]
  exact this

/-- **C81**, converged and with independent contacts: when no contact has an error, `contactABA` returns the acceleration and the
multipliers of the one solution of the equations. -/
theorem C81_solution (hg : PvFit s ms nc) (hi : s.ConIndep q ms nc)
    (h0 : ∀ k < nc, ∀ e < (ms k).type.dim, ctErr s q v ms des d (contactABA s x q v tau ms des nc cd st).1.data.ddq k e = 0)
    {a : ℕ → K} {f : ℕ → ℕ → K} (ha : ∀ r < s.nv, (rnea s d q v a).tau r + s.conPower q ms nc f (Sys.unit r) = tau r)
    (hc : ∀ k < nc, ∀ r < (ms k).type.dim, ctErr s q v ms des d a k r = 0) :
    let y := contactABA s x q v tau ms des nc cd st
    (∀ r < s.nv, y.1.data.ddq r = a r) ∧
    ∀ k < nc, ∀ r < (ms k).type.dim, ctMult s q v ms st.mu d y.2 k r = f k r := by
  intro y
  have e1 := C81_equations (v := v) (tau := tau) (des := des) h hf hq hy x hp hmu d
  have e2 := C79_unique h hg hq hy d d hi e1 ha fun k hk r hr => by
    have := (h0 k hk r hr).trans (hc k hk r hr).symm
    unfold ctErr at this
    linear_combination this
  refine ⟨e2.1, fun k hk r hr => ?_⟩
  rw [← e2.2 k hk r hr, h0 k hk r hr, mul_zero, add_zero]

/-- **C81**, no memory but the forces: the result of a call with contacts is a function of the arguments and of `contact_force`; what else
`Data` and the contact data heldCt does not matter. -/
theorem C81_history (hnc : 0 < nc) (x' : CtData K) {cd' : ℕ → CtCon K} (e : ∀ k < nc, (cd k).force = (cd' k).force) :
    let y := contactABA s x q v tau ms des nc cd st
    let y' := contactABA s x' q v tau ms des nc cd' st
    y.1.absRes = y'.1.absRes ∧ (∀ r < s.nv, y.1.data.ddq r = y'.1.data.ddq r) ∧ ∀ k < nc, (y.2 k).force = (y'.2 k).force := by
  have hp' : CtPoint ms nc cd' := fun k hk hm => by rw [← e k hk]; exact hp k hk hm
  have hne : nc ≠ 0 := by omega
  have inv : ∀ (x : CtData K) {cd : ℕ → CtCon K}, CtPoint ms nc cd → CtInv s q v tau ms des nc st.mu
      ({ (ctStart s x q v tau ms des nc cd st).1 with iter := 0 }, (ctStart s x q v tau ms des nc cd st).2) := by
    intro x cd hp
    have h0 := (ctStart_ok (v := v) (tau := tau) (des := des) h hq hy hf x hp hmu).1
    exact ⟨⟨h0.base.J, h0.base.a, h0.base.f, by
        obtain ⟨A, hA, hF⟩ := h0.base.fac
        exact ⟨A, hA, fun i h1 hi => ⟨(hF i h1 hi).StU, (hF i h1 hi).Dinv, (hF i h1 hi).UDinv, (hF i h1 hi).Y⟩⟩⟩,
      ⟨h0.sol.acc, h0.sol.eq⟩, h0.aug, h0.con, h0.point⟩
  have key := ctLoop_same h hq hy hf hmu st.maxIter _ _ 0 (inv x hp) (inv x' hp') fun k hk => by
    have e1 := (ctStart_ok (v := v) (tau := tau) (des := des) h hq hy hf x hp hmu).2 k hk
    have e2 := (ctStart_ok (v := v) (tau := tau) (des := des) h hq hy hf x' hp' hmu).2 k hk
    exact e1.trans ((e k hk).trans e2.symm)
  unfold contactABA
  dsimp only
  rw [if_neg hne, if_neg hne]
  exact key

end main

/-- **C81**, without contacts `contactABA` is forward dynamics -/
theorem C81_free (h : s.Packed) (hq : s.At q) (hy : s.Heavy q) (x : CtData K) (cd : ℕ → CtCon K) {st : ProxSet K} (hmu : 0 ≤ st.mu)
    (d : Data K) : ∀ r < s.nv, (rnea s d q v (contactABA s x q v tau ms des 0 cd st).1.data.ddq).tau r = tau r := by
  intro r hr
  have := C81_equations (v := v) (tau := tau) (des := des) (nc := 0) (cd := cd) (ms := ms) h
    ⟨fun k hk => by omega, fun k hk => by omega, fun k hk => by omega⟩ hq hy x (fun k hk => by omega) hmu d r hr
  simpa [Sys.conPower] using this

/-! ## the hypotheses are met -/

namespace Ex
/-- contact data with the force `a` along `x` and `b` along `y` in contact 0, and `c` along `x` in the others -/
def ctF (a b c : ℚ) (k : ℕ) : CtCon ℚ := ⟨1, 0, 0, 0, ⟨⟨if k = 0 then a else c, if k = 0 then b else 0, 0⟩, 0⟩⟩

def ctZ : CtData ℚ := ⟨Data.zero, fun _ => 0, fun _ => 0, fun _ => 0, 0, 0⟩

/-- the point of `sysX1` held, with the torque zero: `mu = 1`, tolerance 1, `max_iter = n` -/
def heldCt (cd : ℕ → CtCon ℚ) (n : ℕ) : CtData ℚ × (ℕ → CtCon ℚ) :=
  contactABA sysX1 ctZ (fun _ => 0) (fun _ => 0) (fun _ => 0) msXy (fun _ => 0) 1 cd ⟨1, 0, 1, n⟩

/-- two equal contacts on the slider -/
def msTwo (_ : ℕ) : RCM ℚ := msXy 0

/-- a hinge about `z` that carries a slider along `x`, without gravity -/
def sysRx : Sys ℚ where
  n := 3
  par i := i - 1
  pl _ := 1
  Y _ := ⟨1, 0, ⟨1, 0, 1, 0, 0, 1⟩⟩
  jt i := if i = 1 then jRUB 2 else jPrismatic 0
  iq i := if i = 1 then 0 else 2
  iv i := i - 1
  nv := 2
  arm _ := 0
  grav := 0

/-- a point contact on the slider of `sysRx` -/
def msRx (_ : ℕ) : RCM ℚ := msXy 1

/-- the slider is at distance 1, hinge and slider move at speed 1, and the torque on the hinge is 2: without a contact the
accelerations are 0 and 1, and that of the point is 2 along `y`, which is what the contact asks for -/
def spin (b : ℚ) (n : ℕ) : CtData ℚ × (ℕ → CtCon ℚ) :=
  contactABA sysRx ctZ (fun i => if i = 1 then 0 else 1) (fun _ => 1) (fun r => if r = 0 then 2 else 0) msRx (fun _ => ⟨⟨0, 2, 0⟩, 0⟩) 1 (ctF 0 b 0)
    ⟨1, 0, 1, n⟩
end Ex

/-- two contacts on two joints, with forces -/
example : Ex.sysXy.Packed ∧ CtFit Ex.sysXy Ex.msXy 2 ∧ Ex.sysXy.At (fun _ => 1) ∧ Ex.sysXy.Heavy (fun _ => 1) ∧
    CtPoint Ex.msXy 2 (Ex.ctF 1 2 3) := by
  refine ⟨⟨⟨by decide, fun i h1 hi => ?_⟩, fun i h1 hi => ?_, rfl⟩, ⟨fun k hk => ?_, fun k hk => SE3.valid_one, fun k hk l hl e => ?_⟩,
    ⟨fun _ _ _ => SE3.valid_one, fun _ _ _ => jPrismatic_ok _ _⟩,
    ⟨fun i h1 _ => ⟨by norm_num [Ex.sysXy], fun w hw => ?_⟩, fun i h1 hi x hx k hk => ?_, fun _ _ => le_rfl⟩, fun k hk _ => rfl⟩
  · change i < 3 at hi
    interval_cases i <;> first | rfl | decide
  · change i < 3 at hi
    interval_cases i <;> first | rfl | decide
  · interval_cases k <;> decide
  · interval_cases k <;> interval_cases l <;> first | rfl | exact absurd e (by decide)
  · have h := lt_of_le_of_ne (Inertia.sqNorm_nonneg w) fun e => hw (Inertia.eq_zero_of_sqNorm e.symm)
    simp only [Ex.sysXy, Sym3.vtiv, V3.sqNorm] at h ⊢
    nlinarith
  · change k < 1 at hk
    change i < 3 at hi
    obtain rfl : k = 0 := by omega
    interval_cases i <;>
      simpa [comb, Ex.sysXy, Sys.jnv, Sys.S, jPrismatic, Motion.ext_iff, V3.ext_iff, cols, V3.axis] using hx

set_option maxRecDepth 100000 in
/-- calls that converge: the solution and the bound of `C81_converges`, met with `max_iter = 101`; and two turns -/
example : Ex.sysX1.Packed ∧ CtFit Ex.sysX1 Ex.msXy 1 ∧ Ex.sysX1.At (fun _ => 0) ∧ Ex.sysX1.Heavy (fun _ => 0) ∧
    CtPoint Ex.msXy 1 (Ex.ctF 0 0 0) ∧
    (∀ r < 1, (rnea Ex.sysX1 Data.zero (fun _ => 0) (fun _ => 0) (fun _ => 0)).tau r
      + Ex.sysX1.conPower (fun _ => 0) Ex.msXy 1 (fun _ e => if e = 0 then -10 else 0) (Sys.unit r) = 0) ∧
    (∀ k < 1, ∀ r < 3, ctErr Ex.sysX1 (fun _ => 0) (fun _ => 0) Ex.msXy (fun _ => 0) Data.zero (fun _ => 0) k r = 0) ∧
    conSum Ex.msXy 1 (fun k r => (ctMult Ex.sysX1 (fun _ => 0) (fun _ => 0) Ex.msXy 1 Data.zero (Ex.ctF 0 0 0) k r
      - if r = 0 then -10 else 0) ^ 2) < (101 : ℕ) * (1 * 1 : ℚ) ^ 2 ∧
    (Ex.heldCt (Ex.ctF 0 0 0) 0).1.data.ddq 0 = -5 ∧ (Ex.heldCt (Ex.ctF 0 0 0) 2).1.data.ddq 0 = -(5 / 4) ∧
    (Ex.heldCt (Ex.ctF (-10) 0 0) 1).1.data.ddq 0 = 0 := by
  refine ⟨Ex.sysX1_packed, ⟨fun k hk => ?_, fun k hk => SE3.valid_one, fun k hk l hl e => by omega⟩, Ex.sysX1_at _, Ex.sysX1_heavy _,
    fun k hk _ => rfl, ?_⟩
  · obtain rfl : k = 0 := by omega
    decide
  · decide +kernel

/-! ## findings -/

set_option maxRecDepth 100000 in
/-- `contactABA` subtracts `mu * contact1_acceleration_drift` from the force of a contact (`constrained-dynamics.hxx:833-843`), although the
penalty acts on the full acceleration of the body, which has the bias already: the bias counts twice. The acceleration converges to the
solution, but `contact_force` to the multiplier minus `mu` times the bias (`C81_solution`). Here the point has its desired acceleration
without a contact, so that no force acts: with `contact_force` zero the first turn already leaves that acceleration (the residual is 1/4);
converged, with residual zero and the right accelerations, `contact_force` is -1 along `y`. -/
theorem C81_drift_counterexample :
    (∀ r < 2, (rnea Ex.sysRx Data.zero (fun i => if i = 1 then 0 else 1) (fun _ => 1) (fun r => r)).tau r = if r = 0 then 2 else 0) ∧
    (∀ r < 3, ctErr Ex.sysRx (fun i => if i = 1 then 0 else 1) (fun _ => 1) Ex.msRx (fun _ => ⟨⟨0, 2, 0⟩, 0⟩) Data.zero
      (fun r => r) 0 r = 0) ∧
    (Ex.spin 0 1).1.absRes = 1 / 4 ∧
    (Ex.spin (-1) 1).1.absRes = 0 ∧ (Ex.spin (-1) 1).1.data.ddq 0 = 0 ∧ (Ex.spin (-1) 1).1.data.ddq 1 = 1 ∧
    ((Ex.spin (-1) 1).2 0).force.lin.y = -1 := by
  decide +kernel

set_option maxRecDepth 100000 in
/-- Two contacts on one joint: `contactABA` assigns the force of a contact to the joint (`constrained-dynamics.hxx:833, 933`) where it should
add, so that only the last contact of a joint acts. Gravity -10 needs the multipliers to add up to -10; with -10 in the first contact
the body still falls, and the converged state has -10 in both. -/
theorem C81_two_on_joint_counterexample :
    let run := fun cd => contactABA Ex.sysX1 Ex.ctZ (fun _ => 0) (fun _ => 0) (fun _ => 0) Ex.msTwo (fun _ => 0) 2 cd ⟨1, 0, 1, 1⟩
    (run (Ex.ctF (-10) 0 0)).1.data.ddq 0 ≠ 0 ∧
    (run (Ex.ctF (-10) 0 (-10))).1.absRes = 0 ∧ (run (Ex.ctF (-10) 0 (-10))).1.data.ddq 0 = 0 ∧
    ((run (Ex.ctF (-10) 0 (-10))).2 0).force.lin.x = -10 ∧ ((run (Ex.ctF (-10) 0 (-10))).2 1).force.lin.x = -10 := by
  decide +kernel

set_option maxRecDepth 100000 in
/-- `settings.iter` is always 0 after `contactABA`: the counter of the loop hides the variable that is reported
(`constrained-dynamics.hxx:868-869, 964`). Here two turns change the acceleration from -5 to -5/4. -/
theorem C81_iter_counterexample :
    (Ex.heldCt (Ex.ctF 0 0 0) 0).1.data.ddq 0 = -5 ∧ (Ex.heldCt (Ex.ctF 0 0 0) 2).1.data.ddq 0 = -(5 / 4) ∧
    (Ex.heldCt (Ex.ctF 0 0 0) 2).1.iter = 0 := by
  decide +kernel

set_option maxRecDepth 100000 in
/-- When `contactABA` stops on `max_iter`, the reported residual is that of the acceleration before the last turn, and 0 with
`max_iter = 0`, although the held point has the acceleration -5. -/
theorem C81_residual_counterexample :
    (Ex.heldCt (Ex.ctF 0 0 0) 0).1.absRes = 0 ∧ (Ex.heldCt (Ex.ctF 0 0 0) 0).1.data.ddq 0 = -5 ∧
    (Ex.heldCt (Ex.ctF 0 0 0) 1).1.absRes = 5 ∧ (Ex.heldCt (Ex.ctF 0 0 0) 1).1.data.ddq 0 = -(5 / 2) := by
  decide +kernel

set_option maxRecDepth 100000 in
/-- `contact_force` of `contactABA` is minus the force on the body: against gravity -10 it is -10, where `constraintDynamics` writes +10. -/
theorem C81_sign_counterexample :
    (Ex.heldCt (Ex.ctF (-10) 0 0) 1).1.data.ddq 0 = 0 ∧ ((Ex.heldCt (Ex.ctF (-10) 0 0) 1).2 0).force.lin.x = -10 ∧
    (rnea Ex.sysX1 Data.zero (fun _ => 0) (fun _ => 0) (fun _ => 0)).tau 0 = 10 := by
  decide +kernel

end Pin
