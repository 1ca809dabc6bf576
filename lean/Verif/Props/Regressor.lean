import Verif.Algo.RegressorLemmas
import Verif.Props.Dynamics
import Verif.Props.Com

/-!
# Properties of the regressors (C40)
-/

set_option linter.unusedSectionVars false

namespace Pin
open Finset
variable {K : Type*}

section field
variable [Field K] {s : Sys K}

/-- the dynamic parameters of all bodies, stacked: ten per joint, joint 1 first -/
def Sys.dynParams (s : Sys K) (c : ℕ) : K := (s.Y (c / 10 + 1)).toDyn.get ⟨c % 10, Nat.mod_lt _ (by decide)⟩

/-- the masses and first moments of all bodies, stacked: four per joint, joint 1 first -/
def Sys.comParams (s : Sys K) (c : ℕ) : K :=
  (s.Y (c / 4 + 1)).toDyn.get ⟨c % 4, lt_trans (Nat.mod_lt _ (by decide)) (by decide)⟩

theorem Sys.dynParams_at {i : ℕ} (h1 : 1 ≤ i) (c : Fin 10) : s.dynParams (10 * (i - 1) + c) = (s.Y i).toDyn.get c := by
  unfold Sys.dynParams
  have h := c.2
  have e1 : (10 * (i - 1) + (c : ℕ)) / 10 + 1 = i := by omega
  have e2 : (10 * (i - 1) + (c : ℕ)) % 10 = c := by omega
  rw [e1]
  congr 1
  exact Fin.ext e2

/-- The joint torque regressor applied to the stacked dynamic parameters is what `rnea` returns, minus what `rnea` adds
for the rotor inertias (`armature`). For every tree, configuration, velocity, acceleration and inertias. -/
theorem C40_torque (h : s.Packed) {q : ℕ → K} (hq : s.At q) (x : RegData K) (d : Data K) (v a : ℕ → K) {r : ℕ}
    (hr : r < s.nv) :
    ∑ c ∈ range (10 * (s.n - 1)), (computeJointTorqueRegressor s x q v a).jointTorqueRegressor r c * s.dynParams c
      = (rnea s d q v a).tau r - s.arm r * a r := by
  have e := rnea_power h.wf d hq v a (Sys.unit r)
  have hu : ∀ y : ℕ → K, s.dotv (Sys.unit r) y = y r := by
    intro y
    unfold Sys.dotv Sys.unit
    rw [sum_eq_single r]
    · simp
    · intro b _ hb; simp [hb]
    · intro hb; exact absurd (mem_range.2 hr) hb
  rw [hu, hu] at e
  rw [e, add_sub_cancel_right, sum_blocks]
  apply sum_congr rfl
  intro i hi
  rw [mem_Ico] at hi
  rw [Finset.sum_range, Sys.F, ← bodyReg_mul, Motion.dot_sum]
  apply sum_congr rfl
  intro c _
  rw [jtr_entries h hq x v a hr hi.1 hi.2 c.2, Sys.dynParams_at hi.1, Motion.dot_smul, mul_comm]

/-- without rotor inertias the regressor reproduces inverse dynamics -/
theorem C40_partial (h : s.Packed) {q : ℕ → K} (hq : s.At q) (ha : ∀ r, r < s.nv → s.arm r = 0) (x : RegData K)
    (d : Data K) (v a : ℕ → K) {r : ℕ} (hr : r < s.nv) :
    ∑ c ∈ range (10 * (s.n - 1)), (computeJointTorqueRegressor s x q v a).jointTorqueRegressor r c * s.dynParams c
      = (rnea s d q v a).tau r := by
  rw [C40_torque h hq x d v a hr, ha r hr, zero_mul, sub_zero]

/-- `frameBodyRegressor` (and `jointBodyRegressor`, with the identity) applied to the dynamic parameters of an inertia
attached to the frame is the wrench `Y a + v ×* Y v` of that inertia, with the velocity and acceleration of the frame. -/
theorem C40_body (x : RegData K) (parent : ℕ) (P : SE3 K) (Y : Inertia K) :
    ∑ c : Fin 10, Y.toDyn.get c • (frameBodyRegressor x parent P).bodyRegressor c
      = Y.mul (P.actInv (x.d.a_gf parent))
        + (P.actInv (x.d.v parent)).crossF (Y.mul (P.actInv (x.d.v parent))) ∧
    ∑ c : Fin 10, Y.toDyn.get c • (jointBodyRegressor x parent).bodyRegressor c
      = Y.mul (x.d.a_gf parent) + (x.d.v parent).crossF (Y.mul (x.d.v parent)) := by
  rw [← bodyReg_mul, ← bodyReg_mul]
  refine ⟨sum_congr rfl fun c _ => ?_, sum_congr rfl fun c _ => ?_⟩ <;>
  · congr 1
    exact putSeg_in _ _ ⟨Nat.zero_le _, by have := c.2; omega⟩

/-- The kinetic energy regressor applied to the dynamic parameters is the kinetic energy of the bodies: what
`computeKineticEnergy` returns (`1/2 massForm`) without the rotor inertias. -/
theorem C40_kinetic (hp : ParOk s.par s.n) (h2 : (2 : K) ≠ 0) {q : ℕ → K} (hq : s.At q) (x : RegData K) (v : ℕ → K) :
    ∑ c ∈ range (10 * (s.n - 1)), (computeKineticEnergyRegressor s x q v).kineticEnergyRegressor c * s.dynParams c
      = 1 / 2 * (s.massForm q v v - s.dotv v (fun r => s.arm r * v r)) := by
  have hv := (fk1_ok hp x.d hq v).2
  rw [Sys.massForm, add_sub_cancel_right, sum_blocks, mul_sum]
  apply sum_congr rfl
  intro i hi
  rw [mem_Ico] at hi
  rw [Finset.sum_range, ← kinEntries_mul h2, ← (hv i hi.1 hi.2).1]
  apply sum_congr rfl
  intro c _
  rw [Sys.dynParams_at hi.1]
  congr 1
  unfold computeKineticEnergyRegressor
  dsimp only
  rw [fwd_putSeg hp.1 10 (fun _ => rfl) le_rfl _ _ hi.1 hi.2 c.2, if_pos c.2]

/-- the same against the code of `computeKineticEnergy` -/
theorem C40_kinetic_energy (h : s.Packed) (h2 : (2 : K) ≠ 0) {q : ℕ → K} (hq : s.At q) (x : RegData K) (d : Data K) (v : ℕ → K)
    (hs : ∀ i, 1 ≤ i → i < s.n → (s.jt i).setsV = true) :
    ∑ c ∈ range (10 * (s.n - 1)), (computeKineticEnergyRegressor s x q v).kineticEnergyRegressor c * s.dynParams c
      = (computeKineticEnergy s d q v).kinetic_energy - 1 / 2 * ∑ r ∈ range s.nv, s.arm r * (v r * v r) := by
  rw [C40_kinetic h.par h2 hq, kinetic_eq h d hq v hs, mul_sub]
  congr 2
  exact sum_congr rfl fun r _ => by ring

/-- The potential energy regressor applied to the dynamic parameters is what `computePotentialEnergy` returns. -/
theorem C40_potential (hp : ParOk s.par s.n) (q : ℕ → K) (x : RegData K) (d : Data K) :
    ∑ c ∈ range (10 * (s.n - 1)), (computePotentialEnergyRegressor s x q).potentialEnergyRegressor c * s.dynParams c
      = (computePotentialEnergy s d q).potential_energy := by
  have hv := fk0_ok hp x.d q
  rw [potential_eq hp d q, sum_blocks, ← sum_neg_distrib]
  apply sum_congr rfl
  intro i hi
  rw [mem_Ico] at hi
  have ec : (s.oM q i).trans + (s.oM q i).rot.mulVec (s.Y i).lever = (s.oM q i).actP (s.Y i).lever := by
    ext <;> simp [SE3.actP] <;> ring
  rw [Finset.sum_range, ec, ← potEntries_mul]
  apply sum_congr rfl
  intro c _
  rw [Sys.dynParams_at hi.1]
  congr 1
  unfold computePotentialEnergyRegressor
  dsimp only
  rw [fwd_putSeg hp.1 10 (fun _ => rfl) (by decide : 4 ≤ 10) _ _ hi.1 hi.2 c.2, (hv i hi.1 hi.2).2.1]

/-- The static regressor applied to the masses and first moments of the bodies is the centre of mass of the model.
(The total mass is assumed non zero: the code divides by it.) -/
theorem C40_static (hp : ParOk s.par s.n) (q : ℕ → K) (x : RegData K) (_hm : s.subMass 0 ≠ 0) :
    ∑ c ∈ range (4 * (s.n - 1)), s.comParams c • (computeStaticRegressor s x q).staticRegressor c = s.comPos q 0 := by
  have hv := fk0_ok hp x.d q
  have hm : fwd (fun i m => m + (s.Y i).mass) s.n (0 : K) = s.subMass 0 := by
    have := fwd_ind (step := fun i (m : K) => m + (s.Y i).mass) (n := s.n) (d := 0)
      (P := fun k m => m = ∑ i ∈ Ico 1 k, (s.Y i).mass) hp.1 (by simp)
      (by
        rintro i m h1 hi rfl
        rw [sum_Ico_succ_top h1])
    rw [this]
    unfold Sys.subMass
    rw [subtree_root hp]
  rw [sum_blocks]
  unfold Sys.comPos Sys.msum
  have hsm : ∀ (t : Finset ℕ) (c : K) (f : ℕ → V3 K), c • ∑ i ∈ t, f i = ∑ i ∈ t, c • f i := by
    intro t c f
    induction t using Finset.induction_on with
    | empty => ext <;> simp
    | insert a t ha ih => rw [sum_insert ha, sum_insert ha, ← ih]; ext <;> simp <;> ring
  rw [subtree_root hp, hsm]
  apply sum_congr rfl
  intro i hi
  rw [mem_Ico] at hi
  have hR : ∀ c, c < 4 → (computeStaticRegressor s x q).staticRegressor (4 * (i - 1) + c)
      = (s.subMass 0)⁻¹ • (if c = 0 then (s.oM q i).trans else (s.oM q i).rot.col (c - 1)) := by
    intro c hc
    unfold computeStaticRegressor
    dsimp only
    rw [fwd_putSeg hp.1 4 (fun i => Nat.mul_comm _ _) le_rfl _ _ hi.1 hi.2 hc, if_pos hc, hm, (hv i hi.1 hi.2).2.1,
      one_div]
  have hC : ∀ c (hc : c < 4), s.comParams (4 * (i - 1) + c) = (s.Y i).toDyn.get ⟨c, by omega⟩ := by
    intro c hc
    unfold Sys.comParams
    have e1 : (4 * (i - 1) + c) / 4 + 1 = i := by omega
    have e2 : (4 * (i - 1) + c) % 4 = c := by omega
    rw [e1]
    congr 1
    exact Fin.ext e2
  simp only [sum_range_succ, sum_range_zero]
  rw [hR 0 (by decide), hR 1 (by decide), hR 2 (by decide), hR 3 (by decide), hC 0 (by decide), hC 1 (by decide),
    hC 2 (by decide), hC 3 (by decide)]
  unfold Sys.pcom
  ext <;> simp [V10.get, Inertia.toDyn, M3.col, SE3.actP] <;> ring
end field

section kin
open DualNumber TrivSqZeroExt
variable [CommRing K] {s : Sys K}

/-- the six coordinates of the variations `ξ` of the joint placements, stacked: six per joint, joint 1 first -/
def plParams (ξ : ℕ → Motion K) (c : ℕ) : K := (ξ (c / 6 + 1)).get (c % 6)

/-- The kinematic regressor is the derivative of a frame placement with respect to the placements of the joints: if
the placement of every joint `i` in its parent varies with body velocity `ξ i`, the joint transforms being kept
constant, then the placement of the frame `P` attached to `j` varies with a body velocity `ν` whose expression in the
requested reference frame is the regressor applied to the stacked `ξ`. `d` holds the result of
`forwardKinematics(q)` (its root placement is the identity, as the constructor of `Data` sets it). -/
theorem C40_kinematic (hp : ParOk s.par s.n) {q : ℕ → K} (hq : s.At q) {sε : Sys K[ε]} {qε : ℕ → K[ε]}
    {ξ : ℕ → Motion K} (hn : sε.par = s.par) (hpl : ∀ i, 1 ≤ i → i < s.n → (sε.pl i).Moves (s.pl i) (ξ i))
    (hj : ∀ i, 1 ≤ i → i < s.n → (sε.jt i).M (sε.qs qε i) = ((s.jt i).M (s.qs q i)).map inl)
    (d : Data K) (h0 : d.oMi 0 = 1) (R : ℕ → Motion K) {P : SE3 K} (hP : P.Valid) {j : ℕ} (hjn : j < s.n) (rf : RF) :
    ∃ ν : Motion K, (sε.oM qε j * P.map inl).Moves (s.oM q j * P) ν ∧
      ∑ c ∈ range (6 * (s.n - 1)), plParams ξ c
        • computeJointKinematicRegressor s (forwardKinematics s d q) j rf P R c = inFrame (s.oM q j * P) ν rf := by
  have hO : ∀ i, i < s.n → (forwardKinematics s d q).oMi i = s.oM q i := by
    intro i hi
    rcases Nat.eq_zero_or_pos i with rfl | h1
    · rw [Sys.oM_zero]
      unfold forwardKinematics
      apply fwd_ind (P := fun _ (d : Data K) => d.oMi 0 = 1) hp.1 h0
      intro i d h1 _ ih
      simp only [fk0Step]
      split <;> exact (upd_ne _ _ (by omega)).trans ih
    · exact (fk0_ok hp d q i h1 hi).2.1
  have hv := s.oM_valid hp hq j hjn
  have hvP := hv.mul hP
  refine ⟨(s.oM q j * P).actInv (s.plVel q ξ j), ?_, ?_⟩
  · have e := (plVel_moves hp hq hn hpl hj j hjn).mul (SE3.Moves.const (X := P)) hP
    rw [zero_add, ← SE3.mul_actInv hv hP] at e
    exact e
  · classical
    unfold computeJointKinematicRegressor
    rw [hO j hjn, sum_blocks]
    -- the placement used for column block `i`
    let Q : ℕ → SE3 K := fun i => match rf with
      | .LOCAL => (s.oM q j * P).actInvSE3 (s.oM q (s.par i) * s.pl i)
      | .LOCAL_WORLD_ALIGNED => ⟨(s.oM q (s.par i) * s.pl i).rot, (s.oM q (s.par i) * s.pl i).trans - (s.oM q j * P).trans⟩
      | .WORLD => s.oM q (s.par i) * s.pl i
    have hstep : ∀ i R, 1 ≤ i → i < s.n → kinRegStep s (forwardKinematics s d q).oMi rf (s.oM q j * P) i R
        = putSeg R (6 * (i - 1)) 6 (Q i).toActionMatrix.col := by
      intro i R h1 hi
      have := hp.2 i h1 hi
      unfold kinRegStep
      dsimp only
      rw [hO _ (by omega)]
      cases rf <;> rfl
    have hcol : ∀ i c, 1 ≤ i → i < s.n → c < 6 →
        upLoop s.par (kinRegStep s (forwardKinematics s d q).oMi rf (s.oM q j * P)) s.n j (fun _ => 0) (6 * (i - 1) + c)
          = if anc s.par i j then (Q i).toActionMatrix.col c else 0 := by
      intro i c h1 hi hc
      rw [upLoop_kin hp hstep j (by omega) hjn _ i c h1 hc]
    have hsum : ∀ i ∈ Ico 1 s.n, ∑ c ∈ range 6, plParams ξ (6 * (i - 1) + c) •
        upLoop s.par (kinRegStep s (forwardKinematics s d q).oMi rf (s.oM q j * P)) s.n j (fun _ => 0) (6 * (i - 1) + c)
          = if anc s.par i j then (Q i).act (ξ i) else 0 := by
      intro i hi
      rw [mem_Ico] at hi
      by_cases ha : anc s.par i j
      · rw [if_pos ha, ← SE3.toActionMatrix_mul, ← M6.sum_col]
        apply sum_congr rfl
        intro c hc
        rw [mem_range] at hc
        rw [hcol i c hi.1 hi.2 hc, if_pos ha]
        unfold plParams
        have e1 : (6 * (i - 1) + c) / 6 + 1 = i := by omega
        have e2 : (6 * (i - 1) + c) % 6 = c := by omega
        rw [e1, e2]
      · rw [if_neg ha]
        apply sum_eq_zero
        intro c hc
        rw [mem_range] at hc
        rw [hcol i c hi.1 hi.2 hc, if_neg ha]
        simp
    rw [sum_congr rfl hsum, ← sum_filter]
    have hset : (Ico 1 s.n).filter (fun i => anc s.par i j) = supp s.par s.n j := by
      ext i; rw [mem_filter, mem_Ico, mem_supp]
    rw [hset]
    unfold Sys.plVel
    cases rf with
    | WORLD => simp only [inFrame, Q]; rw [SE3.act_actInv hvP]
    | LOCAL =>
      simp only [inFrame, Q]
      rw [SE3.actInv_sum]
      apply sum_congr rfl
      intro i _
      rw [actInvSE3_inv, SE3.mul_act hvP.inv, SE3.inv_act hvP]
    | LOCAL_WORLD_ALIGNED =>
      have e : ∀ m : Motion K, inFrame (s.oM q j * P) ((s.oM q j * P).actInv m) .LOCAL_WORLD_ALIGNED
          = ⟨m.lin - (s.oM q j * P).trans.cross m.ang, m.ang⟩ := by
        intro m
        simp only [inFrame, SE3.actInv]
        rw [M3.IsRot.mulVec_tr_mulVec hvP, M3.IsRot.mulVec_tr_mulVec hvP]
      rw [e]
      have hl : ∀ t : Finset ℕ, ∑ i ∈ t, (Q i).act (ξ i)
          = ⟨(∑ i ∈ t, (s.oM q (s.par i) * s.pl i).act (ξ i)).lin - (s.oM q j * P).trans.cross
              (∑ i ∈ t, (s.oM q (s.par i) * s.pl i).act (ξ i)).ang,
             (∑ i ∈ t, (s.oM q (s.par i) * s.pl i).act (ξ i)).ang⟩ := by
        intro t
        induction t using Finset.induction_on with
        | empty => ext <;> simp
        | insert a t ha ih =>
          rw [sum_insert ha, sum_insert ha, ih]
          ext <;> simp [Q, SE3.act] <;> ring
      exact hl _
end kin

/-! ## the hypotheses are met, and the full statement fails with rotor inertias -/

/-- With rotor inertias the regressor does not reproduce `rnea`: the example robot (which meets every hypothesis of
`C40_torque`) has `armature = 1/10`, and the first torque differs by `armature * a`. -/
theorem C40_counterexample : Ex.sysA.Packed ∧ Ex.sysA.At Ex.qA ∧
    ∀ x d, ∑ c ∈ range (10 * (Ex.sysA.n - 1)),
      (computeJointTorqueRegressor Ex.sysA x Ex.qA Ex.vA (fun _ => 1)).jointTorqueRegressor 0 c * Ex.sysA.dynParams c
        ≠ (rnea Ex.sysA d Ex.qA Ex.vA (fun _ => 1)).tau 0 := by
  refine ⟨Ex.sysA_packed, Ex.sysA_at, fun x d => ?_⟩
  rw [C40_torque Ex.sysA_packed Ex.sysA_at x d Ex.vA _ (by decide)]
  intro h
  have : Ex.sysA.arm 0 = 0 := by linarith
  revert this
  decide +kernel

/-- the hypotheses of the theorems above are met; `C40_partial` needs no rotor inertia -/
example : Ex.sysA.Packed ∧ Ex.sysA.At Ex.qA ∧ (2 : ℚ) ≠ 0 ∧ (∀ i, 1 ≤ i → i < Ex.sysA.n → i ≠ 4 → (Ex.sysA.jt i).setsV = true) ∧
    Ex.sysA.subMass 0 ≠ 0 ∧ (let s := { Ex.sysA with arm := fun _ => 0 }
      s.Packed ∧ s.At Ex.qA ∧ ∀ r, r < s.nv → s.arm r = 0) := by
  refine ⟨Ex.sysA_packed, Ex.sysA_at, by norm_num, fun i h1 hi h4 => ?_, ?_, ?_, ?_, fun _ _ => rfl⟩
  · change i < 5 at hi; interval_cases i <;> first | rfl | omega
  · rw [← C19_subtreeMasses Ex.sysA_par Data.zero (by decide)]
    decide +kernel
  · exact ⟨Ex.sysA_packed.par, Ex.sysA_packed.iv, Ex.sysA_packed.nv⟩
  · exact ⟨Ex.sysA_at.pl, Ex.sysA_at.jt⟩

namespace Ex
open DualNumber TrivSqZeroExt
/-- the example robot with moving joint placements -/
def sysK : Sys ℚ[ε] := { sysAε with
  pl := fun i => ⟨(sysA.pl i).rot.map inl + ((sysA.pl i).rot * M3.skew (⟨1, 2, (i : ℚ)⟩ : V3 ℚ)).map inr,
    (sysA.pl i).trans.map inl + ((sysA.pl i).rot.mulVec ⟨(i : ℚ), 3, 4⟩).map inr⟩ }
end Ex

set_option maxHeartbeats 2000000 in
open DualNumber TrivSqZeroExt in
/-- the hypotheses of `C40_kinematic` are met by placements that do move -/
example : Ex.sysK.par = Ex.sysA.par ∧
    (∀ i, 1 ≤ i → i < Ex.sysA.n → (Ex.sysK.pl i).Moves (Ex.sysA.pl i) ⟨⟨i, 3, 4⟩, ⟨1, 2, i⟩⟩) ∧
    (∀ i, 1 ≤ i → i < Ex.sysA.n → (Ex.sysK.jt i).M (Ex.sysK.qs (perturb Ex.qA 0) i)
      = ((Ex.sysA.jt i).M (Ex.sysA.qs Ex.qA i)).map inl) ∧ (Data.zero : Data ℚ).oMi 0 = 1 := by
  have e1 : fst (2 : ℚ[ε]) = 2 := rfl
  have e2 : snd (2 : ℚ[ε]) = 0 := rfl
  refine ⟨rfl, fun i _ _ => ⟨?_, ?_, ?_⟩, fun i h1 hi => ?_, rfl⟩
  · ext <;> simp [Ex.sysK, SE3.map, M3.map, V3.map]
  · ext <;> simp [Ex.sysK, M3.map]
  · ext <;> simp [Ex.sysK, V3.map]
  · change i < 5 at hi
    interval_cases i <;> ext <;>
      simp [Ex.sysK, Ex.sysAε, Ex.jtAε, Ex.sysA, Ex.jtA, jRevolute, jPrismatic, jSpherical, jRevoluteUnaligned, SE3.map, M3.map,
        V3.map, Sys.qs, perturb, seg, rotAxis, Trig.sin, Trig.cos, V3.axis, quatMat, toRotationMatrix, e1, e2]

end Pin
