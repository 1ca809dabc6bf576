import Verif.Spec.History
import Verif.Algo.History
import Verif.Props.Minverse
import Verif.Props.Coriolis
import Verif.Props.Centroidal
import Verif.Props.Com
import Verif.Props.Jacobian
import Verif.Props.ForwardDynamics
import Verif.Props.Dynamics

/-!
# C21: the result of a call does not depend on the calls made before on the same `Data`
-/

set_option linter.unusedSectionVars false

namespace Pin
open Finset
variable {K : Type*} [Field K] [LinearOrder K] [IsStrictOrderedRing K] [HasEps K] {s : Sys K}

theorem Cont.inv (h : s.Packed) (hf : s.Full) (hc : Compact s.par s.n) {d : Data K} (hd : HInv s d) (c : Cont K) :
    HInv s (c.run s d) := by
  cases c with
  | updateGlobalPlacements => exact (updateGlobalPlacements_calm s d).inv hd
  | computeJointJacobiansData => exact (computeJointJacobiansData_calm s d).inv hd
  | updateFramePlacements fr n => exact (updateFramePlacements_calm s fr n d).inv hd
  | updateFramePlacement fr f => exact (updateFramePlacement_calm s fr f d).inv hd
  | computeJointJacobian q j J => exact (computeJointJacobian_calm s q j J d).inv hd
  | computeFrameJacobian q sp f j P rf J => exact (computeFrameJacobian_calm s q sp f j P rf J d).inv hd
  | computeMinverseNoUpdate => exact (computeMinverseNoUpdate_calm s d).inv hd
  | centerOfMassD l sub => exact (centerOfMassD_calm s l sub d).inv hd
  | getComFromCrba => exact (getComFromCrba_calm s d).inv hd
  | getJacobianComFromCrba => exact (getJacobianComFromCrba_calm s d).inv hd
  | jacobianCenterOfMassD sub => exact (jacobianCenterOfMassD_calm s sub d).inv hd
  | computeCentroidalMomentumD => exact (computeCentroidalMomentumD_calm s d).inv hd
  | computeCentroidalMomentumTimeVariationD => exact (computeCentroidalMomentumTimeVariationD_calm s d).inv hd
  | computeCentroidalMapTimeVariation q v => exact (computeCentroidalMapTimeVariation_calm s q v d).inv hd
  | getCoriolisMatrix => exact getCoriolisMatrix_inv h hf hc hd
  | computeKineticEnergyD => exact (computeKineticEnergyD_calm s d).inv hd
  | computePotentialEnergyD => exact (computePotentialEnergyD_calm s d).inv hd
  | computeMechanicalEnergyD => exact (computeMechanicalEnergyD_calm s d).inv hd

theorem Call.inv (h : s.Packed) (hf : s.Full) (hc : Compact s.par s.n) {d : Data K} (hd : HInv s d) (c : Call K) :
    HInv s (c.run s d) := by
  cases c with
  | forwardKinematics q => exact (forwardKinematics_calm s q d).inv hd
  | forwardKinematicsV q v => exact (forwardKinematicsV_calm s q v d).inv hd
  | forwardKinematicsA q v a => exact (forwardKinematicsA_calm s q v a d).inv hd
  | rnea q v a => exact (rnea_calm s q v a d).inv hd
  | rneaFext q v a fe => exact (rneaFext_calm s q v a fe d).inv hd
  | nonLinearEffects q v => exact (nonLinearEffects_calm s q v d).inv hd
  | computeGeneralizedGravity q => exact (computeGeneralizedGravity_calm s q d).inv hd
  | computeStaticTorque q fe => exact (computeStaticTorque_calm s q fe d).inv hd
  | crbaWorld q => exact crbaWorld_inv h hc hd q
  | crbaLocal q => exact crbaLocal_inv h hc hd q
  | abaWorld q v t => exact (abaWorld_calm s q v t d).inv hd
  | abaLocal q v t => exact (abaLocal_calm s q v t d).inv hd
  | abaWorldFext q v t fe => exact (abaWorldFext_calm s q v t fe d).inv hd
  | abaLocalFext q v t fe => exact (abaLocalFext_calm s q v t fe d).inv hd
  | computeMinverse q => exact (computeMinverse_calm s q d).inv hd
  | computeJointJacobians q => exact (computeJointJacobians_calm s q d).inv hd
  | computeJointJacobiansTimeVariation q v => exact (computeJointJacobiansTimeVariation_calm s q v d).inv hd
  | computeTotalMass => exact (computeTotalMassD_calm s d).inv hd
  | computeSubtreeMasses => exact (computeSubtreeMasses_calm s d).inv hd
  | centerOfMass q sub => exact (centerOfMass_calm s q sub d).inv hd
  | centerOfMassV q v sub => exact (centerOfMassV_calm s q v sub d).inv hd
  | centerOfMassA q v a sub => exact (centerOfMassA_calm s q v a sub d).inv hd
  | jacobianCenterOfMass q sub => exact (jacobianCenterOfMass_calm s q sub d).inv hd
  | computeCentroidalMomentum q v => exact (computeCentroidalMomentum_calm s q v d).inv hd
  | computeCentroidalMomentumTimeVariation q v a => exact (computeCentroidalMomentumTimeVariation_calm s q v a d).inv hd
  | computeCentroidalMap q => exact (computeCentroidalMap_calm s q d).inv hd
  | ccrba q v => exact (ccrba_calm s q v d).inv hd
  | dccrba q v => exact (dccrba_calm s q v d).inv hd
  | computeCoriolisMatrix q v => exact computeCoriolisMatrix_inv h hf hc hd q v
  | computeKineticEnergy q v => exact ((forwardKinematicsV_calm s q v d).trans (computeKineticEnergyD_calm s _)).inv hd
  | computePotentialEnergy q => exact ((forwardKinematics_calm s q d).trans (computePotentialEnergyD_calm s _)).inv hd
  | computeMechanicalEnergy q v => exact ((forwardKinematicsV_calm s q v d).trans (computeMechanicalEnergyD_calm s _)).inv hd

theorem runs_inv (h : s.Packed) (hf : s.Full) (hc : Compact s.par s.n) {d : Data K} (hd : HInv s d)
    (l : List (Call K ⊕ Cont K)) : HInv s (runs s d l) := by
  induction l generalizing d with
  | nil => exact hd
  | cons c l ih =>
    cases c with
    | inl c => exact ih (c.inv h hf hc hd)
    | inr c => exact ih (c.inv h hf hc hd)

/-- a column from the products with all vectors -/
theorem col_of_mul {A B : ℕ → Force K} {n : ℕ}
    (h : ∀ w : ℕ → K, ∑ r ∈ range n, w r • A r = ∑ r ∈ range n, w r • B r) {r : ℕ} (hr : r < n) : A r = B r := by
  have sel : ∀ A : ℕ → Force K, ∑ c ∈ range n, (Sys.unit r : ℕ → K) c • A c = A r := by
    intro A
    rw [sum_eq_single r]
    · simp [Sys.unit]
    · intro c _ hc; simp [Sys.unit, hc]
    · intro hn; exact absurd (mem_range.2 hr) hn
  rw [← sel A, ← sel B, h]

/-- the inverse of a matrix is unique -/
theorem InverseOf.unique {n : ℕ} {M A B : ℕ → ℕ → K} (hA : InverseOf n M A) (hB : InverseOf n M B) {r c : ℕ}
    (hr : r < n) (hc : c < n) : A r c = B r c := by
  have e1 : ∑ k ∈ range n, A r k * (∑ l ∈ range n, M k l * B l c) = A r c := by
    rw [sum_congr rfl fun k hk => by rw [(hB k (mem_range.1 hk) c hc).1]]
    simp [hc]
  have e2 : ∑ l ∈ range n, (∑ k ∈ range n, A r k * M k l) * B l c = B r c := by
    rw [sum_congr rfl fun k hk => by rw [(hA r hr k (mem_range.1 hk)).2]]
    simp [hr]
  rw [← e1, ← e2]
  simp only [mul_sum, sum_mul, mul_assoc]
  exact sum_comm

/-- the results of every call but `crba`, `computeCoriolisMatrix` and the kinetic energy are the same whatever `data`
contains before, be it produced by a history of calls or not -/
theorem C21_any_content (h : s.Packed) (hc : crbaCheck s.par s.n = true) (hm : s.MassesOk) (c : Call K)
    (ha : c.Any) (ho : c.Ok s) (d e : Data K) : Agree s (c.run s d) (c.run s e) c := by
  have hp := h.par
  cases c with
  | forwardKinematics q =>
    intro i h1 hi
    obtain ⟨a1, a2, -⟩ := fk0_ok hp d q i h1 hi
    obtain ⟨b1, b2, -⟩ := fk0_ok hp e q i h1 hi
    exact ⟨a1.trans b1.symm, a2.trans b2.symm⟩
  | forwardKinematicsV q v =>
    intro i h1 hi
    have A := fk1_ok hp d ho v
    have B := fk1_ok hp e ho v
    exact ⟨(A.1 i h1 hi).1.trans (B.1 i h1 hi).1.symm, (A.1 i h1 hi).2.1.trans (B.1 i h1 hi).2.1.symm,
      (A.2 i h1 hi).1.trans (B.2 i h1 hi).1.symm⟩
  | forwardKinematicsA q v a =>
    intro i h1 hi
    have A := fk2_ok hp d ho v a
    have B := fk2_ok hp e ho v a
    exact ⟨(A.1 i h1 hi).1.trans (B.1 i h1 hi).1.symm, (A.1 i h1 hi).2.1.trans (B.1 i h1 hi).2.1.symm,
      (A.2.1 i h1 hi).1.trans (B.2.1 i h1 hi).1.symm, (A.2.2 i hi).trans (B.2.2 i hi).symm⟩
  | rnea q v a =>
    intro r hr
    exact Sys.dotv_ext (fun w => (rnea_power h.wf d ho v a w).trans (rnea_power h.wf e ho v a w).symm) hr
  | rneaFext q v a fe =>
    intro r hr
    exact Sys.dotv_ext (fun w => (rneaFext_power h.wf d ho v a fe w).trans (rneaFext_power h.wf e ho v a fe w).symm) hr
  | nonLinearEffects q v =>
    intro r hr
    exact Sys.dotv_ext (fun w => (nle_power h.wf d ho v w).trans (nle_power h.wf e ho v w).symm) hr
  | computeGeneralizedGravity q =>
    intro r hr
    exact Sys.dotv_ext (fun w => (grav_power h.wf d q w).trans (grav_power h.wf e q w).symm) hr
  | computeStaticTorque q fe =>
    intro r hr
    exact Sys.dotv_ext (fun w => (static_power h.wf d q fe w).trans (static_power h.wf e q fe w).symm) hr
  | crbaWorld q => exact ha.elim
  | crbaLocal q => exact ha.elim
  | abaWorld q v t =>
    intro r hr
    exact ((C16_conventions h ho.1 ho.2 d d v t (fun _ => 0) hr).1.symm).trans
      (C16_conventions h ho.1 ho.2 d e v t (fun _ => 0) hr).1
  | abaLocal q v t =>
    intro r hr
    exact (C16_conventions h ho.1 ho.2 d e v t (fun _ => 0) hr).1.trans
      (C16_conventions h ho.1 ho.2 e e v t (fun _ => 0) hr).1.symm
  | abaWorldFext q v t fe =>
    intro r hr
    exact ((C16_conventions h ho.1 ho.2 d d v t fe hr).2.symm).trans
      (C16_conventions h ho.1 ho.2 d e v t fe hr).2
  | abaLocalFext q v t fe =>
    intro r hr
    exact (C16_conventions h ho.1 ho.2 d e v t fe hr).2.trans
      (C16_conventions h ho.1 ho.2 e e v t fe hr).2.symm
  | computeMinverse q =>
    intro r hr c hcv
    exact InverseOf.unique (C23_minverse h hc ho.1 ho.2 d) (C23_minverse h hc ho.1 ho.2 e) hr hcv
  | computeJointJacobians q =>
    have A := jac_ok h d q
    have B := jac_ok h e q
    refine ⟨fun r hr => ?_, fun i h1 hi => (A.1 i h1 hi).2.1.trans (B.1 i h1 hi).2.1.symm⟩
    obtain ⟨i, k, h1, hi, hk, rfl⟩ := h.cover hr
    exact (A.2 i h1 hi k hk).trans (B.2 i h1 hi k hk).symm
  | computeJointJacobiansTimeVariation q v =>
    have A := tv_ok h d ho v
    have B := tv_ok h e ho v
    refine ⟨fun r hr => ?_, fun i h1 hi => ⟨(A.pl i h1 hi).2.1.trans (B.pl i h1 hi).2.1.symm,
      (A.vel i h1 hi).1.trans (B.vel i h1 hi).1.symm⟩⟩
    obtain ⟨i, k, h1, hi, hk, rfl⟩ := h.cover hr
    exact ⟨(A.J i h1 hi k hk).trans (B.J i h1 hi k hk).symm, (A.dJ i h1 hi k hk).trans (B.dJ i h1 hi k hk).symm⟩
  | computeTotalMass => exact (C19_totalMass s d).2.trans (C19_totalMass s e).2.symm
  | computeSubtreeMasses => intro i hi; exact (C19_subtreeMasses hp d hi).trans (C19_subtreeMasses hp e hi).symm
  | centerOfMass q sub =>
    intro i hi
    have A := com_out0 hp d ho sub
    have B := com_out0 hp e ho sub
    refine ⟨(A.mass i hi).trans (B.mass i hi).symm, ?_⟩
    rcases Nat.eq_zero_or_pos i with rfl | h1
    · exact A.com0.trans B.com0.symm
    · exact (A.com i h1 hi).trans (B.com i h1 hi).symm
  | centerOfMassV q v sub =>
    intro i hi
    have A := com_out1 hp d ho v sub
    have B := com_out1 hp e ho v sub
    refine ⟨(A.mass i hi).trans (B.mass i hi).symm, ?_⟩
    rcases Nat.eq_zero_or_pos i with rfl | h1
    · exact ⟨A.com0.trans B.com0.symm, (A.vcom0 rfl).trans (B.vcom0 rfl).symm⟩
    · exact ⟨(A.com i h1 hi).trans (B.com i h1 hi).symm, (A.vcom rfl i h1 hi).trans (B.vcom rfl i h1 hi).symm⟩
  | centerOfMassA q v a sub =>
    intro i hi
    have A := com_out2 hp d ho v a sub
    have B := com_out2 hp e ho v a sub
    refine ⟨(A.mass i hi).trans (B.mass i hi).symm, ?_⟩
    rcases Nat.eq_zero_or_pos i with rfl | h1
    · exact ⟨A.com0.trans B.com0.symm, (A.vcom0 rfl).trans (B.vcom0 rfl).symm, (A.acom0 rfl).trans (B.acom0 rfl).symm⟩
    · exact ⟨(A.com i h1 hi).trans (B.com i h1 hi).symm, (A.vcom rfl i h1 hi).trans (B.vcom rfl i h1 hi).symm,
        (A.acom rfl i h1 hi).trans (B.acom rfl i h1 hi).symm⟩
  | jacobianCenterOfMass q sub =>
    have A := jacobianCenterOfMass_out h sub (fk0_ok hp d q)
    have B := jacobianCenterOfMass_out h sub (fk0_ok hp e q)
    refine ⟨fun i hi => ⟨(A.mass i hi).trans (B.mass i hi).symm, ?_⟩, fun r hr => ?_⟩
    · rcases Nat.eq_zero_or_pos i with rfl | h1
      · exact A.com0.trans B.com0.symm
      · exact (A.com i h1 hi).trans (B.com i h1 hi).symm
    · obtain ⟨i, k, h1, hi, hk, rfl⟩ := h.cover hr
      exact (A.Jcom i h1 hi k hk).trans (B.Jcom i h1 hi k hk).symm
  | computeCentroidalMomentum q v =>
    have out : ∀ d : Data K, CmOut s q v (Pin.computeCentroidalMomentum s d q v) := fun d => by
      obtain ⟨h0, hv⟩ := fk1_ok hp d ho v
      exact computeCentroidalMomentumD_out hp ho (fun i h1 hi => (h0 i h1 hi).1) (fun i h1 hi => (hv i h1 hi).1)
    have A := out d
    have B := out e
    exact ⟨A.hg.trans B.hg.symm, A.com.trans B.com.symm, A.vcom.trans B.vcom.symm, A.mass.trans B.mass.symm⟩
  | computeCentroidalMomentumTimeVariation q v a =>
    have out := fun d : Data K => by
      obtain ⟨h0, hv, ha⟩ := fk2_ok hp d ho v a
      exact computeCentroidalMomentumTimeVariationD_out hp ho (fun i h1 hi => (h0 i h1 hi).1)
        (fun i h1 hi => (hv i h1 hi).1) (fun i h1 hi => ha i hi)
    have A := (out d).1
    have B := (out e).1
    exact ⟨A.hg.trans B.hg.symm, (out d).2.trans (out e).2.symm, A.com.trans B.com.symm, A.vcom.trans B.vcom.symm,
      A.mass.trans B.mass.symm⟩
  | computeCentroidalMap q =>
    have A := C20_map h hm ho.2 d ho.1
    have B := C20_map h hm ho.2 e ho.1
    exact ⟨fun r hr => col_of_mul (fun w => (A.1 w).trans (B.1 w).symm) hr, A.2.trans B.2.symm⟩
  | ccrba q v =>
    have A := C20_ccrba h hm ho.2 d d d ho.1 v
    have B := C20_ccrba h hm ho.2 e d e ho.1 v
    exact ⟨fun r hr => (A.1 r hr).trans (B.1 r hr).symm, A.2.2.1.trans B.2.2.1.symm, A.2.2.2.2.trans B.2.2.2.2.symm,
      fun w => (C20_Ig h hm ho.2 d ho.1 v w).trans (C20_Ig h hm ho.2 e ho.1 v w).symm⟩
  | dccrba q v =>
    have A := C45_dccrba_side h hm ho.2 d d ho.1 v
    have B := C45_dccrba_side h hm ho.2 e d ho.1 v
    refine ⟨fun r hr => ⟨col_of_mul (fun w => (A.1 w).trans (B.1 w).symm) hr, col_of_mul (fun w => ?_) hr⟩,
      A.2.1.trans B.2.1.symm, A.2.2.1.trans B.2.2.1.symm, A.2.2.2.trans B.2.2.2.symm⟩
    simp only [Call.run]
    rw [dccrba_shift h hm ho.2 d ho.1, dccrba_shift h hm ho.2 e ho.1, dccrba_dAg h hm ho.2 d ho.1,
      dccrba_dAg h hm ho.2 e ho.1]
  | computeCoriolisMatrix q v => exact ha.elim
  | computeKineticEnergy q v => exact ha.elim
  | computePotentialEnergy q => exact (potential_eq hp d q).trans (potential_eq hp e q).symm
  | computeMechanicalEnergy q v => exact ha.elim

theorem kinetic_agree (hp : ParOk s.par s.n) {d e : Data K} (hd : HInv s d) (he : HInv s e) {q : ℕ → K} (hq : s.At q)
    (v : ℕ → K) : (computeKineticEnergy s d q v).kinetic_energy = (computeKineticEnergy s e q v).kinetic_energy := by
  unfold computeKineticEnergy
  rw [kinetic_loop hp.1, kinetic_loop hp.1]
  congr 1
  apply sum_congr rfl
  intro i hi
  rw [mem_Ico] at hi
  rw [((fk1_ok hp d hq v).2 i hi.1 hi.2).1, ((fk1_ok hp e hq v).2 i hi.1 hi.2).1,
    fk1_jv hp.1 d q v i hi.1 hi.2, fk1_jv hp.1 e q v i hi.1 hi.2]
  congr 1
  apply sum_congr rfl
  intro k _
  by_cases hs : (s.jt i).setsV = true
  · rw [if_pos hs, if_pos hs]
  · rw [if_neg hs, if_neg hs, hd.jv i (by simpa using hs) k, he.jv i (by simpa using hs) k]

/-- every call gives the same results on any two `data` with the zeros that construction leaves -/
theorem agree_of_inv (h : s.Packed) (hf : s.Full) (hc : crbaCheck s.par s.n = true) (hm : s.MassesOk) (c : Call K)
    (ho : c.Ok s) {d e : Data K} (hd : HInv s d) (he : HInv s e) : Agree s (c.run s d) (c.run s e) c := by
  have hcm := (crbaCheck_iff h.par).1 hc
  by_cases ha : c.Any
  · exact C21_any_content h hc hm c ha ho d e
  cases c with
  | crbaWorld q =>
    intro r hr c hcv
    exact (C13_entries h hc hm d ho hd.M hr hcv).1.trans (C13_entries h hc hm e ho he.M hr hcv).1.symm
  | crbaLocal q =>
    intro r hr c hcv
    exact (C13_entries h hc hm d ho hd.M hr hcv).2.trans (C13_entries h hc hm e ho he.M hr hcv).2.symm
  | computeCoriolisMatrix q v =>
    intro r hr c hcv
    exact ((coriolis_corB h hf hcm hm d ho v).C.form h ho hd.C hr hcv).trans
      ((coriolis_corB h hf hcm hm e ho v).C.form h ho he.C hr hcv).symm
  | computeKineticEnergy q v => exact kinetic_agree h.par hd he ho v
  | computeMechanicalEnergy q v =>
    exact (mechanical_eq' h d ho v).trans (((congrArg₂ (· + ·) (kinetic_agree h.par hd he ho v)
      ((potential_eq h.par d q).trans (potential_eq h.par e q).symm))).trans (mechanical_eq' h e ho v).symm)
  | _ => exact absurd trivial ha

/-- A `data` as `DataTpl(model)` constructs it, as far as the algorithms look: `M` and `C` full of zeros
(`data.hxx:43-44, 69`), `joint_v` of every joint zero (`joint-data` constructors). Everything else is arbitrary. -/
def Fresh (d : Data K) : Prop := (∀ r c, d.M r c = 0) ∧ (∀ r c, d.C r c = 0) ∧ ∀ i k, (d.joints i).jv k = 0

theorem Fresh.inv {d : Data K} (hd : Fresh d) : HInv s d :=
  ⟨fun _ _ _ _ _ _ _ _ _ _ _ _ => hd.1 _ _, fun _ _ _ _ _ _ _ _ _ _ _ _ => hd.2.1 _ _, fun i _ k => hd.2.2 i k⟩

/-- **C21** For every history of calls on a freshly constructed `data`, with any arguments, admissible or not, the results
of the next admissible call are those of the same call on a `data` freshly constructed. -/
theorem C21_history (h : s.Packed) (hf : s.Full) (hc : crbaCheck s.par s.n = true) (hm : s.MassesOk)
    {d e : Data K} (hd : Fresh d) (he : Fresh e) (l : List (Call K ⊕ Cont K)) (c : Call K) (ho : c.Ok s) :
    Agree s (c.run s (runs s d l)) (c.run s e) c :=
  agree_of_inv h hf hc hm c ho (runs_inv h hf ((crbaCheck_iff h.par).1 hc) hd.inv l) he.inv

/-- Two histories on two `data` give the same results of the last call: a `data` may be reused, and copies of it are
interchangeable. -/
theorem C21_two_histories (h : s.Packed) (hf : s.Full) (hc : crbaCheck s.par s.n = true) (hm : s.MassesOk)
    {d e : Data K} (hd : Fresh d) (he : Fresh e) (l l' : List (Call K ⊕ Cont K)) (c : Call K) (ho : c.Ok s) :
    Agree s (c.run s (runs s d l)) (c.run s (runs s e l')) c := by
  have hcm := (crbaCheck_iff h.par).1 hc
  exact agree_of_inv h hf hc hm c ho (runs_inv h hf hcm hd.inv l) (runs_inv h hf hcm he.inv l')

/-- the hypotheses hold for a tree with a branch, and a history of six calls in any order, before each of five calls -/
example (d : Data ℚ) (hd : Fresh d) :
    let l : List (Call ℚ ⊕ Cont ℚ) := [.inl (.ccrba Ex.vA Ex.vA), .inr .getCoriolisMatrix, .inl (.crbaLocal Ex.vA),
      .inr .computeMinverseNoUpdate, .inl (.dccrba Ex.qA Ex.vA), .inl (.abaWorld Ex.vA Ex.qA Ex.qA)]
    ∀ c ∈ ([.crbaWorld Ex.qA, .abaLocal Ex.qA Ex.vA Ex.vA, .ccrba Ex.qA Ex.vA, .computeMinverse Ex.qA,
      .computeCoriolisMatrix Ex.qA Ex.vA] : List (Call ℚ)),
      Agree Ex.sysA (c.run Ex.sysA (runs Ex.sysA d l)) (c.run Ex.sysA Data.zero) c := by
  intro l c hc
  refine C21_history Ex.sysA_packed Ex.sysA_full (by decide) Ex.sysA_masses hd
    ⟨fun _ _ => rfl, fun _ _ => rfl, fun _ _ => rfl⟩ l c ?_
  have hm : Ex.sysA.subMass 0 ≠ 0 := by
    rw [← C19_subtreeMasses Ex.sysA_par Data.zero (by decide)]
    decide +kernel
  simp only [List.mem_cons, List.not_mem_nil, or_false] at hc
  rcases hc with rfl | rfl | rfl | rfl | rfl
  · exact Ex.sysA_at
  · exact ⟨Ex.sysA_at, Ex.sysA_regular⟩
  · exact ⟨Ex.sysA_at, hm⟩
  · exact ⟨Ex.sysA_at, Ex.sysA_regular⟩
  · exact Ex.sysA_at

/-- a `data` as it is constructed is fresh -/
example : Fresh (Data.zero (K := ℚ)) := ⟨fun _ _ => rfl, fun _ _ => rfl, fun _ _ => rfl⟩

/-- The zeros of the construction matter to `crba`: on a `data` whose `M` holds something else, which no history of calls
produces but a user may write, the entries of two joints on different branches stay what they were. -/
theorem C21_content_counterexample :
    let d : Data ℚ := { Data.zero with M := fun _ _ => 1 }
    ¬ Agree Ex.sysA ((Call.crbaWorld Ex.qA).run Ex.sysA d) ((Call.crbaWorld Ex.qA).run Ex.sysA Data.zero)
      (.crbaWorld Ex.qA) := by
  intro d h
  have := h 1 (by decide) 2 (by decide)
  revert this
  decide +kernel

end Pin
