import Verif.Algo.Minverse
import Verif.Algo.Aba
import Verif.Algo.Crba
import Verif.Algo.Energy
import Verif.Algo.Centroidal
import Verif.Algo.Coriolis
import Verif.Algo.Com
import Verif.Algo.Jacobian
import Verif.Algo.Rnea
import Verif.Spec.Matrix
import Verif.Spec.Com
import Verif.Algo.AbaCore
import Verif.Algo.AbaFrames

/-!
# Specification: histories of calls on one `Data`, and the documented results of a call

`Call` lists the algorithms that are given everything they need (configuration, velocity, ...); `Cont` lists the ones
that by contract go on from what an earlier call left in `data`. A history is any list of both, in any order, at any
arguments. `Agree c d e` compares the documented results of the call `c` only: everything else in `data` is scratch.
-/

namespace Pin
variable {K : Type*}

/-- algorithms that take everything they need as arguments -/
inductive Call (K : Type*)
  | forwardKinematics (q : ℕ → K)
  | forwardKinematicsV (q v : ℕ → K)
  | forwardKinematicsA (q v a : ℕ → K)
  | rnea (q v a : ℕ → K)
  | rneaFext (q v a : ℕ → K) (fext : ℕ → Force K)
  | nonLinearEffects (q v : ℕ → K)
  | computeGeneralizedGravity (q : ℕ → K)
  | computeStaticTorque (q : ℕ → K) (fext : ℕ → Force K)
  | crbaWorld (q : ℕ → K)
  | crbaLocal (q : ℕ → K)
  | abaWorld (q v tau : ℕ → K)
  | abaLocal (q v tau : ℕ → K)
  | abaWorldFext (q v tau : ℕ → K) (fext : ℕ → Force K)
  | abaLocalFext (q v tau : ℕ → K) (fext : ℕ → Force K)
  | computeMinverse (q : ℕ → K)
  | computeJointJacobians (q : ℕ → K)
  | computeJointJacobiansTimeVariation (q v : ℕ → K)
  | computeTotalMass
  | computeSubtreeMasses
  | centerOfMass (q : ℕ → K) (sub : Bool)
  | centerOfMassV (q v : ℕ → K) (sub : Bool)
  | centerOfMassA (q v a : ℕ → K) (sub : Bool)
  | jacobianCenterOfMass (q : ℕ → K) (sub : Bool)
  | computeCentroidalMomentum (q v : ℕ → K)
  | computeCentroidalMomentumTimeVariation (q v a : ℕ → K)
  | computeCentroidalMap (q : ℕ → K)
  | ccrba (q v : ℕ → K)
  | dccrba (q v : ℕ → K)
  | computeCoriolisMatrix (q v : ℕ → K)
  | computeKineticEnergy (q v : ℕ → K)
  | computePotentialEnergy (q : ℕ → K)
  | computeMechanicalEnergy (q v : ℕ → K)

/-- functions that continue from the content of `data` -/
inductive Cont (K : Type*)
  | updateGlobalPlacements
  | computeJointJacobiansData
  | updateFramePlacements (frames : ℕ → Frame K) (nframes : ℕ)
  | updateFramePlacement (frames : ℕ → Frame K) (f : ℕ)
  | computeJointJacobian (q : ℕ → K) (joint : ℕ) (J : ℕ → Motion K)
  | computeFrameJacobian (q : ℕ → K) (support : List ℕ) (f joint : ℕ) (placement : SE3 K) (rf : RF) (J : ℕ → Motion K)
  | computeMinverseNoUpdate
  | centerOfMassD (lvl : KLevel) (sub : Bool)
  | getComFromCrba
  | getJacobianComFromCrba
  | jacobianCenterOfMassD (sub : Bool)
  | computeCentroidalMomentumD
  | computeCentroidalMomentumTimeVariationD
  | computeCentroidalMapTimeVariation (q v : ℕ → K)
  | getCoriolisMatrix
  | computeKineticEnergyD
  | computePotentialEnergyD
  | computeMechanicalEnergyD

section
variable [Field K] [LinearOrder K] [HasEps K]

/-- what the call does to `data` -/
def Call.run (s : Sys K) (d : Data K) : Call K → Data K
  | forwardKinematics q => Pin.forwardKinematics s d q
  | forwardKinematicsV q v => Pin.forwardKinematicsV s d q v
  | forwardKinematicsA q v a => Pin.forwardKinematicsA s d q v a
  | rnea q v a => Pin.rnea s d q v a
  | rneaFext q v a fext => Pin.rneaFext s d q v a fext
  | nonLinearEffects q v => Pin.nonLinearEffects s d q v
  | computeGeneralizedGravity q => Pin.computeGeneralizedGravity s d q
  | computeStaticTorque q fext => Pin.computeStaticTorque s d q fext
  | crbaWorld q => Pin.crbaWorld s d q
  | crbaLocal q => Pin.crbaLocal s d q
  | abaWorld q v tau => Pin.abaWorld s d q v tau
  | abaLocal q v tau => Pin.abaLocal s d q v tau
  | abaWorldFext q v tau fext => Pin.abaWorldFext s d q v tau fext
  | abaLocalFext q v tau fext => Pin.abaLocalFext s d q v tau fext
  | computeMinverse q => Pin.computeMinverse s d q
  | computeJointJacobians q => Pin.computeJointJacobians s d q
  | computeJointJacobiansTimeVariation q v => Pin.computeJointJacobiansTimeVariation s d q v
  | computeTotalMass => computeTotalMassD s d
  | computeSubtreeMasses => Pin.computeSubtreeMasses s d
  | centerOfMass q sub => Pin.centerOfMass s d q sub
  | centerOfMassV q v sub => Pin.centerOfMassV s d q v sub
  | centerOfMassA q v a sub => Pin.centerOfMassA s d q v a sub
  | jacobianCenterOfMass q sub => Pin.jacobianCenterOfMass s d q sub
  | computeCentroidalMomentum q v => Pin.computeCentroidalMomentum s d q v
  | computeCentroidalMomentumTimeVariation q v a => Pin.computeCentroidalMomentumTimeVariation s d q v a
  | computeCentroidalMap q => Pin.computeCentroidalMap s d q
  | ccrba q v => Pin.ccrba s d q v
  | dccrba q v => Pin.dccrba s d q v
  | computeCoriolisMatrix q v => Pin.computeCoriolisMatrix s d q v
  | computeKineticEnergy q v => Pin.computeKineticEnergy s d q v
  | computePotentialEnergy q => Pin.computePotentialEnergy s d q
  | computeMechanicalEnergy q v => Pin.computeMechanicalEnergy s d q v

/-- what the function does to `data` -/
def Cont.run (s : Sys K) (d : Data K) : Cont K → Data K
  | updateGlobalPlacements => Pin.updateGlobalPlacements s d
  | computeJointJacobiansData => Pin.computeJointJacobiansData s d
  | updateFramePlacements frames n => Pin.updateFramePlacements frames n d
  | updateFramePlacement frames f => Pin.updateFramePlacement frames d f
  | computeJointJacobian q joint J => (Pin.computeJointJacobian s d q joint J).1
  | computeFrameJacobian q support f joint P rf J => (Pin.computeFrameJacobian s d q support f joint P rf J).1
  | computeMinverseNoUpdate => Pin.computeMinverseNoUpdate s d
  | centerOfMassD lvl sub => Pin.centerOfMassD s d lvl sub
  | getComFromCrba => Pin.getComFromCrba d
  | getJacobianComFromCrba => Pin.getJacobianComFromCrba d
  | jacobianCenterOfMassD sub => Pin.jacobianCenterOfMassD s d sub
  | computeCentroidalMomentumD => Pin.computeCentroidalMomentumD s d
  | computeCentroidalMomentumTimeVariationD => Pin.computeCentroidalMomentumTimeVariationD s d
  | computeCentroidalMapTimeVariation q v => Pin.computeCentroidalMapTimeVariation s d q v
  | getCoriolisMatrix => Pin.getCoriolisMatrix s d
  | computeKineticEnergyD => Pin.computeKineticEnergyD s d
  | computePotentialEnergyD => Pin.computePotentialEnergyD s d
  | computeMechanicalEnergyD => Pin.computeMechanicalEnergyD s d

/-- `data` after a history of calls, the first of the list being the first made -/
def runs (s : Sys K) (d : Data K) : List (Call K ⊕ Cont K) → Data K
  | [] => d
  | .inl c :: l => runs s (c.run s d) l
  | .inr c :: l => runs s (c.run s d) l

/-- The call is admissible: the configuration is one of the robot's; for the algorithms that invert the joint-space inertia
the diagonal blocks they factor are invertible; for the ones that divide by the mass of the robot, it is not zero. Nothing
is asked of the calls made before. -/
def Call.Ok (s : Sys K) : Call K → Prop
  | forwardKinematics q | forwardKinematicsV q _ | forwardKinematicsA q _ _ | rnea q _ _ | rneaFext q _ _ _
  | nonLinearEffects q _ | computeGeneralizedGravity q | computeStaticTorque q _ | crbaWorld q | crbaLocal q
  | computeJointJacobians q | computeJointJacobiansTimeVariation q _ | centerOfMass q _ | centerOfMassV q _ _
  | centerOfMassA q _ _ _ | jacobianCenterOfMass q _ | computeCentroidalMomentum q _
  | computeCentroidalMomentumTimeVariation q _ _ | computeCoriolisMatrix q _ | computeKineticEnergy q _
  | computePotentialEnergy q | computeMechanicalEnergy q _ => s.At q
  | abaWorld q _ _ | abaLocal q _ _ | abaWorldFext q _ _ _ | abaLocalFext q _ _ _ | computeMinverse q =>
    s.At q ∧ s.Regular q
  | computeCentroidalMap q | ccrba q _ | dccrba q _ => s.At q ∧ s.subMass 0 ≠ 0
  | computeTotalMass | computeSubtreeMasses => True

/-- calls whose results do not even depend on how `data` was constructed -/
def Call.Any : Call K → Prop
  | crbaWorld _ | crbaLocal _ | computeCoriolisMatrix _ _ | computeKineticEnergy _ _ | computeMechanicalEnergy _ _ => False
  | _ => True

/-- same result on both: the documented outputs of the call -/
def Agree (s : Sys K) (d e : Data K) : Call K → Prop
  | .forwardKinematics _ => ∀ i, 1 ≤ i → i < s.n → d.liMi i = e.liMi i ∧ d.oMi i = e.oMi i
  | .forwardKinematicsV _ _ => ∀ i, 1 ≤ i → i < s.n → d.liMi i = e.liMi i ∧ d.oMi i = e.oMi i ∧ d.v i = e.v i
  | .forwardKinematicsA _ _ _ => ∀ i, 1 ≤ i → i < s.n →
      d.liMi i = e.liMi i ∧ d.oMi i = e.oMi i ∧ d.v i = e.v i ∧ d.a i = e.a i
  | .rnea _ _ _ | .rneaFext _ _ _ _ | .computeStaticTorque _ _ => ∀ r < s.nv, d.tau r = e.tau r
  | .nonLinearEffects _ _ => ∀ r < s.nv, d.nle r = e.nle r
  | .computeGeneralizedGravity _ => ∀ r < s.nv, d.g r = e.g r
  | .crbaWorld _ | .crbaLocal _ => ∀ r < s.nv, ∀ c < s.nv, symUpper d.M r c = symUpper e.M r c
  | .abaWorld _ _ _ | .abaLocal _ _ _ | .abaWorldFext _ _ _ _ | .abaLocalFext _ _ _ _ => ∀ r < s.nv, d.ddq r = e.ddq r
  | .computeMinverse _ => ∀ r < s.nv, ∀ c < s.nv, symUpper d.Minv r c = symUpper e.Minv r c
  | .computeJointJacobians _ => (∀ r < s.nv, d.J r = e.J r) ∧ ∀ i, 1 ≤ i → i < s.n → d.oMi i = e.oMi i
  | .computeJointJacobiansTimeVariation _ _ => (∀ r < s.nv, d.J r = e.J r ∧ d.dJ r = e.dJ r) ∧
      ∀ i, 1 ≤ i → i < s.n → d.oMi i = e.oMi i ∧ d.v i = e.v i
  | .computeTotalMass => d.mass 0 = e.mass 0
  | .computeSubtreeMasses => ∀ i < s.n, d.mass i = e.mass i
  | .centerOfMass _ _ => ∀ i < s.n, d.mass i = e.mass i ∧ d.com i = e.com i
  | .centerOfMassV _ _ _ => ∀ i < s.n, d.mass i = e.mass i ∧ d.com i = e.com i ∧ d.vcom i = e.vcom i
  | .centerOfMassA _ _ _ _ => ∀ i < s.n,
      d.mass i = e.mass i ∧ d.com i = e.com i ∧ d.vcom i = e.vcom i ∧ d.acom i = e.acom i
  | .jacobianCenterOfMass _ _ => (∀ i < s.n, d.mass i = e.mass i ∧ d.com i = e.com i) ∧ ∀ r < s.nv, d.Jcom r = e.Jcom r
  | .computeCentroidalMomentum _ _ => d.hg = e.hg ∧ d.com 0 = e.com 0 ∧ d.vcom 0 = e.vcom 0 ∧ d.mass 0 = e.mass 0
  | .computeCentroidalMomentumTimeVariation _ _ _ =>
      d.hg = e.hg ∧ d.dhg = e.dhg ∧ d.com 0 = e.com 0 ∧ d.vcom 0 = e.vcom 0 ∧ d.mass 0 = e.mass 0
  | .computeCentroidalMap _ => (∀ r < s.nv, d.Ag r = e.Ag r) ∧ d.com 0 = e.com 0
  | .ccrba _ _ => (∀ r < s.nv, d.Ag r = e.Ag r) ∧ d.hg = e.hg ∧ d.com 0 = e.com 0 ∧ ∀ w, d.Ig.mul w = e.Ig.mul w
  | .dccrba _ _ => (∀ r < s.nv, d.Ag r = e.Ag r ∧ d.dAg r = e.dAg r) ∧ d.hg = e.hg ∧ d.com 0 = e.com 0 ∧
      d.vcom 0 = e.vcom 0
  | .computeCoriolisMatrix _ _ => ∀ r < s.nv, ∀ c < s.nv, d.C r c = e.C r c
  | .computeKineticEnergy _ _ => d.kinetic_energy = e.kinetic_energy
  | .computePotentialEnergy _ => d.potential_energy = e.potential_energy
  | .computeMechanicalEnergy _ _ => d.mechanical_energy = e.mechanical_energy

end
end Pin
