import Verif.Algo.Kinematics

/-! # `algorithm/energy.hxx` (models without mimic joints) -/

namespace Pin
open Finset
variable {K : Type*} [Field K]

/-- `KineticEnergyAlgoForwardStep::algo`, `algorithm/energy.hxx:23-35`. -/
def kineticStep (s : Sys K) (i : ℕ) (d : Data K) : Data K :=
  let d := { d with kinetic_energy := d.kinetic_energy + (s.Y i).vtiv (d.v i) }
  { d with
    kinetic_energy := d.kinetic_energy
      + ∑ k ∈ range (s.jnv i), s.arm (s.iv i + k) * ((d.joints i).jv k * (d.joints i).jv k) }

/-- the body of the loop of `computePotentialEnergy`, `algorithm/energy.hxx:80-85`. -/
def potentialStep (s : Sys K) (i : ℕ) (d : Data K) : Data K :=
  { d with
    potential_energy := d.potential_energy
      - (s.Y i).mass * ((d.oMi i).trans + (d.oMi i).rot.mulVec (s.Y i).lever).dot s.grav.lin }

/-- `computeKineticEnergy(model, data)`, `algorithm/energy.hxx:38-58`. -/
def computeKineticEnergyD (s : Sys K) (d : Data K) : Data K :=
  let d := fwd (kineticStep s) s.n { d with kinetic_energy := 0 }
  { d with kinetic_energy := d.kinetic_energy * (1 / 2) }

/-- `computePotentialEnergy(model, data)`, `algorithm/energy.hxx:60-85`. -/
def computePotentialEnergyD (s : Sys K) (d : Data K) : Data K :=
  fwd (potentialStep s) s.n { d with potential_energy := 0 }

/-- `computeMechanicalEnergy(model, data)`, `algorithm/energy.hxx:87-118`. -/
def computeMechanicalEnergyD (s : Sys K) (d : Data K) : Data K :=
  let d := { d with kinetic_energy := 0, potential_energy := 0 }
  let d := fwd (fun i d => potentialStep s i (kineticStep s i d)) s.n d
  let d := { d with kinetic_energy := d.kinetic_energy * (1 / 2) }
  { d with mechanical_energy := d.kinetic_energy + d.potential_energy }

/-- `computeKineticEnergy(model, data, q, v)`, `algorithm/energy.hxx:122-136`. -/
def computeKineticEnergy (s : Sys K) (d : Data K) (q v : ℕ → K) : Data K :=
  computeKineticEnergyD s (forwardKinematicsV s d q v)

/-- `computePotentialEnergy(model, data, q)`, `algorithm/energy.hxx:138-150`. -/
def computePotentialEnergy (s : Sys K) (d : Data K) (q : ℕ → K) : Data K :=
  computePotentialEnergyD s (forwardKinematics s d q)

/-- `computeMechanicalEnergy(model, data, q, v)`, `algorithm/energy.hxx:152-166`. -/
def computeMechanicalEnergy (s : Sys K) (d : Data K) (q v : ℕ → K) : Data K :=
  computeMechanicalEnergyD s (forwardKinematicsV s d q v)

end Pin
