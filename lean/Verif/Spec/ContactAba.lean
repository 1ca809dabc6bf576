import Verif.Algo.ContactAba
import Verif.Spec.Pv

/-! # Specification: constrained dynamics with the solver `contactABA` -/

namespace Pin
open Finset
variable {K : Type*}

/-- entry `r` of a force, linear part first -/
def Force.row (f : Force K) : ℕ → K
  | 0 => f.lin.x | 1 => f.lin.y | 2 => f.lin.z | 3 => f.ang.x | 4 => f.ang.y | _ => f.ang.z

variable [Field K]

/-- contacts on joints of the model other than the universe, at most one on each joint -/
structure CtFit (s : Sys K) (ms : ℕ → RCM K) (nc : ℕ) : Prop where
  joint : ∀ k < nc, 1 ≤ (ms k).j1 ∧ (ms k).j1 < s.n
  place : ∀ k < nc, (ms k).P1.Valid
  one : ∀ k < nc, ∀ l < nc, (ms k).j1 = (ms l).j1 → k = l

/-- the contact data of a point contact hold a force without a torque -/
def CtPoint (ms : ℕ → RCM K) (nc : ℕ) (cd : ℕ → CtCon K) : Prop :=
  ∀ k < nc, (ms k).type = .CONTACT_3D → (cd k).force.ang = 0

/-- entry `r` of the error of contact `k` under the joint accelerations `a`: its acceleration minus the desired one -/
def ctErr (s : Sys K) (q v : ℕ → K) (ms : ℕ → RCM K) (des : ℕ → Motion K) (d : Data K) (a : ℕ → K) (k r : ℕ) : K :=
  ((ms k).accIn (forwardKinematicsA s d q v a)).row r - (des k).row r

/-- entry `r` of the multiplier that the data of contact `k` stand for: `contact_force`, and `mu` times the spatial acceleration
that the contact has when the joint accelerations are zero -/
def ctMult (s : Sys K) (q v : ℕ → K) (ms : ℕ → RCM K) (mu : K) (d : Data K) (cd : ℕ → CtCon K) (k r : ℕ) : K :=
  (cd k).force.row r + mu * (getFrameAcceleration (forwardKinematicsA s d q v (fun _ => 0)) (ms k).j1 (ms k).P1 .LOCAL).row r

/-- a sum over the rows of the contacts -/
def conSum (ms : ℕ → RCM K) (nc : ℕ) (f : ℕ → ℕ → K) : K := ∑ k ∈ range nc, ∑ r ∈ range (ms k).type.dim, f k r

end Pin
