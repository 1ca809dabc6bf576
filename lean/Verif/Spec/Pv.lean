import Verif.Algo.Pv
import Verif.Spec.Delassus
import Verif.Spec.Baumgarte
import Verif.Spec.Contact

/-! # Specification: constrained dynamics with the solver `pv` -/

namespace Pin
open Finset
variable {K : Type*} [Field K]

/-- contacts that the solver accepts, on joints of the model other than the universe -/
def PvFit (s : Sys K) (ms : ℕ → RCM K) (nc : ℕ) : Prop :=
  ∀ k < nc, (ms k).PvOk ∧ 1 ≤ (ms k).j1 ∧ (ms k).j1 < s.n ∧ (ms k).P1.Valid

/-- the states of `Data` that a program can reach: after `initPvSolver`, and after any number of calls to `pv` -/
inductive PvReach [LinearOrder K] (s : Sys K) (ms : ℕ → RCM K) (nc : ℕ) : PvData K → Prop
  | init (x : PvData K) : PvReach s ms nc (initPvSolver s x ms nc)
  | call {x : PvData K} (lg : SE3 K → Motion K) (q v tau : ℕ → K) (ks : ℕ → Corr K) (cd : ℕ → PvCon K) (st : ProxSet K) :
    PvReach s ms nc x → s.At q → PvReach s ms nc (pv lg s x q v tau ms ks nc cd st).1

/-- first row of contact `k` among the rows of the contacts of its joint -/
def contactRow (ms : ℕ → RCM K) (k : ℕ) : ℕ := ∑ i ∈ range k, if (ms i).j1 = (ms k).j1 then (ms i).type.dim else 0

/-- entry `r` of the multiplier of contact `k`: `data.lambdaA[joint1_id]`, from the first row of the contact -/
def pvForce (ms : ℕ → RCM K) (x : PvData K) (k r : ℕ) : K := x.lamA (ms k).j1 (contactRow ms k + r)

/-- acceleration of the contact, in its frame: of the point for a `CONTACT_3D`, spatial for a `CONTACT_6D` -/
def RCM.accIn (m : RCM K) (F : Data K) : Motion K :=
  match m.type with
  | .CONTACT_3D => getFrameClassicalAcceleration F m.j1 m.P1 .LOCAL
  | .CONTACT_6D => getFrameAcceleration F m.j1 m.P1 .LOCAL

/-- no contact forces but zero have no power -/
def Sys.ConIndep (s : Sys K) (q : ℕ → K) (ms : ℕ → RCM K) (nc : ℕ) : Prop :=
  ∀ f : ℕ → ℕ → K, (∀ w, s.conPower q ms nc f w = 0) → ∀ k < nc, ∀ r < (ms k).type.dim, f k r = 0

end Pin
