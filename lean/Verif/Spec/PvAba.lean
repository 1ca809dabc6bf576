import Verif.Algo.PvAba
import Verif.Spec.Pv

/-! # Specification: constrained dynamics with the solver `constrainedABA` -/

namespace Pin
open Finset
variable {K : Type*} [Field K]

/-- the states of `Data` after `initPvSolver` and any number of calls to `constrainedABA` -/
inductive CabaReach [LinearOrder K] (s : Sys K) (ms : ℕ → RCM K) (nc : ℕ) : PvData K → Prop
  | init (x : PvData K) : CabaReach s ms nc (initPvSolver s x ms nc)
  | call {x : PvData K} (lg : SE3 K → Motion K) (q v tau : ℕ → K) (ks : ℕ → Corr K) (cd : ℕ → PvCon K) (st : ProxSet K) :
    CabaReach s ms nc x → s.At q → CabaReach s ms nc (constrainedABA lg s x q v tau ms ks nc cd st).1

/-- number of contacts on joint `j` -/
def conCount (ms : ℕ → RCM K) (nc j : ℕ) : ℕ := ((range nc).filter fun k => (ms k).j1 = j).card

/-- entry `r` of contact `k` in `data.lambdaA[0]`, the contacts in the order of the vector of contacts -/
def cabaForce (ms : ℕ → RCM K) (x : PvData K) (k r : ℕ) : K := x.lamA 0 (conRow ms k + r)

end Pin
