import Verif.Algo.Rnea
import Verif.Spec.Along

/-!
# Derivatives of the forward dynamics

The acceleration of the forward dynamics is the one whose inverse dynamics is the torque. Over dual numbers the state
moves in the direction `(w, δv)` and the torque in the direction `δτ`: `perturb x δx` is `x + ε δx`, and `dq` is the
derivative of the configuration vector when the joint velocity is `w` (`Sys.Along`).

`IsFwdDer s sε q w dq v tau fext ddq Dq Dv Dt` says that over dual numbers the acceleration whose inverse dynamics (`rnea`
with the external forces `fext`, constant in the joint frames) is `tau + ε δτ` is

  `ddq + ε (Dq w + Dv δv + Dt δτ)`

and no other: `ddq` is the acceleration at `(q, v, tau)` and the three matrices are its partial derivatives.
-/

namespace Pin
open Finset DualNumber TrivSqZeroExt
universe u

/-- see the file header -/
structure IsFwdDer {K : Type u} [Field K] (s : Sys K) (sε : Sys K[ε]) (q w dq v tau : ℕ → K) (fext : ℕ → Force K)
    (ddq : ℕ → K) (Dq Dv Dt : ℕ → ℕ → K) : Prop where
  iff : ∀ (dε : Data K[ε]) (δv δτ : ℕ → K) (a : ℕ → K[ε]),
    (∀ r < s.nv, (rneaFext sε dε (perturb q dq) (perturb v δv) a (fun i => (fext i).map inl)).tau r
      = perturb tau δτ r) ↔
    ∀ r < s.nv, a r = perturb ddq (fun r => ∑ c ∈ range s.nv, (Dq r c * w c + Dv r c * δv c + Dt r c * δτ c)) r

end Pin
