import Verif.Spec.Centroidal
import Verif.Spec.Along

/-!
# Derivatives of the centroidal momentum and of its rate of change

`Sys.hsum q v` is the sum of the momenta of the bodies and `Sys.dhsum q v a` its rate of change, at the world origin;
`Force.atPoint` changes the point about which moments are taken. The centroidal quantities are taken about the centre of
mass, which moves with the configuration. Over dual numbers the state moves in the direction `(w, δv, δa)`: `perturb x δx`
is `x + ε δx`, `dq` is the derivative of the configuration vector when the joint velocity is `w` (`Sys.Along`), and
`map snd` takes the coefficient of `ε`.
-/

namespace Pin
open Finset DualNumber TrivSqZeroExt
universe u

/-- `c` is the centre of mass of all bodies over dual numbers -/
structure IsComDual {K : Type u} [Field K] (sε : Sys K[ε]) (q dq : ℕ → K) (c : V3 K[ε]) : Prop where
  eq : sε.subMass 0 • c = sε.msum (sε.pcom (perturb q dq)) 0

/-- The columns `Hq` and `Ha` are the derivatives of the centroidal momentum with respect to the configuration and to the
velocity; `Dq`, `Dv` and `Ha` are the derivatives of its rate of change with respect to the configuration, the velocity
and the acceleration. -/
structure IsCentDer {K : Type u} [Field K] (s : Sys K) (sε : Sys K[ε]) (q w dq v a : ℕ → K)
    (Hq Dq Dv Ha : ℕ → Force K) : Prop where
  mom : ∀ c, IsComDual sε q dq c → ∀ δv : ℕ → K,
    ∑ r ∈ range s.nv, (w r • Hq r + δv r • Ha r) = ((sε.hsum (perturb q dq) (perturb v δv)).atPoint c).map snd
  rate : ∀ c, IsComDual sε q dq c → ∀ δv δa : ℕ → K,
    ∑ r ∈ range s.nv, (w r • Dq r + δv r • Dv r + δa r • Ha r)
      = ((sε.dhsum (perturb q dq) (perturb v δv) (perturb a δa)).atPoint c).map snd

end Pin
