import Verif.Algo.Cholesky
import Verif.Algo.AllTerms
import Mathlib.LinearAlgebra.Matrix.NonsingularInverse

/-!
# `algorithm/contact-dynamics.hxx`: dynamics under the constraint `J a + γ = 0`

`J` has `nc` rows. `Data` fields that only these functions and the Cholesky factorisation use are kept in `CData`.
`rt` is `std::sqrt`.
-/

namespace Pin
open Finset
variable {K : Type*} [Field K]

/-- `Eigen::LLT` of the `nc × nc` matrix `A`, then `solveInPlace(b)`, `algorithm/contact-dynamics.hxx:22-77`: the
exact solution when `A` is invertible, nothing meaningful otherwise -/
noncomputable def lltSolve (nc : ℕ) (A : ℕ → ℕ → K) (b : ℕ → K) : ℕ → K := fun i =>
  if h : i < nc then ((Matrix.of fun x y : Fin nc => A x y)⁻¹.mulVec fun x : Fin nc => b x) ⟨i, h⟩ else b i

/-- The fields of `Data` used by the functions of `contact-dynamics.hxx`, `multibody/data.hpp:287-293`, `478-505`.
`llt` is the matrix that `llt_JMinvJt` factored last, `nc` its size. -/
structure CData (K : Type*) where
  chol : Chol K
  nc : ℕ
  ddq : ℕ → K
  lambda_c : ℕ → K
  torque_residual : ℕ → K
  sDUiJt : ℕ → ℕ → K
  JMinvJt : ℕ → ℕ → K
  llt : ℕ → ℕ → K
  impulse_c : ℕ → K
  dq_after : ℕ → K

/-- `sDUiJt = Jᵀ; Uiv(sDUiJt)` column by column, division of the rows by `sqrt(D[k])`, product, damping on the
diagonal and `llt.compute`, `algorithm/contact-dynamics.hxx:114-129`, `195-206`, `303-318` -/
noncomputable def contactMatrix (rt : K → K) (s : Sys K) (nc : ℕ) (J : ℕ → ℕ → K) (μ : K) (c : CData K) : CData K :=
  let S := fun k i => cholUiv s c.chol.U (fun r => J i r) k
  let S := fun k i => S k i / rt (c.chol.D k)
  let A := fun i j => ∑ k ∈ range s.nv, S k i * S k j
  let A := fun i j => A i j + if i = j then μ else 0
  { c with nc := nc, sDUiJt := S, JMinvJt := A, llt := A }

/-- `forwardDynamics(model, data, tau, J, gamma, inv_damping)`, `algorithm/contact-dynamics.hxx:82-139`; `M` and
`nle` are `data.M` and `data.nle` -/
noncomputable def forwardDynamicsM (rt : K → K) (s : Sys K) (M : ℕ → ℕ → K) (nle : ℕ → K) (c : CData K) (tau : ℕ → K)
    (nc : ℕ) (J : ℕ → ℕ → K) (gamma : ℕ → K) (μ : K) : CData K :=
  let c := { c with chol := decompose s M c.chol }
  let c := { c with torque_residual := fun r => tau r - nle r }
  let c := { c with torque_residual := cholSolve s c.chol c.torque_residual }
  let c := contactMatrix rt s nc J μ c
  let c := { c with lambda_c := fun i => -(∑ r ∈ range s.nv, J i r * c.torque_residual r) - gamma i }
  let c := { c with lambda_c := lltSolve c.nc c.llt c.lambda_c }
  let c := { c with ddq := fun r => ∑ i ∈ range nc, J i r * c.lambda_c i }
  let c := { c with ddq := cholSolve s c.chol c.ddq }
  { c with ddq := fun r => c.ddq r + c.torque_residual r }

/-- `forwardDynamics(model, data, q, v, tau, J, gamma, inv_damping)`, `algorithm/contact-dynamics.hxx:141-167` -/
noncomputable def forwardDynamics [LinearOrder K] [HasEps K] (rt : K → K) (s : Sys K) (d : Data K) (c : CData K) (q v tau : ℕ → K) (nc : ℕ)
    (J : ℕ → ℕ → K) (gamma : ℕ → K) (μ : K) : Data K × CData K :=
  let d := computeAllTerms s d q v
  (d, forwardDynamicsM rt s d.M d.nle c tau nc J gamma μ)

/-- `impulseDynamics(model, data, v_before, J, r_coeff, inv_damping)`, `algorithm/contact-dynamics.hxx:281-331` -/
noncomputable def impulseDynamicsM (rt : K → K) (s : Sys K) (M : ℕ → ℕ → K) (c : CData K) (v : ℕ → K)
    (nc : ℕ) (J : ℕ → ℕ → K) (e μ : K) : CData K :=
  let c := { c with chol := decompose s M c.chol }
  let c := contactMatrix rt s nc J μ c
  let c := { c with impulse_c := fun i => (-e - 1) * ∑ r ∈ range s.nv, J i r * v r }
  let c := { c with impulse_c := lltSolve c.nc c.llt c.impulse_c }
  let c := { c with dq_after := fun r => ∑ i ∈ range nc, J i r * c.impulse_c i }
  let c := { c with dq_after := cholSolve s c.chol c.dq_after }
  { c with dq_after := fun r => c.dq_after r + v r }

/-- `impulseDynamics(model, data, q, v_before, J, r_coeff, inv_damping)`, `algorithm/contact-dynamics.hxx:256-279` -/
noncomputable def impulseDynamics [LinearOrder K] [HasEps K] (rt : K → K) (s : Sys K) (d : Data K) (c : CData K) (q v : ℕ → K) (nc : ℕ)
    (J : ℕ → ℕ → K) (e μ : K) : Data K × CData K :=
  let d := crbaWorld s d q
  (d, impulseDynamicsM rt s d.M c v nc J e μ)

/-- `getKKTContactDynamicMatrixInverse(model, data, J, KKTMatrix_inv)`, `algorithm/contact-dynamics.hxx:215-254`: rows
and columns `0..nv` for the accelerations, then `nc` for the forces -/
noncomputable def getKKTInverse (s : Sys K) (c : CData K) (J : ℕ → ℕ → K) : ℕ → ℕ → K :=
  let nc := c.nc
  let BR := fun i j => lltSolve nc c.llt (fun k => -(if k = j then 1 else 0)) i
  let TL := fun r k => cholSolve s c.chol (fun x => if x = k then 1 else 0) r
  let BL := fun i k => ∑ r ∈ range s.nv, J i r * TL r k
  let TR := fun r j => ∑ i ∈ range nc, BL i r * -BR i j
  let TL := fun r k => TL r k - ∑ i ∈ range nc, TR r i * BL i k
  let BL := fun i k => TR k i
  fun r k => if r < s.nv then (if k < s.nv then TL r k else TR r (k - s.nv))
    else (if k < s.nv then BL (r - s.nv) k else BR (r - s.nv) (k - s.nv))

/-- `computeKKTContactDynamicMatrixInverse(model, data, q, J, KKTMatrix_inv, inv_damping)`,
`algorithm/contact-dynamics.hxx:172-210` -/
noncomputable def computeKKTInverse [LinearOrder K] [HasEps K] (rt : K → K) (s : Sys K) (d : Data K) (c : CData K) (q : ℕ → K) (nc : ℕ)
    (J : ℕ → ℕ → K) (μ : K) : (Data K × CData K) × (ℕ → ℕ → K) :=
  let d := crbaWorld s d q
  let c := { c with chol := decompose s d.M c.chol }
  let c := contactMatrix rt s nc J μ c
  ((d, c), getKKTInverse s c J)

end Pin
