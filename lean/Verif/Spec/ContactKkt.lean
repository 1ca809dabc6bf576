import Verif.Algo.Constraint
import Verif.Spec.Contact

/-! # Specification: the matrix that a contact Cholesky factorisation represents -/

namespace Pin
variable {K : Type*} [CommRing K]

/-- the matrix `[[-diag μ, J], [Jᵀ, M]]`, with `nc` rows of constraints -/
def ckkt (nc : ℕ) (M J : ℕ → ℕ → K) (mus : ℕ → K) (r c : ℕ) : K :=
  if r < nc then (if c < nc then (if r = c then -mus r else 0) else J r (c - nc))
  else (if c < nc then J c (r - nc) else M (r - nc) (c - nc))

/-- the Jacobians of the constraints one above the other -/
def stackJac (s : Sys K) (d : Data K) : List (RCM K) → ℕ → ℕ → K
  | [] => fun _ _ => 0
  | m :: ms => fun r k =>
    if r < m.type.dim then m.jacobian s d (m.calc d) (fun _ _ => 0) r k else stackJac s d ms (r - m.type.dim) k

/-- the constraints were made by the constructors, between joints of the model -/
def Made (s : Sys K) (ms : List (RCM K)) : Prop :=
  ∀ m ∈ ms, ∃ type j1 P1 j2 P2 rf, j1 < s.n ∧ j2 < s.n ∧ RCM.make s type j1 P1 j2 P2 rf = some m

/-- the `n × n` matrix `U` is unit upper triangular; in particular the identity that `allocate` leaves -/
def UnitTri (n : ℕ) (U : ℕ → ℕ → K) : Prop := ∀ r < n, ∀ c ≤ r, U r c = if r = c then 1 else 0

end Pin
