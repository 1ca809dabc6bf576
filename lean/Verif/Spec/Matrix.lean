import Verif.Spec.Kinematics
import Mathlib.Algebra.BigOperators.Ring.Finset

/-!
# Specification: matrices with the sparsity of the tree
-/

namespace Pin
variable {K : Type*}

/-- The symmetric matrix of which `M` holds the upper triangle, as in
`M.triangularView<StrictlyLower>() = M.transpose().triangularView<StrictlyLower>()`. -/
def symUpper (M : ℕ → ℕ → K) (r c : ℕ) : K := if r ≤ c then M r c else M c r

/-- entries between joints of different branches are zero; in particular the zero matrix with which
`DataTpl` is constructed (`data.hxx:43`) -/
def Sys.BranchZero [Zero K] (s : Sys K) (M : ℕ → ℕ → K) : Prop :=
  ∀ i j, 1 ≤ i → i < s.n → 1 ≤ j → j < s.n → ¬ anc s.par i j → ¬ anc s.par j i →
    ∀ k < s.jnv i, ∀ l < s.jnv j, M (s.iv i + k) (s.iv j + l) = 0

/-- unit upper triangular with zeros between joints of different branches; in particular the identity with
which `data.U` is constructed (`data.hxx:76`) -/
structure Sys.TreeTri [Zero K] [One K] (s : Sys K) (U : ℕ → ℕ → K) : Prop where
  diag : ∀ r < s.nv, U r r = 1
  lower : ∀ r c, c < r → r < s.nv → U r c = 0
  branch : s.BranchZero U

/-- the `n × n` matrices `A` and `B` are inverse of each other -/
def InverseOf [CommRing K] (n : ℕ) (A B : ℕ → ℕ → K) : Prop :=
  ∀ r < n, ∀ c < n, (∑ k ∈ Finset.range n, A r k * B k c = if r = c then 1 else 0) ∧
    (∑ k ∈ Finset.range n, B r k * A k c = if r = c then 1 else 0)

end Pin
