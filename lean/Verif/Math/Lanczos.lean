import Mathlib.Logic.Function.Basic
import Mathlib.Analysis.InnerProductSpace.PiL2
import Mathlib.Analysis.InnerProductSpace.Symmetric

/-!
# Gram–Schmidt and the Lanczos decomposition

`math/gram-schmidt-orthonormalisation.hpp` and `math/lanczos-decomposition.hpp`. Scalars are real numbers and norms are
exact: rounding is not modelled. The vectors are those of any real inner product space `V`; the columns of a matrix are
a function of their number. Checks of sizes are not modelled.
-/

namespace Pin.Lanczos
open scoped RealInnerProductSpace
variable {V : Type*} [NormedAddCommGroup V] [InnerProductSpace ℝ V]

/-- `orthonormalisation(basis, vec)`, `math/gram-schmidt-orthonormalisation.hpp:19-37`, for the first `n` columns of
`Q` -/
noncomputable def orthonormalisation (Q : ℕ → V) (n : ℕ) (vec : V) : V :=
  (List.range n).foldl (fun vec c => vec - ⟪Q c, vec⟫ • Q c) vec

/-- `m_Qs`, and the diagonal and sub-diagonal of `m_Ts`, `math/lanczos-decomposition.hpp:174-175` -/
structure Dec (V : Type*) where
  Q : ℕ → V
  alphas : ℕ → ℝ
  betas : ℕ → ℝ

/-- The loop of `compute`, `math/lanczos-decomposition.hpp:80-110`, from the iteration `k`, for `fuel` more iterations:
the decomposition and the value of `k` at the end. `tol` is `1e2 * epsilon`, `m` is the size of the decomposition. -/
noncomputable def loop (A : V → V) (tol : ℝ) (m : ℕ) : ℕ → ℕ → Dec V → Dec V × ℕ
  | 0, k, z => (z, k)
  | fuel + 1, k, z =>
    let w := A (z.Q k)
    let z := { z with alphas := Function.update z.alphas k ⟪z.Q k, w⟫ }
    if k + 1 < m then
      let w := w - z.alphas k • z.Q k
      let w := if k > 0 then w - z.betas (k - 1) • z.Q (k - 1) else w
      let w := if k > 0 then orthonormalisation z.Q k w else w
      let z := { z with betas := Function.update z.betas k ‖w‖ }
      if z.betas k ≤ tol then (z, k)
      else loop A tol m fuel (k + 1) { z with Q := Function.update z.Q (k + 1) ((z.betas k)⁻¹ • w) }
    else loop A tol m fuel (k + 1) z

/-- `compute(A)`, `math/lanczos-decomposition.hpp:66-112`: `q0` is the vector whose entries are all `1 / sqrt(n)`, `Q`
what `m_Qs` held (nothing defined after the constructor); the decomposition, and the value of `k` after the loop -/
noncomputable def compute (A : V → V) (tol : ℝ) (m : ℕ) (q0 : V) (Q : ℕ → V) : Dec V × ℕ :=
  loop A tol m m 0 ⟨Function.update Q 0 q0, fun _ => 0, fun _ => 0⟩

/-- `rank()`, `math/lanczos-decomposition.hpp:111` -/
def rank (k : ℕ) : ℕ := max 1 k

/-- a column of `Qs * Ts` -/
def QT (z : Dec V) (m k : ℕ) : V :=
  (if k > 0 then z.betas (k - 1) • z.Q (k - 1) else 0) + z.alphas k • z.Q k
    + (if k + 1 < m then z.betas k • z.Q (k + 1) else 0)

/-- the column `k` of `computeDecompositionResidual(A)`, `math/lanczos-decomposition.hpp:122-143` -/
def residual (A : V → V) (z : Dec V) (m k : ℕ) : V :=
  let r := A (z.Q k) - QT z m k
  let last := m - 1
  if k = last then
    let tmp := A (z.Q last)
    let tmp := tmp - z.alphas last • z.Q last
    let tmp := if last > 0 then tmp - z.betas (last - 1) • z.Q (last - 1) else tmp
    r - tmp
  else r

/-- the starting vector, `math/lanczos-decomposition.hpp:77` -/
noncomputable def start (n : ℕ) : EuclideanSpace ℝ (Fin n) := WithLp.toLp 2 fun _ => 1 / √(n : ℝ)

end Pin.Lanczos
