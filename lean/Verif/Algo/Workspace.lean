import Mathlib.Logic.Function.Basic
import Mathlib.Data.Nat.Choose.Basic

/-! # Enumerations of the reachable workspace

Model of `generateCombination` and `productCombination`, `extra/reachable-workspace.hxx:269-309`, and of the
loops of `computeVertex` that call them (`:150-241`): the choice of the joints sampled inside their
velocity range (a facet), of the bound taken for each other joint, and of the samples. Vectors of
indices are functions on the natural numbers, of which the code reads the first `k`. Not modelled: the
limits, the integration of the configuration, the forward kinematics and the filter; overflow of `int`
and of the floating-point factorials that give the number of combinations. -/

namespace Pin
namespace Workspace

/-- `while (j >= 0 && indices(j) == n - k + j) j--`, `extra/reachable-workspace.hxx:271-273`, from `j`
exclusive; `none` is `j < 0`. -/
def findJ (n k : ℕ) (x : ℕ → ℕ) : ℕ → Option ℕ
  | 0 => none
  | j + 1 => if x j = n - k + j then findJ n k x j else some j

/-- `for (i = j + 1; i < k; i++) indices(i) = indices(i - 1) + 1`, `extra/reachable-workspace.hxx:279-280`:
`c` turns from `i = j + 1`. -/
def fill (x : ℕ → ℕ) (j : ℕ) : ℕ → (ℕ → ℕ)
  | 0 => x
  | c + 1 => let y := fill x j c; Function.update y (j + c + 1) (y (j + c) + 1)

/-- `for (i = 1; i < k; i++) if (indices(i) <= indices(i - 1)) indices(i) = indices(i - 1) + 1`,
`extra/reachable-workspace.hxx:283-285`: `c` turns from `i = 1`. -/
def spread (x : ℕ → ℕ) : ℕ → (ℕ → ℕ)
  | 0 => x
  | c + 1 =>
    let y := spread x c
    if y (c + 1) ≤ y c then Function.update y (c + 1) (y c + 1) else y

/-- `generateCombination(n, k, indices)`, `extra/reachable-workspace.hxx:269-286`. -/
def nextComb (n k : ℕ) (x : ℕ → ℕ) : ℕ → ℕ :=
  match findJ n k x k with
  | none => x
  | some j =>
    let x1 := Function.update x j (x j + 1)
    let x2 := fill x1 j (k - 1 - j)
    spread x2 (k - 1)

/-- The indices at turn `c` of `for (c = 0; c < ncomb; c++)`, `extra/reachable-workspace.hxx:192-194`:
`generateCombination` is called at the start of each turn, on indices that are zero before the loop
(`:177`). -/
def combAt (n k : ℕ) : ℕ → (ℕ → ℕ)
  | 0 => nextComb n k fun _ => 0
  | c + 1 => nextComb n k (combAt n k c)

/-- `for (i = repeat - 1; i >= 0; --i)` of `productCombination`, `extra/reachable-workspace.hxx:297-308`:
increment the last index below `m - 1`, reset those after it. -/
def nextProd (m : ℕ) (x : ℕ → ℕ) : ℕ → (ℕ → ℕ)
  | 0 => x
  | i + 1 => if x i < m - 1 then Function.update x i (x i + 1) else nextProd m (Function.update x i 0) i

/-- The indices read by call `p` of `productCombination` on vectors that are zero before the loops
(`extra/reachable-workspace.hxx:173-174, 217, 224`) and are never reset. -/
def prodAt (m r : ℕ) : ℕ → (ℕ → ℕ)
  | 0 => fun _ => 0
  | p + 1 => nextProd m (prodAt m r p) r
end Workspace
end Pin
