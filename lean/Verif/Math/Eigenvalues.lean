import Mathlib.Analysis.InnerProductSpace.PiL2
import Mathlib.Analysis.InnerProductSpace.Symmetric

/-!
# Power iterations

`PowerIterationAlgoTpl`, `math/eigenvalues.hpp:16-131`. Scalars are real numbers and norms are exact: rounding is not
modelled. The vectors are those of any real inner product space `V`, `EuclideanSpace ℝ (Fin n)` for the vectors of size
`n` of Eigen; the matrix is any function of `V`, since the algorithm only multiplies by it. Vectors of size zero are not
modelled. `0 / 0` is an outcome of its own, `nan`: in floating-point arithmetic the vector is filled with NaN, every
later comparison is false, and the loop runs to its end with NaN in the vector and in the eigenvalue.
-/

namespace Pin.Eigenvalues

/-- what a call does -/
inductive Out (α : Type*) where
  | ok (a : α)
  /-- the values computed are NaN -/
  | nan
  /-- `std::invalid_argument` -/
  | throw

def Out.bind {α β : Type*} : Out α → (α → Out β) → Out β
  | .ok a, f => f a
  | .nan, _ => .nan
  | .throw, _ => .throw

variable {V : Type*} [NormedAddCommGroup V] [InnerProductSpace ℝ V]

/-- The loop of `run`, `math/eigenvalues.hpp:41-55`, and of `lowest`, lines 78-93, for `fuel` more iterations: `x` is
the eigenvector, `est` is `eigenvalue_est`, `it` counts the iterations. -/
noncomputable def loop (f : V → V) (tol : ℝ) : ℕ → ℕ → V → ℝ → Out (V × ℝ × ℕ)
  | 0, it, x, est => .ok (x, est, it)
  | fuel + 1, it, x, est =>
    let est_prev := est
    if est = 0 then .nan
    else
      let prev := est⁻¹ • x
      let x := f prev
      let est := ‖x‖
      if |est_prev - est| ≤ tol * max |est_prev| |est| then .ok (x, est, it)
      else loop f tol fuel (it + 1) x est

/-- the members of `PowerIterationAlgoTpl` that outlive a call, `math/eigenvalues.hpp:120-126` -/
structure Algo (V : Type*) where
  principal : V
  lowestVec : V
  largest_eigen_value : ℝ
  lowest_eigen_value : ℝ
  max_it : ℕ
  it : ℕ
  rel_tol : ℝ

/-- `run(mat)`, `math/eigenvalues.hpp:34-58` -/
noncomputable def Algo.run (a : Algo V) (mat : V → V) : Out (Algo V) :=
  if ¬ 1 ≤ a.max_it then .throw
  else if ¬ 0 < a.rel_tol then .throw
  else
    (loop mat a.rel_tol a.max_it 0 a.principal ‖a.principal‖).bind fun r =>
      .ok { a with principal := r.1, largest_eigen_value := r.2.1, it := r.2.2 }

/-- `run(mat, eigenvector_est)`, `math/eigenvalues.hpp:60-65` -/
noncomputable def Algo.runFrom (a : Algo V) (mat : V → V) (x : V) : Out (Algo V) :=
  { a with principal := x }.run mat

/-- `lowest(mat, compute_largest)`, `math/eigenvalues.hpp:67-96` -/
noncomputable def Algo.lowest (a : Algo V) (mat : V → V) (compute_largest : Bool) : Out (Algo V) :=
  if ¬ 1 ≤ a.max_it then .throw
  else if ¬ 0 < a.rel_tol then .throw
  else
    (if compute_largest then a.run mat else .ok a).bind fun a =>
      (loop (fun prev => mat prev - a.largest_eigen_value • prev) a.rel_tol a.max_it 0 a.lowestVec ‖a.lowestVec‖).bind
        fun r => .ok { a with lowestVec := r.1, it := r.2.2,
                              lowest_eigen_value := a.largest_eigen_value - r.2.1 }

/-- `lowest(mat, largest_eigenvector_est, lowest_eigenvector_est, compute_largest)`, `math/eigenvalues.hpp:98-108` -/
noncomputable def Algo.lowestFrom (a : Algo V) (mat : V → V) (x y : V) (compute_largest : Bool) : Out (Algo V) :=
  { a with principal := x, lowestVec := y }.lowest mat compute_largest

/-- the vector the constructor and `reset` start from, `math/eigenvalues.hpp:110-114` -/
noncomputable def startVec (n : ℕ) : EuclideanSpace ℝ (Fin n) := WithLp.toLp 2 fun _ => 1 / √(n : ℝ)

/-- the constructor, `math/eigenvalues.hpp:22-32`; the extreme values `reset` gives to the eigenvalues are the
parameters `min` and `max` -/
noncomputable def Algo.new (min max : ℝ) (n max_it : ℕ) (rel_tol : ℝ) : Algo (EuclideanSpace ℝ (Fin n)) :=
  ⟨startVec n, startVec n, min, max, max_it, 0, rel_tol⟩

end Pin.Eigenvalues
