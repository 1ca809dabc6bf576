import Verif.Math.Tridiagonal
import Mathlib.LinearAlgebra.Matrix.NonsingularInverse
import Mathlib.Algebra.Order.Field.Basic
import Mathlib.Algebra.Order.Field.Rat
import Mathlib.Data.Real.Basic
import Mathlib.Tactic.IntervalCases

/-! # C42: tridiagonal symmetric matrices -/

namespace Pin
open Finset
universe u

section ring
variable {K : Type u} [Field K]

/-- `matrix()`: the diagonal, the sub-diagonal on both sides, zero elsewhere -/
theorem C42_matrix (T : Tri K) (r c : ℕ) : T.matrix r c =
    if r = c then T.diag r else if c = r + 1 then T.sub r else if r = c + 1 then T.sub c else 0 := by
  simp only [Tri.matrix]
  split_ifs <;> first | rfl | omega

/-- `T * X` for a square `X` is the dense product -/
theorem C42_right_partial (T : Tri K) (hn : 1 ≤ T.n) (X : ℕ → ℕ → K) :
    ∃ R, T.applyRight T.n X = some R ∧
      ∀ r < T.n, ∀ c, R r c = ∑ j ∈ range T.n, T.matrix r j * X j c := by
  refine ⟨_, if_pos rfl, fun r hr c => ?_⟩
  rw [T.sum_matrix r hr (fun j => X j c)]
  have h1 : T.n - (T.n - 1) = 1 := by omega
  simp only [h1]
  by_cases a : 1 ≤ r <;> by_cases b : r + 1 < T.n
  · rw [if_pos a, if_pos (by omega), if_pos a, if_pos b]; ring
  · rw [if_pos a, if_neg (by omega), if_pos a, if_neg b]; ring
  · rw [if_neg a, if_pos (by omega), if_neg a, if_pos b]; ring
  · rw [if_neg a, if_neg (by omega), if_neg a, if_neg b]; ring

/-- For a right operand which is not square, for instance a vector, `T * X` has no defined result: the block sizes are
taken from the columns of the operand. What is missing in `C42_right_partial` is thus false of the code. -/
theorem C42_right_counterexample (T : Tri K) (hn : 2 ≤ T.n) (X : ℕ → ℕ → K) : T.applyRight 1 X = none := by
  exact if_neg (by omega)

/-- `X * T` is the dense product, whatever the number of rows of `X` -/
theorem C42_left (T : Tri K) (hn : 1 ≤ T.n) (X : ℕ → ℕ → K) (r c : ℕ) (hc : c < T.n) :
    T.applyLeft X r c = ∑ j ∈ range T.n, X r j * T.matrix j c := by
  have : ∑ j ∈ range T.n, X r j * T.matrix j c = ∑ j ∈ range T.n, T.matrix c j * X r j :=
    sum_congr rfl fun j _ => by rw [T.matrix_symm j c, mul_comm]
  rw [this, T.sum_matrix c hc (fun j => X r j)]
  have h1 : T.n - (T.n - 1) = 1 := by omega
  simp only [Tri.applyLeft, h1]
  by_cases a : 1 ≤ c <;> by_cases b : c + 1 < T.n
  · rw [if_pos (by omega), if_pos a, if_pos a, if_pos b]; ring
  · rw [if_neg (by omega), if_pos a, if_pos a, if_neg b]; ring
  · rw [if_pos (by omega), if_neg a, if_neg a, if_pos b]; ring
  · rw [if_neg (by omega), if_neg a, if_neg a, if_neg b]; ring

/-- `T.inverse() * X` solves the linear system when the pivots of the elimination are non-zero, for any number of
columns -/
theorem C42_solve (T : Tri K) (hn : 1 ≤ T.n) (hb : ∀ i < T.n, T.elim.b i ≠ 0) (X : ℕ → ℕ → K) (r : ℕ) (hr : r < T.n)
    (c : ℕ) : ∑ j ∈ range T.n, T.matrix r j * T.solve X j c = X r c := by
  obtain ⟨h0, h⟩ := Tri.fwd_sweep T.elim.w hn X
  exact T.solve_of_sweeps hn hb X _ h0 h r hr c

/-- `T.inverse()` as a matrix is the two-sided inverse -/
theorem C42_inverse (T : Tri K) (hn : 1 ≤ T.n) (hb : ∀ i < T.n, T.elim.b i ≠ 0) (r c : ℕ) (hr : r < T.n)
    (hc : c < T.n) :
    ∑ j ∈ range T.n, T.matrix r j * T.inverse j c = (if r = c then 1 else 0) ∧
    ∑ j ∈ range T.n, T.inverse r j * T.matrix j c = (if r = c then 1 else 0) := by
  have key : ∀ r c, r < T.n → ∑ j ∈ range T.n, T.matrix r j * T.inverse j c = (if r = c then 1 else 0) := by
    intro r c hr
    obtain ⟨h0, h⟩ := Tri.fwd_sweep_one T.elim.w hn
    exact T.solve_of_sweeps hn hb (fun r c => if r = c then 1 else 0) _ h0 h r hr c
  refine ⟨key r c hr, ?_⟩
  let A : Matrix (Fin T.n) (Fin T.n) K := fun i j => T.matrix i j
  let B : Matrix (Fin T.n) (Fin T.n) K := fun i j => T.inverse i j
  have hAB : A * B = 1 := by
    ext i j
    rw [Matrix.mul_apply, Matrix.one_apply]
    have := key i j i.2
    rw [← Fin.sum_univ_eq_sum_range (fun k => T.matrix i k * T.inverse k j) T.n] at this
    rw [show (∑ k, A i k * B k j) = ∑ k : Fin T.n, T.matrix i k * T.inverse k j from rfl, this]
    simp [Fin.ext_iff]
  have hBA := mul_eq_one_comm.1 hAB
  have := congrFun (congrFun hBA ⟨r, hr⟩) ⟨c, hc⟩
  rw [Matrix.mul_apply, Matrix.one_apply] at this
  rw [← Fin.sum_univ_eq_sum_range (fun k => T.inverse r k * T.matrix k c) T.n]
  refine Eq.trans this ?_
  simp [Fin.ext_iff]
end ring

section ordered
variable {K : Type u} [Field K] [LinearOrder K] [IsStrictOrderedRing K]

/-- For a positive definite matrix all pivots are positive: the inverse and the solve are correct without any
hypothesis on intermediate quantities. -/
theorem C42_positive_definite (T : Tri K) (hn : 1 ≤ T.n)
    (hpd : ∀ x : ℕ → K, (∃ i < T.n, x i ≠ 0) → 0 < ∑ r ∈ range T.n, x r * ∑ c ∈ range T.n, T.matrix r c * x c) :
    (∀ i < T.n, 0 < T.elim.b i) ∧
    (∀ (X : ℕ → ℕ → K), ∀ r < T.n, ∀ c, ∑ j ∈ range T.n, T.matrix r j * T.solve X j c = X r c) := by
  have hb : ∀ i < T.n, 0 < T.elim.b i := by
    intro i
    induction i using Nat.strong_induction_on with
    | _ i ih =>
      intro hi
      rw [← T.probe_form hi (fun j hj => (ih j hj (by omega)).ne')]
      exact hpd _ ⟨i, hi, by rw [Tri.probe_self]; exact one_ne_zero⟩
  exact ⟨hb, fun X r hr c => C42_solve T hn (fun i hi => (hb i hi).ne') X r hr c⟩
end ordered

/-! ## the hypotheses are met -/

/-- the second-difference matrix of size 3 -/
def Ex.tri : Tri ℚ := ⟨3, fun _ => 2, fun _ => -1⟩

example : ∀ i < 3, Ex.tri.elim.b i ≠ 0 := by decide +kernel
example : ∀ i < 3, ∀ c < 1, Ex.tri.solve (fun r _ => r) i c = (if i = 0 then 1 else if i = 1 then 2 else 2) := by
  decide +kernel
example (x : ℕ → ℚ) (hx : ∃ i < 3, x i ≠ 0) :
    0 < ∑ r ∈ range 3, x r * ∑ c ∈ range 3, Ex.tri.matrix r c * x c := by
  have : ∑ r ∈ range 3, x r * ∑ c ∈ range 3, Ex.tri.matrix r c * x c =
      x 0 ^ 2 + (x 0 - x 1) ^ 2 + (x 1 - x 2) ^ 2 + x 2 ^ 2 := by
    simp [sum_range_succ, Ex.tri, Tri.matrix]; ring
  rw [this]
  have n0 := sq_nonneg (x 0); have n1 := sq_nonneg (x 0 - x 1)
  have n2 := sq_nonneg (x 1 - x 2); have n3 := sq_nonneg (x 2)
  rcases (by positivity : 0 ≤ x 0 ^ 2 + (x 0 - x 1) ^ 2 + (x 1 - x 2) ^ 2 + x 2 ^ 2).lt_or_eq with h | h
  · exact h
  · exfalso
    have a0 : x 0 = 0 := pow_eq_zero_iff (two_ne_zero) |>.1 (by linarith)
    have a2 : x 2 = 0 := pow_eq_zero_iff (two_ne_zero) |>.1 (by linarith)
    have a1 : x 0 - x 1 = 0 := pow_eq_zero_iff (two_ne_zero) |>.1 (by linarith)
    rw [a0, zero_sub, neg_eq_zero] at a1
    obtain ⟨i, hi, h⟩ := hx
    interval_cases i
    · exact h a0
    · exact h a1
    · exact h a2

end Pin
