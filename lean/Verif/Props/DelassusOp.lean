import Verif.Algo.DelassusOp
import Mathlib.LinearAlgebra.Matrix.NonsingularInverse
import Mathlib.Tactic.Ring
import Mathlib.Tactic.FinCases

/-!
# C68: a Delassus operator is that of its matrix and of its last damping, whatever was called before
-/

namespace Pin.Delassus
open Matrix
variable {K : Type*} {n : ℕ}

/-! ## Specification -/

/-- the damping a history of calls leaves: the one of its last `updateDamping`, or `d` without any -/
def lastDamping (d : Fin n → K) : List (Call K n) → Fin n → K
  | [] => d
  | .updateDamping v :: h => lastDamping v h
  | .updateDampingScalar mu :: h => lastDamping (fun _ => mu) h
  | .matrix :: h => lastDamping d h

/-- what Eigen promises: when the decomposition succeeds, the solution solves the system -/
def Chol.Correct [CommRing K] (c : Chol K n) : Prop := ∀ M, c.ok M → ∀ b, M *ᵥ c.solve M b = b

/-! ## Proofs -/

theorem addDiag_exact [CommRing K] (m : Mat K n) (v : Fin n → K) :
    addDiag (· + ·) m v = m + diagonal v := by
  ext i j
  by_cases h : i = j
  · subst h; simp [addDiag]
  · simp [addDiag, h]

theorem Dense.run_eq (add : K → K → K) (h : List (Call K n)) : ∀ o : Dense K n,
    (o.run add h).delassus_matrix = o.delassus_matrix ∧
    (o.run add h).damping = lastDamping o.damping h ∧
    ((o.run add h).llt = o.llt ∧ (∀ v, lastDamping v h = v) ∨
      (o.run add h).llt = addDiag add o.delassus_matrix (lastDamping o.damping h) ∧
        ∀ v w, lastDamping v h = lastDamping w h) := by
  induction h with
  | nil => intro o; exact ⟨rfl, rfl, Or.inl ⟨rfl, fun _ => rfl⟩⟩
  | cons a t ih =>
    intro o
    have key := ih (o.call add a)
    have e : o.run add (a :: t) = (o.call add a).run add t := rfl
    rw [e]
    obtain ⟨h1, h2, h3⟩ := key
    cases a with
    | updateDamping v =>
      refine ⟨h1, h2, Or.inr ⟨?_, fun _ _ => rfl⟩⟩
      rcases h3 with ⟨h3, h4⟩ | ⟨h3, h4⟩
      · rw [h3]; simp [Dense.call, Dense.updateDamping, lastDamping, h4]
      · exact h3
    | updateDampingScalar mu =>
      refine ⟨h1, h2, Or.inr ⟨?_, fun _ _ => rfl⟩⟩
      rcases h3 with ⟨h3, h4⟩ | ⟨h3, h4⟩
      · rw [h3]; simp [Dense.call, Dense.updateDampingScalar, Dense.updateDamping, lastDamping, h4]
      · exact h3
    | matrix => exact ⟨h1, h2, h3⟩

theorem Dense.run_llt [CommRing K] (G junk : Mat K n) (h : List (Call K n)) :
    ((Dense.mk' G junk).run (· + ·) h).llt = G + diagonal (lastDamping 0 h) := by
  obtain ⟨-, -, h3⟩ := Dense.run_eq (· + ·) h (Dense.mk' G junk)
  rcases h3 with ⟨h3, h4⟩ | ⟨h3, -⟩
  · rw [h3, h4 0]; simp [Dense.mk']
  · rw [h3, addDiag_exact]; rfl

theorem apply_eq [CommRing K] (G : Mat K n) (d x : Fin n → K) :
    (fun i => (G *ᵥ x) i + d i * x i) = (G + diagonal d) *ᵥ x := by
  ext i; rw [add_mulVec, Pi.add_apply, mulVec_diagonal]

theorem inverse_eq [CommRing K] (c : Chol K n) (hc : c.Correct) (D : Mat K n) (hD : c.ok D) :
    D * (Matrix.of fun i j => c.solve D (fun k => if k = j then 1 else 0) i) = 1 := by
  ext i j
  have := congrFun (hc D hD (fun k => if k = j then 1 else 0)) i
  rw [Matrix.one_apply]
  exact this

/-- The invariant of the sparse operator in exact arithmetic -/
theorem Sparse.run_eq [CommRing K] (h : List (Call K n)) : ∀ o : Sparse K n,
    o.plus = o.delassus_matrix + diagonal o.damping → o.llt = o.plus →
    (o.run (· + ·) h).delassus_matrix = o.delassus_matrix ∧
    (o.run (· + ·) h).damping = lastDamping o.damping h ∧
    (o.run (· + ·) h).llt = o.delassus_matrix + diagonal (lastDamping o.damping h) ∧
    (o.run (· + ·) h).perm = o.perm := by
  induction h with
  | nil => intro o h1 h2; exact ⟨rfl, rfl, h2.trans h1, rfl⟩
  | cons a t ih =>
    intro o h1 h2
    have upd : ∀ v : Fin n → K, (o.updateDamping (· + ·) v).plus = o.delassus_matrix + diagonal v := by
      intro v
      have : (o.updateDamping (· + ·) v).plus
          = addDiag (· + ·) o.plus (fun k => -o.damping k + v k) := rfl
      rw [this, addDiag_exact, h1, add_assoc, diagonal_add]
      congr 2
      ext k
      ring
    cases a with
    | updateDamping v => exact ih (o.updateDamping (· + ·) v) (upd v) rfl
    | updateDampingScalar mu => exact ih (o.updateDamping (· + ·) (fun _ => mu)) (upd _) rfl
    | matrix =>
      have e : (o.matrix (· + ·)).2.plus = o.delassus_matrix + diagonal o.damping := by
        change addDiag (· + ·) o.delassus_matrix o.damping = _
        rw [addDiag_exact]
      exact ih (o.matrix (· + ·)).2 e (h2.trans (h1.trans e.symm))

/-! ## Theorems -/

/-- C68, dense operator: after any history of calls on an operator built from `G`, the products, the matrix, the
solutions and the inverse are those of `G + diag(d)`, `d` the last damping given, or zero. -/
theorem C68_dense [CommRing K] (c : Chol K n) (hc : c.Correct) (G junk : Mat K n) (h : List (Call K n))
    (hok : c.ok (G + diagonal (lastDamping 0 h))) :
    (∀ x, ((Dense.mk' G junk).run (· + ·) h).apply x = (G + diagonal (lastDamping 0 h)) *ᵥ x) ∧
    (((Dense.mk' G junk).run (· + ·) h).matrix (· + ·)).1 = G + diagonal (lastDamping 0 h) ∧
    (∀ b, (G + diagonal (lastDamping 0 h)) *ᵥ ((Dense.mk' G junk).run (· + ·) h).solve c b = b) ∧
    (G + diagonal (lastDamping 0 h)) * ((Dense.mk' G junk).run (· + ·) h).inverse c = 1 := by
  obtain ⟨h1, h2, -⟩ := Dense.run_eq (· + ·) h (Dense.mk' G junk)
  have h3 := Dense.run_llt G junk h
  refine ⟨fun x => ?_, ?_, fun b => ?_, ?_⟩
  · unfold Dense.apply
    rw [h1, h2]
    exact apply_eq G _ x
  · unfold Dense.matrix
    dsimp only
    rw [h1, h2, addDiag_exact]
    rfl
  · unfold Dense.solve
    rw [h3]
    exact hc _ hok b
  · unfold Dense.inverse
    rw [h3]
    exact inverse_eq c hc _ hok

/-- C68, dense operator, whatever the rounding of the additions: once a damping is given, the solutions, the matrix,
the inverse and the products do not depend on what was called before. -/
theorem C68_dense_rounded [CommRing K] (add : K → K → K) (c : Chol K n) (G junk : Mat K n) (h : List (Call K n))
    (v : Fin n → K) :
    let o := (Dense.mk' G junk).run add (h ++ [.updateDamping v])
    let o' := (Dense.mk' G junk).updateDamping add v
    (∀ x, o.apply x = o'.apply x) ∧ (o.matrix add).1 = (o'.matrix add).1 ∧
    (∀ b, o.solve c b = o'.solve c b) ∧ o.inverse c = o'.inverse c := by
  have e : (Dense.mk' G junk).run add (h ++ [.updateDamping v]) = (Dense.mk' G junk).updateDamping add v := by
    have : (Dense.mk' G junk).run add (h ++ [.updateDamping v])
        = ((Dense.mk' G junk).run add h).updateDamping add v := by
      unfold Dense.run; rw [List.foldl_append]; rfl
    rw [this]
    obtain ⟨h1, -, -⟩ := Dense.run_eq add h (Dense.mk' G junk)
    unfold Dense.updateDamping
    dsimp only
    rw [h1]
  intro o o'
  have : o = o' := e
  rw [this]
  exact ⟨fun _ => rfl, rfl, fun _ => rfl, rfl⟩

/-- C68, sparse operator, the part that holds: in exact arithmetic, after any history of calls on an operator built
from `G`, the products, the matrix, the two-argument `solve` and the inverse are those of `G + diag(d)`; so are
`solveInPlace` and the one-argument `solve` when the decomposition reorders the unknowns. Missing: floating-point
additions (`C68_sparse_drift_counterexample`), decompositions in the natural order
(`C68_sparse_natural_counterexample`) and the report of failures (`C68_sparse_failure_counterexample`). -/
theorem C68_sparse_partial [CommRing K] (c : Chol K n) (hc : c.Correct) (G : Mat K n) (perm : Bool)
    (h : List (Call K n)) (hok : c.ok (G + diagonal (lastDamping 0 h))) :
    (∀ x, ((Sparse.mk' perm G).run (· + ·) h).apply x = (G + diagonal (lastDamping 0 h)) *ᵥ x) ∧
    (((Sparse.mk' perm G).run (· + ·) h).matrix (· + ·)).1 = G + diagonal (lastDamping 0 h) ∧
    (∀ b, (G + diagonal (lastDamping 0 h)) *ᵥ ((Sparse.mk' perm G).run (· + ·) h).solveOut c b = b) ∧
    (perm = true →
      ∀ b, (G + diagonal (lastDamping 0 h)) *ᵥ ((Sparse.mk' perm G).run (· + ·) h).solve c b = b) ∧
    (G + diagonal (lastDamping 0 h)) * ((Sparse.mk' perm G).run (· + ·) h).inverse c = 1 := by
  have e0 : (Sparse.mk' perm G).plus = G + diagonal (Sparse.mk' perm G).damping := by
    change G = G + diagonal (fun _ => (0 : K))
    simp
  obtain ⟨h1, h2, h3, h4⟩ := Sparse.run_eq h (Sparse.mk' perm G) e0 rfl
  have h3' : ((Sparse.mk' perm G).run (· + ·) h).llt = G + diagonal (lastDamping 0 h) := h3
  refine ⟨fun x => ?_, ?_, fun b => ?_, fun hp b => ?_, ?_⟩
  · unfold Sparse.apply
    rw [h1, h2]
    exact apply_eq G _ x
  · unfold Sparse.matrix
    dsimp only
    rw [h1, h2, addDiag_exact]
    rfl
  · unfold Sparse.solveOut
    rw [h3']
    exact hc _ hok b
  · unfold Sparse.solve solveImpl
    rw [h3', h4, if_pos hok]
    change _ *ᵥ (if perm = true then _ else _) = _
    rw [if_pos hp]
    exact hc _ hok b
  · unfold Sparse.inverse
    rw [h3']
    exact inverse_eq c hc _ hok

/-- a decomposition that keeps Eigen's promise: Gauss, on the invertible matrices -/
noncomputable def Ex.chol (n : ℕ) : Chol ℚ n := ⟨fun M => IsUnit M.det, fun M b => M⁻¹ *ᵥ b⟩

theorem Ex.chol_correct (n : ℕ) : (Ex.chol n).Correct := by
  intro M hM b
  change M *ᵥ (M⁻¹ *ᵥ b) = b
  rw [mulVec_mulVec, Matrix.mul_nonsing_inv M hM, one_mulVec]

/-- the hypotheses of the three theorems are met: a matrix of size two, damped three times -/
example :
    let h : List (Call ℚ 2) := [.updateDamping ![1, 2], .matrix, .updateDampingScalar 5, .updateDamping ![3, 4], .matrix]
    lastDamping 0 h = ![3, 4] ∧ (Ex.chol 2).Correct ∧
      (Ex.chol 2).ok (!![2, 1; 1, 3] + diagonal (lastDamping 0 h)) := by
  refine ⟨rfl, Ex.chol_correct 2, ?_⟩
  change IsUnit (Matrix.det _)
  rw [isUnit_iff_ne_zero, Matrix.det_fin_two]
  simp [lastDamping]
  norm_num

/-- With a decomposition in the natural order (`Eigen::NaturalOrdering`), `solveInPlace` and `solve(mat)` of the sparse
Delassus operator return the right-hand side unchanged: the wrapper around the decomposition of Eigen computes the
solution and copies it only when there is a permutation. -/
theorem C68_sparse_natural_counterexample :
    ∃ (c : Chol ℚ 1) (G : Mat ℚ 1) (b : Fin 1 → ℚ), c.Correct ∧ c.ok G ∧
      (∀ b', (Sparse.mk' false G).solve c b' = b') ∧ G *ᵥ (Sparse.mk' false G).solve c b ≠ b := by
  have hs : ∀ b', (Sparse.mk' false !![2]).solve (Ex.chol 1) b' = b' := by
    intro b'
    unfold Sparse.solve solveImpl
    simp only [Sparse.mk', Bool.false_eq_true, if_false]
    exact ite_self _
  refine ⟨Ex.chol 1, !![2], fun _ => 1, Ex.chol_correct 1, ?_, hs, ?_⟩
  · change IsUnit (Matrix.det _)
    rw [isUnit_iff_ne_zero, Matrix.det_fin_one]
    norm_num
  · rw [hs]
    intro h
    have := congrFun h 0
    simp [mulVec, dotProduct] at this

/-- The sparse Delassus operator adds the difference of the dampings to its damped matrix in place, so that the
rounding errors of all the dampings it was ever given add up. With the additions of `double`, an operator of matrix `1`
given the damping `2^60` and then `0` factorises the matrix `0`, although its own `matrix()` is `1`; the dense operator
factorises `1`. -/
theorem C68_sparse_drift_counterexample :
    ∃ (G : Mat ℚ 1) (h : List (Call ℚ 1)), lastDamping 0 h = 0 ∧
      ((Sparse.mk' true G).run add53 h).llt = 0 ∧ (((Sparse.mk' true G).run add53 h).matrix add53).1 = 1 ∧
      ∀ junk, ((Dense.mk' G junk).run add53 h).llt = 1 := by
  refine ⟨fun _ _ => 1, [.updateDampingScalar (2 ^ 60), .updateDampingScalar 0], rfl, ?_, ?_, fun junk => ?_⟩
  · ext i j
    fin_cases i; fin_cases j
    decide +kernel
  · ext i j
    fin_cases i; fin_cases j
    decide +kernel
  · ext i j
    fin_cases i; fin_cases j
    change add53 1 0 = 1
    decide +kernel

/-- When the decomposition fails, `solve` and `solveInPlace` of the sparse Delassus operator return the right-hand side
and report nothing: here the damped matrix is zero and the right-hand side is not. -/
theorem C68_sparse_failure_counterexample :
    ∃ (c : Chol ℚ 1) (h : List (Call ℚ 1)) (b : Fin 1 → ℚ), c.Correct ∧
      ((Sparse.mk' true 1).run (· + ·) h).solve c b = b ∧
      ((Sparse.mk' true 1).run (· + ·) h).apply (((Sparse.mk' true 1).run (· + ·) h).solve c b) ≠ b := by
  have hs : ((Sparse.mk' true (1 : Mat ℚ 1)).run (· + ·) [.updateDampingScalar (-1)]).solve (Ex.chol 1) (fun _ => 1)
      = fun _ => 1 := by
    unfold Sparse.solve solveImpl
    rw [if_neg]
    change ¬ IsUnit (Matrix.det _)
    rw [isUnit_iff_ne_zero, not_not, Matrix.det_fin_one]
    decide +kernel
  refine ⟨Ex.chol 1, [.updateDampingScalar (-1)], fun _ => 1, Ex.chol_correct 1, hs, ?_⟩
  rw [hs]
  intro h
  have h0 := congrFun h 0
  revert h0
  decide +kernel

end Pin.Delassus
