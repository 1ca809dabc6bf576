import Verif.Math.Lanczos
import Mathlib.Tactic.NormNum
import Mathlib.Tactic.Linarith
import Mathlib.Tactic.Module

/-!
# C71: Gram–Schmidt and the Lanczos decomposition
-/

namespace Pin.Lanczos
open scoped RealInnerProductSpace
variable {V : Type*} [NormedAddCommGroup V] [InnerProductSpace ℝ V]

/-! ## Specification -/

/-- the vectors `Q 0 … Q (n-1)` have unit norm and are orthogonal to each other -/
def Ortho (Q : ℕ → V) (n : ℕ) : Prop := ∀ i < n, ∀ j < n, ⟪Q i, Q j⟫ = if i = j then (1 : ℝ) else 0

/-- the entry `(i, j)` of the symmetric tridiagonal matrix of diagonal `a` and sub-diagonal `b` -/
def tri (a b : ℕ → ℝ) (i j : ℕ) : ℝ :=
  if i = j then a i else if i = j + 1 then b j else if j = i + 1 then b i else 0

/-! ## Lemmas -/

theorem ortho_step (Q : ℕ → V) (n : ℕ) (h : Ortho Q n) (vec : V) :
    (∀ i < n, ⟪Q i, orthonormalisation Q n vec⟫ = 0) ∧
    orthonormalisation Q n vec = vec - ∑ c ∈ Finset.range n, ⟪Q c, vec⟫ • Q c := by
  have key : ∀ m ≤ n, orthonormalisation Q m vec = vec - ∑ c ∈ Finset.range m, ⟪Q c, vec⟫ • Q c := by
    intro m hm
    induction m with
    | zero => simp [orthonormalisation]
    | succ m ih =>
      have e : orthonormalisation Q (m + 1) vec =
          orthonormalisation Q m vec - ⟪Q m, orthonormalisation Q m vec⟫ • Q m := by
        simp [orthonormalisation, List.range_succ]
      rw [e, ih (by omega), Finset.sum_range_succ]
      have : ⟪Q m, ∑ c ∈ Finset.range m, ⟪Q c, vec⟫ • Q c⟫ = 0 := by
        rw [inner_sum]
        refine Finset.sum_eq_zero fun c hc => ?_
        have := Finset.mem_range.1 hc
        rw [inner_smul_right, h m (by omega) c (by omega), if_neg (by omega), mul_zero]
      rw [inner_sub_right, this, sub_zero]
      abel
  refine ⟨fun i hi => ?_, key n le_rfl⟩
  rw [key n le_rfl, inner_sub_right, inner_sum, Finset.sum_eq_single i]
  · rw [inner_smul_right, h i hi i hi, if_pos rfl, mul_one, sub_self]
  · intro c hc hne
    rw [inner_smul_right, h i hi c (Finset.mem_range.1 hc), if_neg (Ne.symm hne), mul_zero]
  · intro hn; exact absurd (Finset.mem_range.2 hi) hn

/-- vectors already orthogonal to the basis are unchanged -/
theorem ortho_id (Q : ℕ → V) (n : ℕ) (vec : V) (h : ∀ i < n, ⟪Q i, vec⟫ = 0) :
    orthonormalisation Q n vec = vec := by
  induction n with
  | zero => simp [orthonormalisation]
  | succ m ih =>
    have e : orthonormalisation Q (m + 1) vec =
        orthonormalisation Q m vec - ⟪Q m, orthonormalisation Q m vec⟫ • Q m := by
      simp [orthonormalisation, List.range_succ]
    rw [e, ih fun i hi => h i (by omega), h m (by omega)]; simp

/-- the term of the previous column -/
def prevTerm (z : Dec V) (k : ℕ) : V := if k > 0 then z.betas (k - 1) • z.Q (k - 1) else 0

/-- what holds before the iteration `k` -/
structure LInv (A : V → V) (tol : ℝ) (z : Dec V) (k c : ℕ) : Prop where
  ortho : Ortho z.Q c
  alpha : ∀ j < k, z.alphas j = ⟪z.Q j, A (z.Q j)⟫
  three : ∀ j < k, j + 1 < c →
    A (z.Q j) = prevTerm z j + z.alphas j • z.Q j + z.betas j • z.Q (j + 1)
  pos : ∀ j < k, j + 1 < c → tol < z.betas j

/-- the outcome of the loop: `c` columns are defined -/
structure LOut (A : V → V) (tol : ℝ) (m : ℕ) (q0 : V) (r : Dec V × ℕ) (c : ℕ) : Prop where
  inv : LInv A tol r.1 c c
  q0 : r.1.Q 0 = q0
  le : c ≤ m
  stop : (r.2 = m ∧ c = m) ∨ (r.2 + 1 = c ∧ c < m ∧ r.1.betas r.2 ≤ tol ∧
    r.1.betas r.2 = ‖A (r.1.Q r.2) - prevTerm r.1 r.2 - r.1.alphas r.2 • r.1.Q r.2‖ ∧
    ∀ i < c, ⟪r.1.Q i, A (r.1.Q r.2) - prevTerm r.1 r.2 - r.1.alphas r.2 • r.1.Q r.2⟫ = 0)

/-- what is left of `A q_k` is orthogonal to the columns so far -/
theorem rest_ortho (A : V → V) (hA : ∀ x y, ⟪A x, y⟫ = ⟪x, A y⟫) (tol : ℝ) (z : Dec V) (k : ℕ)
    (h : LInv A tol z k (k + 1)) (i : ℕ) (hi : i < k + 1) :
    ⟪z.Q i, A (z.Q k) - prevTerm z k - ⟪z.Q k, A (z.Q k)⟫ • z.Q k⟫ = 0 := by
  have hik : ∀ i' < k + 1, ∀ j' < k + 1, ⟪z.Q i', z.Q j'⟫ = if i' = j' then (1 : ℝ) else 0 := h.ortho
  have hp : ⟪z.Q i, prevTerm z k⟫ = if k > 0 ∧ i + 1 = k then z.betas i else 0 := by
    unfold prevTerm
    split
    · rename_i hk
      rw [inner_smul_right, hik i hi (k - 1) (by omega)]
      by_cases e : i = k - 1
      · rw [if_pos e, if_pos ⟨hk, by omega⟩, e, mul_one]
      · rw [if_neg e, if_neg (by omega), mul_zero]
    · rename_i hk; rw [if_neg (by tauto), inner_zero_right]
  rw [inner_sub_right, inner_sub_right, inner_smul_right, hik i hi k (by omega), hp]
  rcases Nat.lt_or_ge i k with hlt | hge
  · rw [if_neg (by omega : ¬ i = k), mul_zero, sub_zero, ← hA, h.three i hlt (by omega),
      inner_add_left, inner_add_left, inner_smul_left, inner_smul_left, hik i hi k (by omega),
      hik (i + 1) (by omega) k (by omega), if_neg (by omega : ¬ i = k)]
    have hq : ⟪prevTerm z i, z.Q k⟫ = 0 := by
      unfold prevTerm
      split
      · rw [inner_smul_left, hik (i - 1) (by omega) k (by omega), if_neg (by omega), mul_zero]
      · exact inner_zero_left _
    rw [hq]
    by_cases e : i + 1 = k
    · rw [if_pos e, if_pos ⟨by omega, e⟩]; simp
    · rw [if_neg e, if_neg (by tauto)]; simp
  · obtain rfl : i = k := by omega
    rw [if_pos rfl, if_neg (by omega)]; simp

theorem loop_ok (A : V → V) (hA : ∀ x y, ⟪A x, y⟫ = ⟪x, A y⟫) (tol : ℝ) (ht : 0 ≤ tol) (m : ℕ) (q0 : V) :
    ∀ (fuel k : ℕ) (z : Dec V), fuel + k = m → 0 < m → LInv A tol z k (min (k + 1) m) → z.Q 0 = q0 →
      ∃ c, 0 < c ∧ LOut A tol m q0 (loop A tol m fuel k z) c := by
  intro fuel
  induction fuel with
  | zero =>
    intro k z hk hm h h0
    obtain rfl : k = m := by omega
    rw [show min (k + 1) k = k by omega] at h
    exact ⟨k, hm, h, h0, le_rfl, Or.inl ⟨rfl, rfl⟩⟩
  | succ fuel ih =>
    intro k z hk hm h h0
    rw [show min (k + 1) m = k + 1 by omega] at h
    have hrest := rest_ortho A hA tol z k h
    unfold loop
    simp only
    split
    · rename_i hk1
      -- the vector which is normalised
      have hw : (if k > 0 then orthonormalisation z.Q k
          (if k > 0 then A (z.Q k) - Function.update z.alphas k ⟪z.Q k, A (z.Q k)⟫ k • z.Q k -
            z.betas (k - 1) • z.Q (k - 1)
           else A (z.Q k) - Function.update z.alphas k ⟪z.Q k, A (z.Q k)⟫ k • z.Q k)
          else (if k > 0 then A (z.Q k) - Function.update z.alphas k ⟪z.Q k, A (z.Q k)⟫ k • z.Q k -
            z.betas (k - 1) • z.Q (k - 1)
           else A (z.Q k) - Function.update z.alphas k ⟪z.Q k, A (z.Q k)⟫ k • z.Q k)) =
          A (z.Q k) - prevTerm z k - ⟪z.Q k, A (z.Q k)⟫ • z.Q k := by
        simp only [Function.update_self]
        by_cases hk0 : k > 0
        · simp only [if_pos hk0]
          have e : A (z.Q k) - ⟪z.Q k, A (z.Q k)⟫ • z.Q k - z.betas (k - 1) • z.Q (k - 1) =
              A (z.Q k) - prevTerm z k - ⟪z.Q k, A (z.Q k)⟫ • z.Q k := by
            unfold prevTerm; rw [if_pos hk0]; abel
          rw [e]
          exact ortho_id _ _ _ fun i hi => hrest i (by omega)
        · simp only [if_neg hk0]; unfold prevTerm; rw [if_neg hk0, sub_zero]
      rw [hw]
      generalize hW : A (z.Q k) - prevTerm z k - ⟪z.Q k, A (z.Q k)⟫ • z.Q k = W at hrest
      simp only [Function.update_self]
      have hpt : ∀ j ≤ k, ∀ (Q' : ℕ → V) (a' : ℕ → ℝ), (∀ i ≤ k, Q' i = z.Q i) →
          prevTerm (⟨Q', a', Function.update z.betas k ‖W‖⟩ : Dec V) j = prevTerm z j := by
        intro j hj Q' a' hQ
        unfold prevTerm
        by_cases hj0 : j > 0
        · simp only [if_pos hj0]
          rw [Function.update_of_ne (by omega), hQ _ (by omega)]
        · simp only [if_neg hj0]
      split
      · -- the break
        rename_i hb
        refine ⟨k + 1, by omega, ⟨h.ortho, ?_, ?_, ?_⟩, h0, by omega, Or.inr ⟨rfl, by omega, ?_, ?_, ?_⟩⟩
        · intro j hj
          dsimp only
          by_cases e : j = k
          · subst e; rw [Function.update_self]
          · rw [Function.update_of_ne e]; exact h.alpha j (by omega)
        · intro j hj hj1
          dsimp only
          rw [hpt j (by omega) _ _ (fun _ _ => rfl), Function.update_of_ne (by omega),
            Function.update_of_ne (by omega)]
          exact h.three j (by omega) hj1
        · intro j hj hj1
          dsimp only
          rw [Function.update_of_ne (by omega)]; exact h.pos j (by omega) hj1
        · dsimp only
          rw [Function.update_self]; exact hb
        · dsimp only
          rw [hpt k le_rfl _ _ (fun _ _ => rfl), Function.update_self, Function.update_self, hW]
        · intro i hi
          dsimp only
          rw [hpt k le_rfl _ _ (fun _ _ => rfl), Function.update_self, hW]
          exact hrest i hi
      · -- the next column
        rename_i hb
        have hpos : 0 < ‖W‖ := lt_of_le_of_lt ht (not_le.1 hb)
        have hQ : ∀ i ≤ k, Function.update z.Q (k + 1) (‖W‖⁻¹ • W) i = z.Q i :=
          fun i hi => Function.update_of_ne (by omega) _ _
        apply ih (k + 1) _ (by omega) hm
        · rw [show min (k + 1 + 1) m = k + 2 by omega]
          refine ⟨?_, ?_, ?_, ?_⟩
          · intro i hi j hj
            dsimp only
            by_cases e1 : i = k + 1
            · subst e1
              rw [Function.update_self]
              by_cases e2 : j = k + 1
              · subst e2
                rw [Function.update_self, if_pos rfl, inner_smul_left, inner_smul_right,
                  real_inner_self_eq_norm_sq]
                simp only [conj_trivial]
                field_simp
              · rw [hQ j (by omega), if_neg (by omega), inner_smul_left, real_inner_comm, hrest j (by omega),
                  mul_zero]
            · rw [hQ i (by omega)]
              by_cases e2 : j = k + 1
              · subst e2
                rw [Function.update_self, if_neg (by omega), inner_smul_right, hrest i (by omega), mul_zero]
              · rw [hQ j (by omega)]; exact h.ortho i (by omega) j (by omega)
          · intro j hj
            dsimp only
            rw [hQ j (by omega)]
            by_cases e : j = k
            · subst e; rw [Function.update_self]
            · rw [Function.update_of_ne e]; exact h.alpha j (by omega)
          · intro j hj hj1
            dsimp only
            rw [hpt j (by omega) _ _ hQ, hQ j (by omega)]
            by_cases e : j = k
            · subst e
              rw [Function.update_self, Function.update_self, Function.update_self, smul_smul,
                mul_inv_cancel₀ hpos.ne', one_smul, ← hW]
              abel
            · rw [Function.update_of_ne e, Function.update_of_ne e, Function.update_of_ne (by omega)]
              exact h.three j (by omega) (by omega)
          · intro j hj hj1
            dsimp only
            by_cases e : j = k
            · subst e; rw [Function.update_self]; exact not_le.1 hb
            · rw [Function.update_of_ne e]; exact h.pos j (by omega) (by omega)
        · dsimp only
          rw [hQ 0 (by omega)]; exact h0
    · rename_i hk1
      have hpt : ∀ (a' : ℕ → ℝ) j, prevTerm (⟨z.Q, a', z.betas⟩ : Dec V) j = prevTerm z j := fun _ _ => rfl
      apply ih (k + 1) _ (by omega) hm
      · rw [show min (k + 1 + 1) m = k + 1 by omega]
        refine ⟨h.ortho, ?_, ?_, ?_⟩
        · intro j hj
          dsimp only
          by_cases e : j = k
          · subst e; rw [Function.update_self]
          · rw [Function.update_of_ne e]; exact h.alpha j (by omega)
        · intro j hj hj1
          dsimp only
          rw [hpt, Function.update_of_ne (by omega)]
          exact h.three j (by omega) hj1
        · intro j hj hj1; exact h.pos j (by omega) hj1
      · exact h0


theorem start_norm (n : ℕ) (hn : 0 < n) : ‖start n‖ = 1 := by
  have h : (0 : ℝ) < n := by exact_mod_cast hn
  rw [EuclideanSpace.norm_eq]
  have : ∀ i, (start n).ofLp i = 1 / √(n : ℝ) := fun _ => rfl
  simp only [this, Real.norm_eq_abs, sq_abs, div_pow, one_pow, Real.sq_sqrt h.le]
  simp [h.ne']

theorem compute_ok (A : V → V) (hA : ∀ x y, ⟪A x, y⟫ = ⟪x, A y⟫) (tol : ℝ) (ht : 0 ≤ tol) (m : ℕ) (hm : 0 < m)
    (q0 : V) (h0 : ‖q0‖ = 1) (Q : ℕ → V) :
    ∃ c, 0 < c ∧ LOut A tol m q0 (compute A tol m q0 Q) c := by
  unfold compute
  apply loop_ok A hA tol ht m q0 m 0 _ (by omega) hm
  · rw [show min (0 + 1) m = 1 by omega]
    refine ⟨?_, by omega, by omega, by omega⟩
    intro i hi j hj
    obtain rfl : i = 0 := by omega
    obtain rfl : j = 0 := by omega
    dsimp only
    rw [Function.update_self, if_pos rfl, real_inner_self_eq_norm_sq, h0]; norm_num
  · dsimp only; rw [Function.update_self]

/-! ## The property -/

/-- **C71 (Gram–Schmidt).** For an orthonormal basis, the vector returned is orthogonal to every vector of the basis,
and differs from the one given by its projection on the basis. -/
theorem C71_gram_schmidt (Q : ℕ → V) (n : ℕ) (h : Ortho Q n) (vec : V) :
    (∀ i < n, ⟪Q i, orthonormalisation Q n vec⟫ = 0) ∧
    vec - orthonormalisation Q n vec ∈ Submodule.span ℝ (Q '' {i | i < n}) := by
  refine ⟨(ortho_step Q n h vec).1, ?_⟩
  rw [(ortho_step Q n h vec).2, sub_sub_cancel]
  exact Submodule.sum_mem _ fun c hc => Submodule.smul_mem _ _
    (Submodule.subset_span ⟨c, Finset.mem_range.1 hc, rfl⟩)

/-- **C71 (decomposition).** For a symmetric matrix, a size `m ≥ 1` and any content of the object left by earlier calls,
there is a number `c` of columns such that: the first one is the starting vector, the `c` first ones are orthonormal, and
the matrix seen in these columns is the tridiagonal matrix of the object. Either all the columns are there (`c = m`,
`rank() = m`), or the loop stopped early: then the matrix sends every vector `x` of the space of these columns back into
it, up to the next sub-diagonal entry times the norm of `x`, and this entry is at most the tolerance. -/
theorem C71_decomposition (A : V →ₗ[ℝ] V) (hA : A.IsSymmetric) (tol : ℝ) (ht : 0 ≤ tol) (m : ℕ) (hm : 0 < m)
    (q0 : V) (h0 : ‖q0‖ = 1) (Q : ℕ → V) :
    ∃ c, 0 < c ∧ c ≤ m ∧
      (compute A tol m q0 Q).1.Q 0 = q0 ∧
      Ortho (compute A tol m q0 Q).1.Q c ∧
      (∀ i < c, ∀ j < c, ⟪(compute A tol m q0 Q).1.Q i, A ((compute A tol m q0 Q).1.Q j)⟫ =
        tri (compute A tol m q0 Q).1.alphas (compute A tol m q0 Q).1.betas i j) ∧
      (∀ j, j + 1 < c → tol < (compute A tol m q0 Q).1.betas j) ∧
      (c = m ∧ rank (compute A tol m q0 Q).2 = m ∨
       c < m ∧ rank (compute A tol m q0 Q).2 = max 1 (c - 1) ∧ (compute A tol m q0 Q).1.betas (c - 1) ≤ tol ∧
        ∀ x ∈ Submodule.span ℝ ((compute A tol m q0 Q).1.Q '' {i | i < c}),
          ∃ y ∈ Submodule.span ℝ ((compute A tol m q0 Q).1.Q '' {i | i < c}),
            ‖A x - y‖ ≤ (compute A tol m q0 Q).1.betas (c - 1) * ‖x‖) := by
  obtain ⟨c, hc, h⟩ := compute_ok A hA tol ht m hm q0 h0 Q
  generalize compute A tol m q0 Q = r at h
  have ho := h.inv.ortho
  have hprev : ∀ i < c, ∀ j < c, ⟪r.1.Q i, prevTerm r.1 j⟫ = if j = i + 1 then r.1.betas i else 0 := by
    intro i hi j hj
    unfold prevTerm
    split
    · rw [inner_smul_right, ho i hi (j - 1) (by omega)]
      by_cases e : j = i + 1
      · rw [if_pos e, if_pos (by omega), mul_one, e]; rfl
      · rw [if_neg e, if_neg (by omega), mul_zero]
    · rw [if_neg (by omega), inner_zero_right]
  have hmem : ∀ i < c, r.1.Q i ∈ Submodule.span ℝ (r.1.Q '' {i | i < c}) :=
    fun i hi => Submodule.subset_span ⟨i, hi, rfl⟩
  have hpm : ∀ i < c, prevTerm r.1 i ∈ Submodule.span ℝ (r.1.Q '' {i | i < c}) := by
    intro i hi
    unfold prevTerm
    split
    · exact Submodule.smul_mem _ _ (hmem _ (by omega))
    · exact Submodule.zero_mem _
  have hcol : ∀ i < c, ∀ j, j + 1 < c → ⟪r.1.Q i, A (r.1.Q j)⟫ = tri r.1.alphas r.1.betas i j := by
    intro i hi j hj
    rw [h.inv.three j (by omega) hj, inner_add_right, inner_add_right, inner_smul_right, inner_smul_right,
      hprev i hi j (by omega), ho i hi j (by omega), ho i hi (j + 1) hj]
    unfold tri
    by_cases e1 : i = j
    · subst e1; simp
    · by_cases e2 : i = j + 1
      · subst e2; simp [show ¬ j = j + 1 + 1 by omega]
      · by_cases e3 : j = i + 1
        · subst e3; simp [show ¬ i = i + 1 + 1 by omega]
        · simp [e1, e2, e3]
  refine ⟨c, hc, h.le, h.q0, ho, ?_, fun j hj => h.inv.pos j (by omega) hj, ?_⟩
  · intro i hi j hj
    by_cases hj1 : j + 1 < c
    · exact hcol i hi j hj1
    · by_cases hi1 : i + 1 < c
      · rw [← hA, real_inner_comm, hcol j hj i hi1]
        unfold tri
        by_cases e1 : i = j
        · subst e1; simp
        · by_cases e2 : i = j + 1
          · subst e2; omega
          · by_cases e3 : j = i + 1
            · subst e3; simp [show ¬ i = i + 1 + 1 by omega]
            · simp [e1, e2, e3, Ne.symm e1]
      · obtain rfl : i = j := by omega
        rw [← h.inv.alpha i hi]; simp [tri]
  · rcases h.stop with ⟨h1, h2⟩ | ⟨h1, h2, h3, h4, -⟩
    · exact Or.inl ⟨h2, by rw [h1]; unfold rank; omega⟩
    · have hk : c - 1 = r.2 := by omega
      refine Or.inr ⟨h2, by rw [hk]; rfl, by rw [hk]; exact h3, fun x hx => ?_⟩
      rw [hk, h4]
      generalize hW : A (r.1.Q r.2) - prevTerm r.1 r.2 - r.1.alphas r.2 • r.1.Q r.2 = W
      refine ⟨A x - ⟪r.1.Q r.2, x⟫ • W, ?_, ?_⟩
      · refine Submodule.span_induction (p := fun x _ => A x - ⟪r.1.Q r.2, x⟫ • W ∈ _) ?_ ?_ ?_ ?_ hx
        · rintro _ ⟨i, hi, rfl⟩
          have hi : i < c := hi
          rw [ho r.2 (by omega) i hi]
          by_cases e : r.2 = i
          · rw [if_pos e, one_smul, ← hW, ← e]
            have : A (r.1.Q r.2) - (A (r.1.Q r.2) - prevTerm r.1 r.2 - r.1.alphas r.2 • r.1.Q r.2) =
              prevTerm r.1 r.2 + r.1.alphas r.2 • r.1.Q r.2 := by abel
            rw [this]
            exact Submodule.add_mem _ (hpm _ (by omega)) (Submodule.smul_mem _ _ (hmem _ (by omega)))
          · rw [if_neg e, zero_smul, sub_zero, h.inv.three i hi (by omega)]
            exact Submodule.add_mem _ (Submodule.add_mem _ (hpm _ hi) (Submodule.smul_mem _ _ (hmem _ hi)))
              (Submodule.smul_mem _ _ (hmem _ (by omega)))
        · simp
        · intro x y _ _ hx hy
          have : A (x + y) - ⟪r.1.Q r.2, x + y⟫ • W =
              (A x - ⟪r.1.Q r.2, x⟫ • W) + (A y - ⟪r.1.Q r.2, y⟫ • W) := by
            rw [map_add, inner_add_right, add_smul]; abel
          rw [this]; exact Submodule.add_mem _ hx hy
        · intro a x _ hx
          have : A (a • x) - ⟪r.1.Q r.2, a • x⟫ • W = a • (A x - ⟪r.1.Q r.2, x⟫ • W) := by
            rw [map_smul, inner_smul_right, smul_sub, smul_smul]
          rw [this]; exact Submodule.smul_mem _ _ hx
      · rw [sub_sub_cancel, norm_smul, mul_comm]
        refine mul_le_mul_of_nonneg_left ?_ (norm_nonneg _)
        have := abs_real_inner_le_norm (r.1.Q r.2) x
        have hn : ‖r.1.Q r.2‖ = 1 := by
          have := ho r.2 (by omega) r.2 (by omega)
          rw [if_pos rfl, real_inner_self_eq_norm_sq] at this
          nlinarith [norm_nonneg (r.1.Q r.2)]
        rw [hn, one_mul] at this
        exact this

/-- **C71 (residual).** When the rank is the size asked for, the residual of the decomposition is zero: every column of
`A Q` but the last is the one of `Q T`, and the last one differs by the part the function subtracts. -/
theorem C71_residual (A : V →ₗ[ℝ] V) (hA : A.IsSymmetric) (tol : ℝ) (ht : 0 ≤ tol) (m : ℕ) (hm : 0 < m)
    (q0 : V) (h0 : ‖q0‖ = 1) (Q : ℕ → V) (hr : rank (compute A tol m q0 Q).2 = m) (k : ℕ) (hk : k < m) :
    residual A (compute A tol m q0 Q).1 m k = 0 := by
  obtain ⟨c, hc, h⟩ := compute_ok A hA tol ht m hm q0 h0 Q
  generalize compute A tol m q0 Q = r at h hr
  have hcm : c = m := by
    rcases h.stop with ⟨-, h2⟩ | ⟨h1, h2, -⟩
    · exact h2
    · unfold rank at hr; omega
  subst hcm
  unfold residual QT
  simp only
  split
  · rename_i e
    subst e
    rw [if_neg (by omega : ¬ c - 1 + 1 < c)]
    split <;> abel
  · rw [if_pos (by omega : k + 1 < c), h.inv.three k hk (by omega)]
    unfold prevTerm
    abel

/-! ## Cases, and what does not hold -/

/-- two steps, then the break -/
theorem compute_two (A : V → V) (tol : ℝ) (ht : 0 ≤ tol) (q0 q1 : V) (h00 : ⟪q0, q0⟫ = (1 : ℝ)) (h11 : ⟪q1, q1⟫ = (1 : ℝ))
    (h01 : ⟪q0, q1⟫ = (0 : ℝ)) (a0 b a1 : ℝ) (hb : tol < b) (hA0 : A q0 = a0 • q0 + b • q1)
    (hA1 : A q1 = b • q0 + a1 • q1) (Q : ℕ → V) :
    (compute A tol 3 q0 Q).2 = 1 ∧ (compute A tol 3 q0 Q).1.Q 0 = q0 ∧ (compute A tol 3 q0 Q).1.Q 1 = q1 ∧
      (compute A tol 3 q0 Q).1.Q 2 = Q 2 := by
  have h10 : ⟪q1, q0⟫ = (0 : ℝ) := by rw [real_inner_comm]; exact h01
  have hb0 : 0 < b := lt_of_le_of_lt ht hb
  have n1 : ‖q1‖ = 1 := by
    rw [real_inner_self_eq_norm_sq] at h11
    nlinarith [norm_nonneg q1]
  have e0 : ⟪q0, A q0⟫ = a0 := by rw [hA0, inner_add_right, inner_smul_right, inner_smul_right, h00, h01]; ring
  have e1 : ⟪q1, A q1⟫ = a1 := by rw [hA1, inner_add_right, inner_smul_right, inner_smul_right, h11, h10]; ring
  have w0 : A q0 - a0 • q0 = b • q1 := by rw [hA0]; abel
  have nb : ‖b • q1‖ = b := by rw [norm_smul, n1, mul_one, Real.norm_eq_abs, abs_of_pos hb0]
  have s1 : b⁻¹ • b • q1 = q1 := by rw [smul_smul, inv_mul_cancel₀ hb0.ne', one_smul]
  have w1 : A q1 - a1 • q1 - b • q0 = 0 := by rw [hA1]; abel
  have hc : compute A tol 3 q0 Q = (⟨Function.update (Function.update Q 0 q0) 1 q1,
      Function.update (Function.update (fun _ => 0) 0 a0) 1 a1,
      Function.update (Function.update (fun _ => 0) 0 b) 1 0⟩, 1) := by
    unfold compute
    rw [loop]
    simp only [Function.update_self, e0, w0, nb, s1, gt_iff_lt, lt_self_iff_false, if_false, Nat.zero_add,
      show (1 : ℕ) < 3 by norm_num, if_true, not_le.2 hb]
    rw [loop]
    simp only [Function.update_self, e1, ne_eq, zero_ne_one, not_false_eq_true, Function.update_of_ne,
      Nat.sub_self, w1, Nat.zero_lt_one, if_true, show (1 + 1 : ℕ) < 3 by norm_num, gt_iff_lt]
    have : orthonormalisation (Function.update (Function.update Q 0 q0) 1 q1) 1 (0 : V) = 0 := by
      simp [orthonormalisation]
    rw [this, norm_zero, if_pos ht]
  rw [hc]
  refine ⟨rfl, ?_, ?_, ?_⟩ <;> simp [Function.update_of_ne]

namespace Ex

/-- the diagonal matrix `diag(0, 0, 3)` -/
noncomputable def A : EuclideanSpace ℝ (Fin 3) →ₗ[ℝ] EuclideanSpace ℝ (Fin 3) where
  toFun x := WithLp.toLp 2 ![0, 0, 3 * x 2]
  map_add' x y := by ext i; fin_cases i <;> simp [mul_add]
  map_smul' a x := by ext i; fin_cases i <;> simp; ring

theorem A_symm : A.IsSymmetric := by
  intro x y
  simp [A, PiLp.inner_apply, Fin.sum_univ_three]
  ring

/-- the second column -/
noncomputable def q1 : EuclideanSpace ℝ (Fin 3) := WithLp.toLp 2 ![-1 / √6, -1 / √6, 2 / √6]

theorem sq6 : √(6 : ℝ) * √6 = 6 := Real.mul_self_sqrt (by norm_num)
theorem s6 : √(6 : ℝ) = √2 * √3 := by rw [← Real.sqrt_mul (by norm_num)]; norm_num
theorem sq2 : √(2 : ℝ) ^ 2 = 2 := Real.sq_sqrt (by norm_num)
theorem sq3 : √(3 : ℝ) ^ 2 = 3 := Real.sq_sqrt (by norm_num)

theorem two (tol : ℝ) (h0 : 0 ≤ tol) (h1 : tol ≤ 1) (Q : ℕ → EuclideanSpace ℝ (Fin 3)) :
    (compute A tol 3 (start 3) Q).2 = 1 ∧ (compute A tol 3 (start 3) Q).1.Q 0 = start 3 ∧
      (compute A tol 3 (start 3) Q).1.Q 1 = q1 ∧ (compute A tol 3 (start 3) Q).1.Q 2 = Q 2 := by
  have p2 : √(2 : ℝ) ≠ 0 := by positivity
  have p3 : √(3 : ℝ) ≠ 0 := by positivity
  refine compute_two A tol h0 (start 3) q1 ?_ ?_ ?_ 1 (√2) 2 ?_ ?_ ?_ Q
  · rw [real_inner_self_eq_norm_sq, start_norm 3 (by norm_num)]; norm_num
  · rw [PiLp.inner_apply]
    simp [q1, Fin.sum_univ_three, s6]
    field_simp
    rw [sq2, sq3]; norm_num
  · simp [q1, start, PiLp.inner_apply, Fin.sum_univ_three, s6]
    field_simp
    norm_num
  · refine lt_of_le_of_lt h1 ?_
    rw [Real.lt_sqrt (by norm_num)]; norm_num
  · ext i
    fin_cases i <;> simp [A, start, q1, s6] <;> field_simp <;> norm_num
  · ext i
    fin_cases i <;> simp [A, start, q1, s6] <;> field_simp <;> simp <;> norm_num

end Ex

/-- **C71 (finding).** When the loop stops early, `rank()` is one less than the number of columns of the decomposition
(it is right only when the loop stops at the first column): for `diag(0, 0, 3)`, two orthonormal columns span a space the
matrix leaves invariant, the first column alone does not, and the rank reported is 1. -/
theorem C71_rank_counterexample (tol : ℝ) (h0 : 0 ≤ tol) (h1 : tol ≤ 1) (Q : ℕ → EuclideanSpace ℝ (Fin 3)) :
    rank (compute Ex.A tol 3 (start 3) Q).2 = 1 ∧
    Ortho (compute Ex.A tol 3 (start 3) Q).1.Q 2 ∧
    (∀ a : ℝ, Ex.A ((compute Ex.A tol 3 (start 3) Q).1.Q 0) ≠ a • (compute Ex.A tol 3 (start 3) Q).1.Q 0) := by
  obtain ⟨e2, e0, e1, -⟩ := Ex.two tol h0 h1 Q
  refine ⟨by rw [e2]; rfl, ?_, ?_⟩
  · obtain ⟨c, hc, h⟩ := compute_ok Ex.A Ex.A_symm tol h0 3 (by norm_num) (start 3) (start_norm 3 (by norm_num)) Q
    have : c = 2 := by
      rcases h.stop with ⟨h1, -⟩ | ⟨h1, -⟩ <;> omega
    rw [← this]; exact h.inv.ortho
  · intro a h
    rw [e0] at h
    have ha := congrArg (fun x => x.ofLp 0) h
    have hb := congrArg (fun x => x.ofLp 2) h
    simp [Ex.A, start] at ha hb
    rw [ha] at hb
    simp at hb

/-- **C71 (finding).** When the loop stops early, the remaining columns of `Qs()` are not set: they hold what the object
held before the call (nothing defined after the constructor), so `Qs()` depends on earlier calls. -/
theorem C71_stale_counterexample (tol : ℝ) (h0 : 0 ≤ tol) (h1 : tol ≤ 1) (v : EuclideanSpace ℝ (Fin 3)) :
    (compute Ex.A tol 3 (start 3) (fun _ => v)).1.Q 2 = v :=
  (Ex.two tol h0 h1 fun _ => v).2.2.2

/-- **C71 (finding).** `orthonormalisation` does not normalise: the vector returned has not unit norm. -/
theorem C71_norm_counterexample : ∃ (Q : ℕ → EuclideanSpace ℝ (Fin 2)) (vec : EuclideanSpace ℝ (Fin 2)),
    Ortho Q 1 ∧ ‖orthonormalisation Q 1 vec‖ = 2 := by
  refine ⟨fun _ => WithLp.toLp 2 ![1, 0], WithLp.toLp 2 ![0, 2], ?_, ?_⟩
  · intro i hi j hj
    obtain rfl : i = 0 := by omega
    obtain rfl : j = 0 := by omega
    rw [PiLp.inner_apply]; simp
  · rw [ortho_id]
    · rw [EuclideanSpace.norm_eq]; simp
    · intro i hi; rw [PiLp.inner_apply]; simp

/-- the hypotheses of the theorems are met: a matrix of size three, with the starting vector of the code -/
example : Ex.A.IsSymmetric ∧ ‖start 3‖ = 1 := ⟨Ex.A_symm, start_norm 3 (by norm_num)⟩

/-- and the rank is the size asked for, when two columns are asked for -/
example (Q : ℕ → EuclideanSpace ℝ (Fin 3)) : rank (compute Ex.A 0 2 (start 3) Q).2 = 2 := by
  obtain ⟨c, hc, hc2, e0, -, -, -, h⟩ := C71_decomposition Ex.A Ex.A_symm 0 le_rfl 2 (by norm_num) (start 3)
    (start_norm 3 (by norm_num)) Q
  rcases h with ⟨-, h⟩ | ⟨h1, -, h2, h3⟩
  · exact h
  · exfalso
    obtain rfl : c = 1 := by omega
    obtain ⟨y, hy, hn⟩ := h3 (start 3) (Submodule.subset_span ⟨0, by simp, e0⟩)
    have hz : Ex.A (start 3) - y = 0 := by
      rw [← norm_le_zero_iff]
      exact hn.trans (mul_nonpos_of_nonpos_of_nonneg h2 (norm_nonneg _))
    have hs : ((compute Ex.A 0 2 (start 3) Q).1.Q '' {i | i < 1}) = {start 3} := by
      ext x
      constructor
      · rintro ⟨i, hi, rfl⟩
        obtain rfl : i = 0 := by simpa using hi
        exact e0
      · rintro rfl; exact ⟨0, by simp, e0⟩
    rw [hs, Submodule.mem_span_singleton] at hy
    obtain ⟨a, rfl⟩ := hy
    have ha := congrArg (fun x => x.ofLp 0) hz
    have hb := congrArg (fun x => x.ofLp 2) hz
    simp [Ex.A, start] at ha hb
    rw [ha] at hb
    simp at hb

end Pin.Lanczos
