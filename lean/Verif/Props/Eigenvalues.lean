import Verif.Math.EigenvaluesLemmas
import Mathlib.Analysis.Matrix.Hermitian

/-!
# C69: what power iterations return
-/

namespace Pin.Eigenvalues
open scoped RealInnerProductSpace
variable {V : Type*} [NormedAddCommGroup V] [InnerProductSpace ℝ V]

theorem Algo.run_ok {a a' : Algo V} {f : V → V} (h : a.run f = .ok a') :
    1 ≤ a.max_it ∧ 0 < a.rel_tol ∧
      ∃ y e k, loop f a.rel_tol a.max_it 0 a.principal ‖a.principal‖ = .ok (y, e, k) ∧
        a' = { a with principal := y, largest_eigen_value := e, it := k } := by
  unfold Algo.run at h
  split at h
  · cases h
  split at h
  · cases h
  rename_i h1 h2
  refine ⟨not_not.mp h1, not_not.mp h2, ?_⟩
  generalize hl : loop f a.rel_tol a.max_it 0 a.principal ‖a.principal‖ = l at h
  match l, h with
  | .ok r, h =>
    refine ⟨r.1, r.2.1, r.2.2, rfl, ?_⟩
    simp only [Out.bind, Out.ok.injEq] at h
    exact h.symm

theorem shift_symm {A : V →ₗ[ℝ] V} (hA : A.IsSymmetric) (l : ℝ) :
    (A - l • LinearMap.id : V →ₗ[ℝ] V).IsSymmetric := by
  intro x y
  simp only [LinearMap.sub_apply, LinearMap.smul_apply, LinearMap.id_apply, inner_sub_left, inner_sub_right,
    inner_smul_left, inner_smul_right, hA x y]
  simp

theorem Algo.lowest_ok {a a' : Algo V} {A : V →ₗ[ℝ] V} {b : Bool} (h : a.lowest A b = .ok a') :
    1 ≤ a.max_it ∧ 0 < a.rel_tol ∧ ∃ a1, (if b then a.run A else .ok a) = .ok a1 ∧
      ∃ y e k, loop (A - a1.largest_eigen_value • LinearMap.id : V →ₗ[ℝ] V) a1.rel_tol a1.max_it 0 a1.lowestVec
          ‖a1.lowestVec‖ = .ok (y, e, k) ∧
        a' = { a1 with lowestVec := y, it := k, lowest_eigen_value := a1.largest_eigen_value - e } := by
  unfold Algo.lowest at h
  split at h
  · cases h
  split at h
  · cases h
  rename_i h1 h2
  refine ⟨not_not.mp h1, not_not.mp h2, ?_⟩
  generalize (if b = true then a.run A else Out.ok a) = l at h
  match l, h with
  | .ok a1, h =>
    refine ⟨a1, rfl, ?_⟩
    simp only [Out.bind] at h
    have ef : (fun prev => A prev - a1.largest_eigen_value • prev)
        = (A - a1.largest_eigen_value • LinearMap.id : V →ₗ[ℝ] V) := rfl
    rw [ef] at h
    generalize hl : loop (A - a1.largest_eigen_value • LinearMap.id : V →ₗ[ℝ] V) a1.rel_tol a1.max_it 0 a1.lowestVec
          ‖a1.lowestVec‖ = l at h
    match l, h with
    | .ok r, h =>
      refine ⟨r.1, r.2.1, r.2.2, rfl, ?_⟩
      simp only [Out.ok.injEq] at h
      exact h.symm

/-! ## Theorems -/

/-- C69, `run` on any symmetric matrix, from any start, with any limit of iterations and any tolerance: the eigenvalue
is the norm of the vector, which is the image of a unit vector; it exceeds no bound of the quadratic form, so that it
never exceeds the largest magnitude of an eigenvalue; it is at least the stretch of the start; and `k` iterations find
any eigenvalue `l` up to the `k`-th root of the cosine of the angle between the start and its eigenvector:
`|l|^k cos ≤ largest^k`. -/
theorem C69_largest (A : V →ₗ[ℝ] V) (hA : A.IsSymmetric) (a a' : Algo V) (h : a.run A = .ok a') :
    (∃ u, ‖u‖ = 1 ∧ a'.principal = A u) ∧ a'.largest_eigen_value = ‖a'.principal‖ ∧
    (∀ L, (∀ u, |⟪u, A u⟫| ≤ L * ‖u‖ ^ 2) → a'.largest_eigen_value ≤ L) ∧
    ‖A a.principal‖ ≤ a'.largest_eigen_value * ‖a.principal‖ ∧
    ∀ l e, A e = l • e →
      |l| ^ (min (a'.it + 1) a.max_it) * |⟪a.principal, e⟫|
        ≤ a'.largest_eigen_value ^ (min (a'.it + 1) a.max_it) * (‖a.principal‖ * ‖e‖) := by
  obtain ⟨h1, -, y, e, k, hl, rfl⟩ := Algo.run_ok h
  obtain ⟨-, ⟨u, hu, rfl⟩, rfl, h4, h5⟩ := loop_start hA _ _ h1 _ hl
  refine ⟨⟨u, hu, rfl⟩, rfl, fun L hL => ?_, h4, fun l e he => ?_⟩
  · have := norm_le_of_form hA hL u
    rwa [hu, mul_one] at this
  · refine (eigen_le hA he a.principal _).trans ?_
    rw [← mul_assoc]
    exact mul_le_mul_of_nonneg_right h5 (norm_nonneg _)

/-- C69, NaN: on a symmetric matrix, with a tolerance below one, the result of `run` is NaN exactly when the start is
zero, or is sent to zero and there is a second iteration; it is then the only outcome that is not a result. -/
theorem C69_nan (A : V →ₗ[ℝ] V) (hA : A.IsSymmetric) (a : Algo V) (hm : 1 ≤ a.max_it) (ht : 0 < a.rel_tol)
    (ht1 : a.rel_tol < 1) :
    (a.run A = .nan ↔ a.principal = 0 ∨ A a.principal = 0 ∧ 2 ≤ a.max_it) ∧
    (a.run A = .nan ∨ ∃ a', a.run A = .ok a') := by
  obtain ⟨x, lv, la, lo, m, it, tol⟩ := a
  dsimp only at hm ht ht1 ⊢
  obtain ⟨m, rfl⟩ : ∃ f, m = f + 1 := ⟨m - 1, by omega⟩
  unfold Algo.run
  dsimp only
  rw [if_neg (not_not.mpr hm), if_neg (not_not.mpr ht)]
  unfold loop
  dsimp only
  by_cases h0 : x = 0
  · rw [if_pos (norm_eq_zero.mpr h0)]
    exact ⟨⟨fun _ => Or.inl h0, fun _ => rfl⟩, Or.inl rfl⟩
  have hx : ‖x‖ ≠ 0 := norm_ne_zero_iff.mpr h0
  have hxp : 0 < ‖x‖ := norm_pos_iff.mpr h0
  rw [if_neg hx]
  by_cases hA0 : A x = 0
  · have e : A (‖x‖⁻¹ • x) = 0 := by rw [map_smul, hA0, smul_zero]
    rw [e, norm_zero, if_neg (by
      rw [sub_zero, abs_zero, max_eq_left (abs_nonneg _), abs_of_pos hxp, not_le]
      nlinarith)]
    cases m with
    | zero =>
      refine ⟨⟨fun h => (nomatch (show Out.ok _ = Out.nan from h)), fun h => ?_⟩, Or.inr ⟨_, rfl⟩⟩
      rcases h with h | ⟨-, h⟩
      · exact absurd h h0
      · omega
    | succ m =>
      have : loop (⇑A) tol (m + 1) (0 + 1) 0 0 = .nan := by
        unfold loop; simp
      rw [this]
      exact ⟨⟨fun _ => Or.inr ⟨hA0, by omega⟩, fun _ => rfl⟩, Or.inl rfl⟩
  · have hne : ¬ (x = 0 ∨ A x = 0 ∧ 2 ≤ m + 1) := by tauto
    have hu : A (‖x‖⁻¹ • x) ≠ 0 := by
      rw [map_smul]; exact smul_ne_zero (inv_ne_zero hx) hA0
    split
    · exact ⟨⟨fun h => (nomatch (show Out.ok _ = Out.nan from h)), fun h => absurd h hne⟩, Or.inr ⟨_, rfl⟩⟩
    · obtain ⟨r, hr⟩ := loop_ne_nan hA tol m 1 _ (norm_normalize hx) hu
      rw [hr]
      exact ⟨⟨fun h => (nomatch (show Out.ok _ = Out.nan from h)), fun h => absurd h hne⟩, Or.inr ⟨_, rfl⟩⟩

/-- C69, `lowest`, the part that holds: on a symmetric matrix, whatever was computed before, the lowest eigenvalue
found is at most the Rayleigh quotient of the start; and when the largest one found is at least the middle of an
interval `[lo, hi]` that holds the spectrum, it is at least `lo`. Missing: without this condition it can lie below the
spectrum (`C69_below_counterexample`), and the result is NaN on multiples of the identity
(`C69_identity_counterexample`). -/
theorem C69_lowest_partial (A : V →ₗ[ℝ] V) (hA : A.IsSymmetric) (a a' : Algo V) (b : Bool)
    (h : a.lowest A b = .ok a') :
    a'.lowest_eigen_value * ‖a.lowestVec‖ ^ 2 ≤ ⟪a.lowestVec, A a.lowestVec⟫ ∧
    ∀ lo hi, (∀ u, lo * ‖u‖ ^ 2 ≤ ⟪u, A u⟫ ∧ ⟪u, A u⟫ ≤ hi * ‖u‖ ^ 2) → lo + hi ≤ 2 * a'.largest_eigen_value →
      lo ≤ a'.lowest_eigen_value := by
  obtain ⟨h1, -, a1, ha1, y, e, k, hl, rfl⟩ := Algo.lowest_ok h
  have hsame : a1.lowestVec = a.lowestVec ∧ a1.max_it = a.max_it := by
    cases b with
    | false => simp only [Bool.false_eq_true, if_false, Out.ok.injEq] at ha1; rw [ha1]; exact ⟨rfl, rfl⟩
    | true =>
      obtain ⟨-, -, y, e, k, -, rfl⟩ := Algo.run_ok (by simpa using ha1)
      exact ⟨rfl, rfl⟩
  obtain ⟨hv, hm⟩ := hsame
  rw [← hm] at h1
  rw [← hv]
  set l := a1.largest_eigen_value with hldef
  set x := a1.lowestVec
  have hB := shift_symm hA l
  have hform : ∀ u, ⟪u, (A - l • LinearMap.id : V →ₗ[ℝ] V) u⟫ = ⟪u, A u⟫ - l * ‖u‖ ^ 2 := by
    intro u
    simp only [LinearMap.sub_apply, LinearMap.smul_apply, LinearMap.id_apply, inner_sub_right, inner_smul_right,
      real_inner_self_eq_norm_sq]
  obtain ⟨hx, ⟨u, hu, rfl⟩, rfl, h4, -⟩ := loop_start hB _ _ h1 _ hl
  dsimp only
  constructor
  · have c := (abs_le.mp (abs_real_inner_le_norm x ((A - l • LinearMap.id : V →ₗ[ℝ] V) x))).1
    rw [hform] at c
    have := mul_le_mul_of_nonneg_left h4 (norm_nonneg x)
    nlinarith
  · intro lo hi hs hmid
    have := norm_le_of_form hB (L := l - lo) (fun w => ?_) u
    · rw [hu, mul_one] at this
      linarith
    · rw [hform, abs_le]
      obtain ⟨s1, s2⟩ := hs w
      have : 0 ≤ ‖w‖ ^ 2 := by positivity
      constructor
      · nlinarith
      · nlinarith

/-! ## Counterexamples -/

theorem startVec_norm (n : ℕ) (hn : 0 < n) : ‖startVec n‖ = 1 := by
  rw [EuclideanSpace.norm_eq]
  have hn' : (0 : ℝ) < n := by exact_mod_cast hn
  have : ∀ i, ‖(startVec n) i‖ ^ 2 = 1 / (n : ℝ) := by
    intro i
    change ‖1 / √(n : ℝ)‖ ^ 2 = _
    rw [Real.norm_eq_abs, sq_abs, div_pow, one_pow, Real.sq_sqrt hn'.le]
  simp only [this, Finset.sum_const, Finset.card_univ, Fintype.card_fin, nsmul_eq_mul]
  rw [mul_one_div_cancel hn'.ne', Real.sqrt_one]

/-- a first iteration that finds the norm of the start stops -/
theorem loop_stop {f : V → V} {tol : ℝ} (ht : 0 < tol) {x : V} (hx : ‖x‖ ≠ 0) (h : ‖f (‖x‖⁻¹ • x)‖ = ‖x‖) (m : ℕ) :
    loop f tol (m + 1) 0 x ‖x‖ = .ok (f (‖x‖⁻¹ • x), ‖x‖, 0) := by
  unfold loop
  dsimp only
  rw [if_neg hx, h, sub_self, abs_zero, if_pos (by positivity)]

/-- the matrix of the examples -/
noncomputable def Ex.A : EuclideanSpace ℝ (Fin 2) →ₗ[ℝ] EuclideanSpace ℝ (Fin 2) :=
  Matrix.toEuclideanLin !![2, -1; -1, 2]

theorem Ex.A_symm : Ex.A.IsSymmetric := by
  unfold Ex.A
  rw [Matrix.isSymmetric_toEuclideanLin_iff]
  ext i j
  fin_cases i <;> fin_cases j <;> simp

theorem Ex.A_apply (x y : ℝ) : Ex.A (WithLp.toLp 2 ![x, y]) = WithLp.toLp 2 ![2 * x - y, -x + 2 * y] := by
  ext i
  fin_cases i <;> simp [Ex.A] <;> ring

theorem startVec_two : startVec 2 = WithLp.toLp 2 ![1 / √(2 : ℝ), 1 / √(2 : ℝ)] := by
  ext i
  fin_cases i <;> simp [startVec]

/-- Power iterations that start from the default vector, all of whose entries are equal, do not find the largest
eigenvalue of a matrix whose eigenvector is orthogonal to it: on `[2 -1; -1 2]`, whose eigenvalues are `1` and `3`, they
stop at the first iteration and return `1`, whatever the tolerance and the limit. -/
theorem C69_orthogonal_counterexample :
    ∃ (A : EuclideanSpace ℝ (Fin 2) →ₗ[ℝ] EuclideanSpace ℝ (Fin 2)) (e : EuclideanSpace ℝ (Fin 2)),
      A.IsSymmetric ∧ e ≠ 0 ∧ A e = (3 : ℝ) • e ∧
      ∀ min max tol m, 0 < tol → 1 ≤ m →
        ∃ a', (Algo.new min max 2 m tol).run A = .ok a' ∧ a'.largest_eigen_value = 1 ∧ a'.it = 0 := by
  refine ⟨Ex.A, WithLp.toLp 2 ![1, -1], Ex.A_symm, ?_, ?_, ?_⟩
  · intro h
    have := congrFun (congrArg WithLp.ofLp h) 0
    simp at this
  · rw [Ex.A_apply]
    ext i
    fin_cases i <;> simp <;> norm_num
  · intro min max tol m ht hm
    obtain ⟨m, rfl⟩ : ∃ f, m = f + 1 := ⟨m - 1, by omega⟩
    have hn := startVec_norm 2 (by norm_num)
    have hfix : Ex.A (startVec 2) = startVec 2 := by
      rw [startVec_two, Ex.A_apply]
      ext i
      fin_cases i <;> simp <;> ring
    have hl := loop_stop (f := Ex.A) ht (x := startVec 2) (by rw [hn]; exact one_ne_zero)
      (by rw [hn, inv_one, one_smul, hfix, hn]) m
    unfold Algo.run Algo.new
    dsimp only
    rw [if_neg (not_not.mpr hm), if_neg (not_not.mpr ht), hl]
    exact ⟨_, rfl, hn, rfl⟩

/-- `lowest` is NaN on every non-zero multiple of the identity, thus on every matrix of size one, as soon as two
iterations are allowed: the shifted matrix is zero, and the second iteration divides by the norm of its image. -/
theorem C69_identity_counterexample (n : ℕ) (hn : 0 < n) (c : ℝ) (hc : 0 < c) (min max tol : ℝ) (ht : 0 < tol)
    (ht1 : tol < 1) (m : ℕ) (hm : 2 ≤ m) :
    (Algo.new min max n m tol).lowest (fun x => c • x) true = .nan := by
  obtain ⟨m, rfl⟩ : ∃ f, m = f + 2 := ⟨m - 2, by omega⟩
  have hs := startVec_norm n hn
  -- the largest eigenvalue is `c` whatever the number of iterations
  have key : ∀ (V : Type) [NormedAddCommGroup V] [InnerProductSpace ℝ V] (fuel it : ℕ) (x : V), x ≠ 0 →
      ∃ y k, loop (fun x : V => c • x) tol (fuel + 1) it x ‖x‖ = .ok (y, c, k) := by
    intro V _ _ fuel
    induction fuel with
    | zero =>
      intro it x hx
      have h0 : ‖x‖ ≠ 0 := norm_ne_zero_iff.mpr hx
      have e : ‖c • (‖x‖⁻¹ • x)‖ = c := by
        rw [norm_smul, norm_normalize h0, mul_one, Real.norm_eq_abs, abs_of_pos hc]
      unfold loop
      dsimp only
      rw [if_neg h0, e]
      split
      · exact ⟨_, _, rfl⟩
      · exact ⟨_, _, rfl⟩
    | succ fuel ih =>
      intro it x hx
      have h0 : ‖x‖ ≠ 0 := norm_ne_zero_iff.mpr hx
      have e : ‖c • (‖x‖⁻¹ • x)‖ = c := by
        rw [norm_smul, norm_normalize h0, mul_one, Real.norm_eq_abs, abs_of_pos hc]
      unfold loop
      dsimp only
      rw [if_neg h0]
      split
      · rw [e]; exact ⟨_, _, rfl⟩
      · refine ih (it + 1) _ ?_
        rw [← norm_ne_zero_iff, e]
        exact hc.ne'
  have hx : startVec n ≠ 0 := by rw [← norm_ne_zero_iff, hs]; exact one_ne_zero
  obtain ⟨y, k, hl⟩ := key _ (m + 1) 0 (startVec n) hx
  unfold Algo.lowest Algo.run Algo.new
  dsimp only
  rw [if_neg (by omega), if_neg (not_not.mpr ht), if_pos rfl, if_neg (by omega), if_neg (not_not.mpr ht), hl]
  simp only [Out.bind, sub_self]
  rw [hs]
  have : loop (fun _ : EuclideanSpace ℝ (Fin n) => (0 : EuclideanSpace ℝ (Fin n))) tol (m + 2) 0 (startVec n) 1
      = .nan := by
    unfold loop
    dsimp only
    rw [if_neg one_ne_zero, norm_zero, if_neg (by rw [sub_zero, abs_one, abs_zero, max_eq_left zero_le_one]; linarith)]
    unfold loop
    simp
  rw [this]

/-- The eigenvalue returned as the largest is the largest magnitude: on minus the identity it is `1`, and the only
eigenvalue is `-1`. -/
theorem C69_negative_counterexample (min max tol : ℝ) (ht : 0 < tol) (m : ℕ) (hm : 1 ≤ m) :
    ∃ a', (Algo.new min max 1 m tol).run (fun x => -x) = .ok a' ∧ a'.largest_eigen_value = 1 := by
  obtain ⟨m, rfl⟩ : ∃ f, m = f + 1 := ⟨m - 1, by omega⟩
  have hn := startVec_norm 1 (by norm_num)
  have hl := loop_stop (f := fun x => -x) ht (x := startVec 1) (by rw [hn]; exact one_ne_zero)
    (by rw [hn, inv_one, one_smul, norm_neg, hn]) m
  unfold Algo.run Algo.new
  dsimp only
  rw [if_neg (not_not.mpr hm), if_neg (not_not.mpr ht), hl]
  exact ⟨_, rfl, hn⟩

/-- The first iteration is compared to the norm of the start, which is no estimate: from the start `(1, 1)`, the matrix
`diag(0, 2)` gives `√2` at once, although the start is not orthogonal to the eigenvector of the largest eigenvalue
`2`. -/
theorem C69_early_counterexample :
    ∃ (A : EuclideanSpace ℝ (Fin 2) → EuclideanSpace ℝ (Fin 2)) (x : EuclideanSpace ℝ (Fin 2)),
      (∀ p q, A (WithLp.toLp 2 ![p, q]) = WithLp.toLp 2 ![0, 2 * q]) ∧ x = WithLp.toLp 2 ![1, 1] ∧
      ∀ (a : Algo (EuclideanSpace ℝ (Fin 2))), 0 < a.rel_tol → 1 ≤ a.max_it →
        ∃ a', a.runFrom A x = .ok a' ∧ a'.largest_eigen_value = √2 ∧ a'.it = 0 := by
  refine ⟨fun v => WithLp.toLp 2 ![0, 2 * v 1], WithLp.toLp 2 ![1, 1], fun p q => by simp, rfl, ?_⟩
  intro a ht hm
  obtain ⟨m, hm'⟩ : ∃ f, a.max_it = f + 1 := ⟨a.max_it - 1, by omega⟩
  have h2 : (0 : ℝ) < √2 := Real.sqrt_pos.mpr (by norm_num)
  have hn : ‖(WithLp.toLp 2 ![1, 1] : EuclideanSpace ℝ (Fin 2))‖ = √2 := by
    rw [EuclideanSpace.norm_eq]
    simp [Fin.sum_univ_two]
    norm_num
  have hf : ‖(WithLp.toLp 2 ![0, 2 * ((√2)⁻¹ • (WithLp.toLp 2 ![1, 1] : EuclideanSpace ℝ (Fin 2))) 1]
      : EuclideanSpace ℝ (Fin 2))‖ = √2 := by
    rw [EuclideanSpace.norm_eq]
    simp [Fin.sum_univ_two]
    rw [mul_inv_eq_iff_eq_mul₀ h2.ne', Real.mul_self_sqrt (by norm_num)]
  have hl := loop_stop (f := fun v : EuclideanSpace ℝ (Fin 2) => (WithLp.toLp 2 ![0, 2 * v 1] : EuclideanSpace ℝ (Fin 2)))
    ht (x := WithLp.toLp 2 ![1, 1]) (by rw [hn]; exact h2.ne') (by rw [hn]; exact hf) m
  unfold Algo.runFrom Algo.run
  dsimp only
  rw [if_neg (not_not.mpr hm), if_neg (not_not.mpr ht), hm', hl]
  exact ⟨_, rfl, hn, rfl⟩

/-- The lowest eigenvalue found can lie below the whole spectrum: with the estimates `(1, 0)` and `(0, 2)` of the
eigenvectors of `diag(1, 3)`, `run` finds `1` as the largest and `lowest` finds `-1`. -/
theorem C69_below_counterexample :
    ∃ (A : EuclideanSpace ℝ (Fin 2) → EuclideanSpace ℝ (Fin 2)),
      (∀ p q, A (WithLp.toLp 2 ![p, q]) = WithLp.toLp 2 ![p, 3 * q]) ∧
      ∀ (a : Algo (EuclideanSpace ℝ (Fin 2))), 0 < a.rel_tol → 1 ≤ a.max_it →
        ∃ a', a.lowestFrom A (WithLp.toLp 2 ![1, 0]) (WithLp.toLp 2 ![0, 2]) true = .ok a' ∧
          a'.lowest_eigen_value = -1 := by
  let A : EuclideanSpace ℝ (Fin 2) → EuclideanSpace ℝ (Fin 2) := fun v => WithLp.toLp 2 ![v 0, 3 * v 1]
  refine ⟨A, fun p q => by simp [A], ?_⟩
  intro a ht hm
  obtain ⟨m, hm'⟩ : ∃ f, a.max_it = f + 1 := ⟨a.max_it - 1, by omega⟩
  have n1 : ‖(WithLp.toLp 2 ![1, 0] : EuclideanSpace ℝ (Fin 2))‖ = 1 := by
    rw [EuclideanSpace.norm_eq]; simp [Fin.sum_univ_two]
  have n2 : ‖(WithLp.toLp 2 ![0, 2] : EuclideanSpace ℝ (Fin 2))‖ = 2 := by
    rw [EuclideanSpace.norm_eq]; simp [Fin.sum_univ_two]
  have f1 : A (WithLp.toLp 2 ![1, 0]) = WithLp.toLp 2 ![1, 0] := by
    ext i; fin_cases i <;> simp [A]
  have f2 : A ((2 : ℝ)⁻¹ • (WithLp.toLp 2 ![0, 2] : EuclideanSpace ℝ (Fin 2)))
      - (1 : ℝ) • (2 : ℝ)⁻¹ • (WithLp.toLp 2 ![0, 2] : EuclideanSpace ℝ (Fin 2)) = WithLp.toLp 2 ![0, 2] := by
    ext i; fin_cases i <;> simp [A]; norm_num
  have l1 := loop_stop (f := A) ht (x := WithLp.toLp 2 ![1, 0]) (by rw [n1]; exact one_ne_zero)
    (by rw [n1, inv_one, one_smul, f1, n1]) m
  have l2 := loop_stop (f := fun prev => A prev - (1 : ℝ) • prev) ht (x := WithLp.toLp 2 ![0, 2])
    (by rw [n2]; exact two_ne_zero) (by rw [n2, f2, n2]) m
  unfold Algo.lowestFrom Algo.lowest Algo.run
  dsimp only
  rw [if_neg (not_not.mpr hm), if_neg (not_not.mpr ht), if_pos rfl, if_neg (not_not.mpr hm),
    if_neg (not_not.mpr ht), hm', l1]
  simp only [Out.bind, n1]
  rw [l2]
  refine ⟨_, rfl, ?_⟩
  dsimp only
  rw [n2]
  norm_num

/-! ## The hypotheses are met -/

/-- a start that is neither an eigenvector nor sent to zero: `C69_nan` says that `run` returns, then `C69_largest`
applies, with the eigenvalue `3` and its eigenvector -/
example : Ex.A.IsSymmetric ∧
    (∃ a', (⟨WithLp.toLp 2 ![1, 0], WithLp.toLp 2 ![1, 0], 0, 0, 10, 0, 1 / 100⟩
        : Algo (EuclideanSpace ℝ (Fin 2))).run Ex.A = .ok a') ∧
    Ex.A (WithLp.toLp 2 ![1, -1]) = (3 : ℝ) • WithLp.toLp 2 ![1, -1] := by
  refine ⟨Ex.A_symm, ?_, ?_⟩
  · have h := C69_nan Ex.A Ex.A_symm
      (⟨WithLp.toLp 2 ![1, 0], WithLp.toLp 2 ![1, 0], 0, 0, 10, 0, 1 / 100⟩ : Algo (EuclideanSpace ℝ (Fin 2)))
      (by norm_num) (by norm_num) (by norm_num)
    rcases h.2 with hn | ho
    · exfalso
      rcases h.1.mp hn with h0 | ⟨h0, -⟩
      · have := congrFun (congrArg WithLp.ofLp h0) 0
        simp at this
      · rw [Ex.A_apply] at h0
        have := congrFun (congrArg WithLp.ofLp h0) 0
        simp at this
    · exact ho
  · rw [Ex.A_apply]
    ext i
    fin_cases i <;> simp <;> norm_num

/-- the symmetric matrix `diag(1, 3)` -/
noncomputable def Ex.D : EuclideanSpace ℝ (Fin 2) →ₗ[ℝ] EuclideanSpace ℝ (Fin 2) :=
  Matrix.toEuclideanLin !![1, 0; 0, 3]

/-- `C69_lowest_partial` applies to `diag(1, 3)` with the estimates `(0, 3)` and `(2, 0)`: the largest eigenvalue found
is `3`, and the spectrum lies in `[1, 3]` -/
example : Ex.D.IsSymmetric ∧ (∀ u, 1 * ‖u‖ ^ 2 ≤ ⟪u, Ex.D u⟫ ∧ ⟪u, Ex.D u⟫ ≤ 3 * ‖u‖ ^ 2) ∧
    ∃ a', (⟨WithLp.toLp 2 ![0, 3], WithLp.toLp 2 ![2, 0], 0, 0, 10, 0, 1 / 100⟩
        : Algo (EuclideanSpace ℝ (Fin 2))).lowest Ex.D true = .ok a' ∧ 1 + 3 ≤ 2 * a'.largest_eigen_value := by
  have hap : ∀ x y : ℝ, Ex.D (WithLp.toLp 2 ![x, y]) = WithLp.toLp 2 ![x, 3 * y] := by
    intro x y
    ext i
    fin_cases i <;> simp [Ex.D, mul_comm]
  refine ⟨?_, fun u => ?_, ?_⟩
  · unfold Ex.D
    rw [Matrix.isSymmetric_toEuclideanLin_iff]
    ext i j
    fin_cases i <;> fin_cases j <;> simp
  · obtain ⟨x, y, rfl⟩ : ∃ x y : ℝ, u = WithLp.toLp 2 ![x, y] :=
      ⟨u 0, u 1, by ext i; fin_cases i <;> simp⟩
    rw [hap, EuclideanSpace.norm_sq_eq]
    simp only [PiLp.inner_apply, Fin.sum_univ_two]
    simp
    constructor <;> nlinarith [sq_nonneg x, sq_nonneg y]
  · have n1 : ‖(WithLp.toLp 2 ![0, 3] : EuclideanSpace ℝ (Fin 2))‖ = 3 := by
      rw [EuclideanSpace.norm_eq]; simp [Fin.sum_univ_two]
    have n2 : ‖(WithLp.toLp 2 ![2, 0] : EuclideanSpace ℝ (Fin 2))‖ = 2 := by
      rw [EuclideanSpace.norm_eq]; simp [Fin.sum_univ_two]
    have f1 : Ex.D ((3 : ℝ)⁻¹ • WithLp.toLp 2 ![0, 3]) = WithLp.toLp 2 ![0, 3] := by
      rw [map_smul, hap]; ext i; fin_cases i <;> simp
    have f2 : ‖Ex.D ((2 : ℝ)⁻¹ • (WithLp.toLp 2 ![2, 0] : EuclideanSpace ℝ (Fin 2)))
        - (3 : ℝ) • (2 : ℝ)⁻¹ • (WithLp.toLp 2 ![2, 0] : EuclideanSpace ℝ (Fin 2))‖ = 2 := by
      have : Ex.D ((2 : ℝ)⁻¹ • (WithLp.toLp 2 ![2, 0] : EuclideanSpace ℝ (Fin 2)))
        - (3 : ℝ) • (2 : ℝ)⁻¹ • (WithLp.toLp 2 ![2, 0] : EuclideanSpace ℝ (Fin 2)) = -WithLp.toLp 2 ![2, 0] := by
        rw [map_smul, hap]; ext i; fin_cases i <;> simp; norm_num
      rw [this, norm_neg, n2]
    have l1 := loop_stop (f := Ex.D) (tol := 1 / 100) (by norm_num) (x := WithLp.toLp 2 ![0, 3])
      (by rw [n1]; norm_num) (by rw [n1, f1, n1]) 9
    have l2 := loop_stop (f := fun prev => Ex.D prev - (3 : ℝ) • prev) (tol := 1 / 100) (by norm_num)
      (x := WithLp.toLp 2 ![2, 0]) (by rw [n2]; norm_num) (by rw [n2, f2]) 9
    unfold Algo.lowest Algo.run
    dsimp only
    rw [if_neg (by norm_num), if_neg (by norm_num), if_pos rfl, if_neg (by norm_num), if_neg (by norm_num), l1]
    simp only [Out.bind, n1]
    rw [l2]
    exact ⟨_, rfl, by norm_num⟩

end Pin.Eigenvalues
