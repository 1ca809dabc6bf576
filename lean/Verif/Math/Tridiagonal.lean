import Verif.Algo.Data
import Mathlib.Algebra.Field.Basic
import Mathlib.Tactic.FieldSimp
import Mathlib.Tactic.LinearCombination

/-! # `math/tridiagonal-matrix.hpp`

Coefficients are functions of their indices; `conjugate()` is the identity on the scalars modelled. -/

namespace Pin
open Finset
universe u

/-- `TridiagonalSymmetricMatrixTpl`, `tridiagonal-matrix.hpp:154-330`: `m_size`, `m_diagonal`, `m_sub_diagonal` -/
structure Tri (K : Type u) where
  n : ℕ
  diag : ℕ → K
  sub : ℕ → K

namespace Tri
section ring
variable {K : Type u} [CommRing K]

/-- `matrix()`, i.e. `evalTo`, `tridiagonal-matrix.hpp:277-284`: zero, then the first upper diagonal, the main
diagonal and the first lower diagonal. -/
def matrix (T : Tri K) : ℕ → ℕ → K :=
  let R : ℕ → ℕ → K := fun _ _ => 0
  let R : ℕ → ℕ → K := fun r c => if c = r + 1 then T.sub r else R r c
  let R : ℕ → ℕ → K := fun r c => if r = c then T.diag r else R r c
  fun r c => if r = c + 1 then T.sub c else R r c

/-- `T * mat`, `tridiagonal-matrix.hpp:330-349`, for `mat` with `n` rows and `k` columns: `reduced_size` is taken from the
number of columns of `mat`; the block sum has operands of `k - 1` and `n - 1` rows, which Eigen requires to be equal
(assertion, undefined otherwise): outcome `none`. -/
def applyRight (T : Tri K) (k : ℕ) (X : ℕ → ℕ → K) : Option (ℕ → ℕ → K) :=
  let red := k - 1
  if red = T.n - 1 then
    let R : ℕ → ℕ → K := fun r c => T.diag r * X r c
    let R : ℕ → ℕ → K := fun r c => if r < red then R r c + T.sub r * X (r + (T.n - red)) c else R r c
    some fun r c =>
      if T.n - red ≤ r then R r c + T.sub (r - (T.n - red)) * X (r - (T.n - red)) c else R r c
  else none

/-- `mat * T`, `tridiagonal-matrix.hpp:386-405`, for `mat` with `n` columns: `reduced_size = n - 1`. -/
def applyLeft (T : Tri K) (X : ℕ → ℕ → K) : ℕ → ℕ → K :=
  let red := T.n - 1
  let R : ℕ → ℕ → K := fun r c => X r c * T.diag c
  let R : ℕ → ℕ → K := fun r c =>
    if T.n - red ≤ c then R r c + X r (c - (T.n - red)) * T.sub (c - (T.n - red)) else R r c
  fun r c => if c < red then R r c + X r (c + (T.n - red)) * T.sub c else R r c
end ring

section field
variable {K : Type u} [Field K]

/-- the two members computed by the constructor of the inverse: `w = m_sub_diagonal`, `b = m_diagonal` -/
structure Elim (K : Type u) where
  w : ℕ → K
  b : ℕ → K

/-- body of the loop of `TridiagonalSymmetricMatrixInverse::eval`, `tridiagonal-matrix.hpp:513-517` -/
def elimStep (T : Tri K) (i : ℕ) (e : Elim K) : Elim K :=
  let e := { e with w := upd e.w (i - 1) (e.w (i - 1) / e.b (i - 1)) }
  { e with b := upd e.b i (e.b i - e.w (i - 1) * T.sub (i - 1)) }

/-- `TridiagonalSymmetricMatrixInverse::eval`, `tridiagonal-matrix.hpp:513-525` -/
def elim (T : Tri K) : Elim K := fwd T.elimStep T.n ⟨T.sub, T.diag⟩

/-- backward sweep, `tridiagonal-matrix.hpp:478-484` and `561-567`. The loop index of the code is `i - 1` here. -/
def backStep (T : Tri K) (e : Elim K) (i : ℕ) (R : ℕ → ℕ → K) : ℕ → ℕ → K :=
  let R := upd R (i - 1) (fun c => R (i - 1) c - T.sub (i - 1) * R i c)
  upd R (i - 1) (fun c => R (i - 1) c / e.b (i - 1))

/-- `row(size - 1) /= b[size - 1]`, then the backward sweep -/
def back (T : Tri K) (e : Elim K) (R : ℕ → ℕ → K) : ℕ → ℕ → K :=
  bwd (T.backStep e) T.n (upd R (T.n - 1) (fun c => R (T.n - 1) c / e.b (T.n - 1)))

/-- `T.inverse() * mat`, `tridiagonal-matrix.hpp:537-568` -/
def solve (T : Tri K) (X : ℕ → ℕ → K) : ℕ → ℕ → K :=
  T.back T.elim (fwd (fun i R => upd R i (fun c => R i c - T.elim.w (i - 1) * R (i - 1) c)) T.n X)

/-- `T.inverse()` evaluated to a matrix, `tridiagonal-matrix.hpp:456-485`: the forward sweep on the identity only
touches the first `i` columns of row `i`. -/
def inverse (T : Tri K) : ℕ → ℕ → K :=
  T.back T.elim (fwd (fun i R => upd R i (fun c => if c < i then R i c - T.elim.w (i - 1) * R (i - 1) c else R i c)) T.n
    (fun r c => if r = c then 1 else 0))

/-! ## lemmas -/

theorem elim_spec (T : Tri K) (hn : 1 ≤ T.n) :
    T.elim.b 0 = T.diag 0 ∧ ∀ i, 1 ≤ i → i < T.n →
      T.elim.w (i - 1) = T.sub (i - 1) / T.elim.b (i - 1) ∧
      T.elim.b i = T.diag i - T.elim.w (i - 1) * T.sub (i - 1) := by
  have := fwd_ind (step := T.elimStep) (n := T.n) (d := (⟨T.sub, T.diag⟩ : Elim K))
    (fun k (e : Elim K) => (∀ r, k ≤ r → e.b r = T.diag r) ∧ (∀ r, k ≤ r + 1 → e.w r = T.sub r) ∧
      e.b 0 = T.diag 0 ∧ ∀ i, 1 ≤ i → i < k → e.w (i - 1) = T.sub (i - 1) / e.b (i - 1) ∧
      e.b i = T.diag i - e.w (i - 1) * T.sub (i - 1)) hn
    ⟨fun _ _ => rfl, fun _ _ => rfl, rfl, fun i h1 h2 => by omega⟩ ?_
  · exact this.2.2
  · rintro i e h1 hi ⟨hb, hw, h0, h⟩
    simp only [elimStep]
    refine ⟨fun r hr => ?_, fun r hr => ?_, ?_, fun j hj1 hj => ?_⟩
    · rw [upd_ne _ _ (by omega)]; exact hb r (by omega)
    · rw [upd_ne _ _ (by omega)]; exact hw r (by omega)
    · rw [upd_ne _ _ (by omega)]; exact h0
    · rcases Nat.lt_succ_iff_lt_or_eq.1 hj with hj | rfl
      · rw [upd_ne _ _ (show j - 1 ≠ i - 1 by omega), upd_ne _ _ (show j - 1 ≠ i by omega),
          upd_ne _ _ (show j ≠ i by omega)]
        exact h j hj1 hj
      · rw [upd_self, upd_self, upd_ne _ _ (show j - 1 ≠ j by omega), hw _ (by omega), hb _ (le_refl _)]
        exact ⟨rfl, rfl⟩

/-- the rows after the forward sweep -/
theorem fwd_sweep (w : ℕ → K) {n : ℕ} (hn : 1 ≤ n) (X : ℕ → ℕ → K) :
    let Y := fwd (fun i (R : ℕ → ℕ → K) => upd R i (fun c => R i c - w (i - 1) * R (i - 1) c)) n X
    Y 0 = X 0 ∧ ∀ i, 1 ≤ i → i < n → ∀ c, Y i c = X i c - w (i - 1) * Y (i - 1) c := by
  have := fwd_ind (step := fun i (R : ℕ → ℕ → K) => upd R i (fun c => R i c - w (i - 1) * R (i - 1) c)) (n := n) (d := X)
    (fun k Y => (∀ r, k ≤ r → Y r = X r) ∧ Y 0 = X 0 ∧ ∀ i, 1 ≤ i → i < k → ∀ c,
      Y i c = X i c - w (i - 1) * Y (i - 1) c) hn
    ⟨fun _ _ => rfl, rfl, fun i h1 h2 => by omega⟩ ?_
  · exact this.2
  · rintro i Y h1 hi ⟨hy, h0, h⟩
    refine ⟨fun r hr => ?_, ?_, fun j hj1 hj c => ?_⟩
    · rw [upd_ne _ _ (by omega)]; exact hy r (by omega)
    · rw [upd_ne _ _ (by omega)]; exact h0
    · rw [upd_ne _ _ (show j - 1 ≠ i by omega)]
      rcases Nat.lt_succ_iff_lt_or_eq.1 hj with hj | rfl
      · rw [upd_ne _ _ (show j ≠ i by omega)]; exact h j hj1 hj c
      · rw [upd_self, hy _ (le_refl _)]

/-- the rows after the backward sweep -/
theorem back_spec (T : Tri K) (e : Elim K) (hn : 1 ≤ T.n) (hb : ∀ i < T.n, e.b i ≠ 0) (Y : ℕ → ℕ → K) (c : ℕ) :
    e.b (T.n - 1) * T.back e Y (T.n - 1) c = Y (T.n - 1) c ∧
    ∀ i, i + 1 < T.n → e.b i * T.back e Y i c + T.sub i * T.back e Y (i + 1) c = Y i c := by
  have := bwd_ind (step := T.backStep e) (n := T.n)
    (d := upd Y (T.n - 1) (fun c => Y (T.n - 1) c / e.b (T.n - 1)))
    (fun k Z => (∀ r, r + 1 < k → Z r = Y r) ∧ e.b (T.n - 1) * Z (T.n - 1) c = Y (T.n - 1) c ∧
      ∀ i, k ≤ i + 1 → i + 1 < T.n → e.b i * Z i c + T.sub i * Z (i + 1) c = Y i c) hn
    ⟨fun r hr => by rw [upd_ne _ _ (by omega)], by rw [upd_self, mul_div_cancel₀ _ (hb _ (by omega))],
      fun i h1 h2 => by omega⟩ ?_
  · exact ⟨this.2.1, fun i hi => this.2.2 i (by omega) hi⟩
  · rintro i Z h1 hi ⟨hz, hl, h⟩
    simp only [backStep]
    refine ⟨fun r hr => ?_, ?_, fun j hj1 hj => ?_⟩
    · rw [upd_ne _ _ (by omega), upd_ne _ _ (by omega)]; exact hz r (by omega)
    · rw [upd_ne _ _ (by omega), upd_ne _ _ (by omega)]; exact hl
    · rcases Nat.eq_or_lt_of_le hj1 with hj1 | hj1
      · have hji : j = i - 1 := by omega
        subst hji
        rw [upd_self, upd_self, upd_ne _ _ (by omega), upd_ne _ _ (by omega), Nat.sub_add_cancel h1,
          mul_div_cancel₀ _ (hb _ (by omega)), hz _ (by omega)]
        ring
      · rw [upd_ne _ _ (show j ≠ i - 1 by omega), upd_ne _ _ (show j ≠ i - 1 by omega),
          upd_ne _ _ (show j + 1 ≠ i - 1 by omega), upd_ne _ _ (show j + 1 ≠ i - 1 by omega)]
        exact h j (by omega) hj

/-- a row of the dense matrix has at most three non-zero entries -/
theorem sum_matrix (T : Tri K) (r : ℕ) (hr : r < T.n) (x : ℕ → K) :
    ∑ j ∈ range T.n, T.matrix r j * x j =
      (if 1 ≤ r then T.sub (r - 1) * x (r - 1) else 0) + T.diag r * x r +
        (if r + 1 < T.n then T.sub r * x (r + 1) else 0) := by
  have : ∀ j, T.matrix r j * x j = (if r = j + 1 then T.sub j * x j else 0) + (if r = j then T.diag r * x j else 0) +
      (if j = r + 1 then T.sub r * x j else 0) := by
    intro j
    simp only [matrix]
    by_cases h1 : r = j + 1
    · subst h1
      rw [if_pos rfl, if_pos rfl, if_neg (by omega), if_neg (by omega), add_zero, add_zero]
    · rw [if_neg h1, if_neg h1]
      by_cases h2 : r = j
      · subst h2
        rw [if_pos rfl, if_pos rfl, if_neg (by omega), zero_add, add_zero]
      · rw [if_neg h2, if_neg h2]
        by_cases h3 : j = r + 1
        · rw [if_pos h3, if_pos h3, zero_add, zero_add]
        · rw [if_neg h3, if_neg h3]; ring
  simp only [this]
  rw [sum_add_distrib, sum_add_distrib]
  congr 1
  · congr 1
    · by_cases h : 1 ≤ r
      · rw [if_pos h, sum_eq_single (r - 1)]
        · rw [if_pos (by omega)]
        · intro j _ hj; rw [if_neg (by omega)]
        · intro hj; exact absurd (mem_range.2 (by omega)) hj
      · rw [if_neg h]
        exact sum_eq_zero fun j _ => if_neg (by omega)
    · rw [sum_eq_single r]
      · rw [if_pos rfl]
      · intro j _ hj; rw [if_neg (by omega)]
      · intro hj; exact absurd (mem_range.2 hr) hj
  · by_cases h : r + 1 < T.n
    · rw [if_pos h, sum_eq_single (r + 1)]
      · rw [if_pos rfl]
      · intro j _ hj; rw [if_neg (by omega)]
      · intro hj; exact absurd (mem_range.2 h) hj
    · rw [if_neg h]
      exact sum_eq_zero fun j hj => if_neg (by have := mem_range.1 hj; omega)

/-- the matrix is symmetric -/
theorem matrix_symm (T : Tri K) (r c : ℕ) : T.matrix r c = T.matrix c r := by
  simp only [matrix]
  rcases lt_trichotomy r c with h | h | h
  · rw [if_neg (by omega), if_neg (by omega)]
    by_cases h1 : c = r + 1
    · rw [if_pos h1, if_pos h1]
    · rw [if_neg h1, if_neg h1, if_neg (by omega), if_neg (by omega)]
  · subst h; rfl
  · have n1 : ¬ c = r + 1 := by omega
    have n2 : ¬ c = r := by omega
    have n3 : ¬ r = c := by omega
    simp only [n1, n2, n3, if_false]

/-- what the two sweeps solve -/
theorem solve_of_sweeps (T : Tri K) (hn : 1 ≤ T.n) (hb : ∀ i < T.n, T.elim.b i ≠ 0) (X Y : ℕ → ℕ → K)
    (h0 : Y 0 = X 0) (h : ∀ i, 1 ≤ i → i < T.n → ∀ c, Y i c = X i c - T.elim.w (i - 1) * Y (i - 1) c)
    (r : ℕ) (hr : r < T.n) (c : ℕ) :
    ∑ j ∈ range T.n, T.matrix r j * T.back T.elim Y j c = X r c := by
  obtain ⟨e0, es⟩ := T.elim_spec hn
  obtain ⟨b1, b2⟩ := T.back_spec T.elim hn hb Y c
  rw [T.sum_matrix r hr]
  -- `Y r = b r * Z r + c r * Z (r + 1)`
  have hY : ∀ i < T.n, T.elim.b i * T.back T.elim Y i c +
      (if i + 1 < T.n then T.sub i * T.back T.elim Y (i + 1) c else 0) = Y i c := by
    intro i hi
    by_cases hi' : i + 1 < T.n
    · rw [if_pos hi']; exact b2 i hi'
    · rw [if_neg hi', add_zero]
      have : i = T.n - 1 := by omega
      subst this; exact b1
  have hr1 := hY r hr
  by_cases h1 : 1 ≤ r
  · rw [if_pos h1]
    have hr2 := hY (r - 1) (by omega)
    rw [if_pos (by omega), Nat.sub_add_cancel h1] at hr2
    obtain ⟨ew, eb⟩ := es r h1 hr
    have hw : T.elim.w (r - 1) * T.elim.b (r - 1) = T.sub (r - 1) := by
      rw [ew, div_mul_cancel₀ _ (hb _ (by omega))]
    have hh := h r h1 hr c
    linear_combination hr1 + T.elim.w (r - 1) * hr2 + hh - T.back T.elim Y r c * eb - T.back T.elim Y (r - 1) c * hw
  · have : r = 0 := by omega
    subst this
    rw [if_neg h1, zero_add, ← e0, hr1, h0]

/-- the forward sweep on the identity, limited to the first columns -/
theorem fwd_sweep_one (w : ℕ → K) {n : ℕ} (hn : 1 ≤ n) :
    let X : ℕ → ℕ → K := fun r c => if r = c then 1 else 0
    let Y := fwd (fun i (R : ℕ → ℕ → K) => upd R i
      (fun c => if c < i then R i c - w (i - 1) * R (i - 1) c else R i c)) n X
    Y 0 = X 0 ∧ ∀ i, 1 ≤ i → i < n → ∀ c, Y i c = X i c - w (i - 1) * Y (i - 1) c := by
  intro X
  have := fwd_ind (step := fun i (R : ℕ → ℕ → K) => upd R i
      (fun c => if c < i then R i c - w (i - 1) * R (i - 1) c else R i c)) (n := n) (d := X)
    (fun k Y => (∀ r, k ≤ r → Y r = X r) ∧ Y 0 = X 0 ∧ (∀ r, r < k → ∀ c, r < c → Y r c = 0) ∧
      ∀ i, 1 ≤ i → i < k → ∀ c, Y i c = X i c - w (i - 1) * Y (i - 1) c) hn
    ⟨fun _ _ => rfl, rfl, fun r h1 c h2 => if_neg (by omega), fun i h1 h2 => by omega⟩ ?_
  · exact ⟨this.2.1, this.2.2.2⟩
  · rintro i Y h1 hi ⟨hy, h0, hu, h⟩
    refine ⟨fun r hr => ?_, ?_, fun r hr c hc => ?_, fun j hj1 hj c => ?_⟩
    · rw [upd_ne _ _ (by omega)]; exact hy r (by omega)
    · rw [upd_ne _ _ (by omega)]; exact h0
    · rcases Nat.lt_succ_iff_lt_or_eq.1 hr with hr | rfl
      · rw [upd_ne _ _ (by omega)]; exact hu r hr c hc
      · rw [upd_self, if_neg (by omega), hy _ (le_refl _)]; exact if_neg (by omega)
    · rw [upd_ne _ _ (show j - 1 ≠ i by omega)]
      rcases Nat.lt_succ_iff_lt_or_eq.1 hj with hj | rfl
      · rw [upd_ne _ _ (show j ≠ i by omega)]; exact h j hj1 hj c
      · rw [upd_self, hy _ (le_refl _)]
        split
        · rfl
        · rw [hu (j - 1) (by omega) c (by omega), mul_zero, sub_zero]

/-- `x` with `x i = 1`, `x j + w j * x (j + 1) = 0` below `i`, and zero above -/
def probe (w : ℕ → K) (i : ℕ) (j : ℕ) : K :=
  if j ≤ i then Nat.rec 1 (fun k g => - w (i - (k + 1)) * g) (i - j) else 0

theorem probe_self (w : ℕ → K) (i : ℕ) : probe w i i = 1 := by simp [probe]
theorem probe_gt (w : ℕ → K) {i j : ℕ} (h : i < j) : probe w i j = 0 := by
  rw [probe, if_neg (by omega)]
theorem probe_lt (w : ℕ → K) {i j : ℕ} (h : j < i) : probe w i j = - w j * probe w i (j + 1) := by
  rw [probe, if_pos (by omega), probe, if_pos (by omega)]
  have : i - j = (i - (j + 1)) + 1 := by omega
  rw [this]
  have hj : i - (i - (j + 1) + 1) = j := by omega
  simp only [hj]

theorem probe_form (T : Tri K) {i : ℕ} (hi : i < T.n) (hb : ∀ j < i, T.elim.b j ≠ 0) :
    ∑ r ∈ range T.n, probe T.elim.w i r * ∑ c ∈ range T.n, T.matrix r c * probe T.elim.w i c = T.elim.b i := by
  obtain ⟨e0, es⟩ := T.elim_spec (by omega)
  rw [sum_eq_single i]
  · rw [probe_self, one_mul, T.sum_matrix i hi, probe_self, probe_gt _ (show i < i + 1 by omega)]
    by_cases h1 : 1 ≤ i
    · obtain ⟨ew, eb⟩ := es i h1 hi
      rw [if_pos h1, probe_lt _ (show i - 1 < i by omega), Nat.sub_add_cancel h1, probe_self, eb]
      split <;> ring
    · have : i = 0 := by omega
      subst this
      rw [if_neg h1, e0]; split <;> ring
  · intro r hr hri
    have hr := mem_range.1 hr
    by_cases h : i < r
    · rw [probe_gt _ h, zero_mul]
    · have h : r < i := by omega
      rw [T.sum_matrix r hr, if_pos (show r + 1 < T.n by omega)]
      obtain ⟨ew', eb'⟩ := es (r + 1) (by omega) (by omega)
      rw [Nat.add_sub_cancel] at ew' eb'
      have hc : T.elim.w r * T.elim.b r = T.sub r := by rw [ew', div_mul_cancel₀ _ (hb _ h)]
      have hp := probe_lt T.elim.w h
      by_cases h1 : 1 ≤ r
      · obtain ⟨ew, eb⟩ := es r h1 hr
        have hp' := probe_lt T.elim.w (show r - 1 < i by omega)
        rw [Nat.sub_add_cancel h1] at hp'
        rw [if_pos h1]
        linear_combination probe T.elim.w i r * (T.sub (r - 1) * hp' - probe T.elim.w i r * eb + T.elim.b r * hp
          - probe T.elim.w i (r + 1) * hc)
      · have : r = 0 := by omega
        subst this
        rw [if_neg h1, ← e0]
        linear_combination probe T.elim.w i 0 * (T.elim.b 0 * hp - probe T.elim.w i (0 + 1) * hc)
  · intro h; exact absurd (mem_range.2 hi) h

end field
end Tri
end Pin
