import Verif.Math.Eigenvalues
import Mathlib.Tactic.Ring
import Mathlib.Tactic.Linarith
import Mathlib.Tactic.FieldSimp
import Mathlib.Tactic.Positivity

/-! # Lemmas about power iterations -/

namespace Pin.Eigenvalues
open scoped RealInnerProductSpace
variable {V : Type*} [NormedAddCommGroup V] [InnerProductSpace ℝ V]

theorem norm_normalize {x : V} (h : ‖x‖ ≠ 0) : ‖‖x‖⁻¹ • x‖ = 1 := by
  rw [norm_smul, norm_inv, norm_norm, inv_mul_cancel₀ h]

/-- the image of the normalised image is at least as long -/
theorem grows {A : V →ₗ[ℝ] V} (hA : A.IsSymmetric) {u : V} (hu : ‖u‖ = 1) :
    ‖A u‖ ^ 2 ≤ ‖A (A u)‖ := by
  have h1 : ⟪A u, A u⟫ = ⟪u, A (A u)⟫ := hA u (A u)
  have h2 : ⟪A u, A u⟫ = ‖A u‖ ^ 2 := real_inner_self_eq_norm_sq _
  have h3 := real_inner_le_norm u (A (A u))
  rw [hu, one_mul, ← h1, h2] at h3
  exact h3

theorem grows' {A : V →ₗ[ℝ] V} (hA : A.IsSymmetric) {u : V} (hu : ‖u‖ = 1) (h0 : ‖A u‖ ≠ 0) :
    ‖A u‖ ≤ ‖A (‖A u‖⁻¹ • A u)‖ := by
  have hp : 0 < ‖A u‖ := lt_of_le_of_ne (norm_nonneg _) (Ne.symm h0)
  rw [map_smul, norm_smul, norm_inv, norm_norm, inv_mul_eq_div, le_div_iff₀ hp, ← sq]
  exact grows hA hu

theorem norm_step {A : V →ₗ[ℝ] V} {y : V} (h0 : ‖y‖ ≠ 0) (k : ℕ) :
    ‖(A ^ k) y‖ = ‖y‖ * ‖(A ^ k) (‖y‖⁻¹ • y)‖ := by
  rw [map_smul, norm_smul, norm_inv, norm_norm, mul_inv_cancel_left₀ h0]

theorem loop_spec {A : V →ₗ[ℝ] V} (hA : A.IsSymmetric) (tol : ℝ) (fuel : ℕ) : ∀ (it : ℕ) (u : V), ‖u‖ = 1 →
    ∀ y' e' it', loop A tol fuel it (A u) ‖A u‖ = .ok (y', e', it') →
    (∃ u', ‖u'‖ = 1 ∧ y' = A u') ∧ e' = ‖y'‖ ∧ ‖A u‖ ≤ e' ∧ it ≤ it' ∧
      ‖(A ^ (min (it' - it + 1) fuel + 1)) u‖ ≤ e' ^ (min (it' - it + 1) fuel + 1) := by
  induction fuel with
  | zero =>
    intro it u hu y' e' it' h
    simp only [loop, Out.ok.injEq, Prod.mk.injEq] at h
    obtain ⟨rfl, rfl, rfl⟩ := h
    exact ⟨⟨u, hu, rfl⟩, rfl, le_rfl, le_rfl, by simp⟩
  | succ fuel ih =>
    intro it u hu y' e' it' h
    unfold loop at h
    dsimp only at h
    split at h
    · cases h
    · rename_i h0
      have hg := grows' hA hu h0
      have hn := norm_normalize h0
      have hp : 0 ≤ ‖A u‖ := norm_nonneg _
      split at h
      · simp only [Out.ok.injEq, Prod.mk.injEq] at h
        obtain ⟨rfl, rfl, rfl⟩ := h
        refine ⟨⟨_, hn, rfl⟩, rfl, hg, le_rfl, ?_⟩
        have : min (it - it + 1) (fuel + 1) = 1 := by omega
        rw [this]
        have e : (A ^ (1 + 1)) u = (A ^ 1) (A u) := by simp [pow_succ]
        rw [e, norm_step h0 1, pow_one, sq]
        exact mul_le_mul_of_nonneg_right hg (norm_nonneg _)
      · obtain ⟨h1, h2, h3, h4, h5⟩ := ih (it + 1) _ hn y' e' it' h
        refine ⟨h1, h2, hg.trans h3, by omega, ?_⟩
        have hk : min (it' - it + 1) (fuel + 1) = min (it' - (it + 1) + 1) fuel + 1 := by omega
        rw [hk]
        generalize min (it' - (it + 1) + 1) fuel + 1 = k at h5 ⊢
        have e : (A ^ (k + 1)) u = (A ^ k) (A u) := by rw [pow_succ]; rfl
        rw [e, norm_step h0 k, pow_succ']
        exact mul_le_mul (hg.trans h3) h5 (norm_nonneg _) (hp.trans (hg.trans h3))

/-- the loop from any start -/
theorem loop_start {A : V →ₗ[ℝ] V} (hA : A.IsSymmetric) (tol : ℝ) (fuel : ℕ) (hf : 1 ≤ fuel) (x : V)
    {y' : V} {e' : ℝ} {it' : ℕ} (h : loop A tol fuel 0 x ‖x‖ = .ok (y', e', it')) :
    ‖x‖ ≠ 0 ∧ (∃ u', ‖u'‖ = 1 ∧ y' = A u') ∧ e' = ‖y'‖ ∧ ‖A x‖ ≤ e' * ‖x‖ ∧
      ‖(A ^ (min (it' + 1) fuel)) x‖ ≤ e' ^ (min (it' + 1) fuel) * ‖x‖ := by
  obtain ⟨fuel, rfl⟩ : ∃ f, fuel = f + 1 := ⟨fuel - 1, by omega⟩
  unfold loop at h
  dsimp only at h
  split at h
  · cases h
  · rename_i h0
    have hn := norm_normalize h0
    have e1 : ‖A x‖ = ‖A (‖x‖⁻¹ • x)‖ * ‖x‖ := by
      have := norm_step (A := A) h0 1
      rw [pow_one] at this
      rw [this, mul_comm]
    split at h
    · simp only [Out.ok.injEq, Prod.mk.injEq] at h
      obtain ⟨rfl, rfl, rfl⟩ := h
      refine ⟨h0, ⟨_, hn, rfl⟩, rfl, e1.le, ?_⟩
      have : min (0 + 1) (fuel + 1) = 1 := by omega
      rw [this, pow_one, pow_one]
      exact e1.le
    · obtain ⟨h1, h2, h3, h4, h5⟩ := loop_spec hA tol fuel 1 _ hn y' e' it' h
      refine ⟨h0, h1, h2, ?_, ?_⟩
      · rw [e1]
        exact mul_le_mul_of_nonneg_right h3 (norm_nonneg _)
      · have hk : min (it' + 1) (fuel + 1) = min (it' - 1 + 1) fuel + 1 := by omega
        rw [hk, norm_step h0, mul_comm]
        exact mul_le_mul_of_nonneg_right h5 (norm_nonneg _)

/-- a symmetric matrix is as large as its quadratic form -/
theorem norm_le_of_form {A : V →ₗ[ℝ] V} (hA : A.IsSymmetric) {L : ℝ} (hL : ∀ u, |⟪u, A u⟫| ≤ L * ‖u‖ ^ 2) (u : V) :
    ‖A u‖ ≤ L * ‖u‖ := by
  rcases eq_or_ne u 0 with rfl | hu
  · simp
  have hu' : 0 < ‖u‖ := norm_pos_iff.mpr hu
  rcases eq_or_ne (A u) 0 with h0 | h0
  · rw [h0, norm_zero]
    have := (abs_nonneg _).trans (hL u)
    have h2 : 0 ≤ L := by
      by_contra hc
      have : L * ‖u‖ ^ 2 < 0 := mul_neg_of_neg_of_pos (not_le.mp hc) (by positivity)
      linarith
    positivity
  have hb : 0 < ‖A u‖ := norm_pos_iff.mpr h0
  have key : ∀ v : V, 4 * ⟪A u, v⟫ ≤ 2 * L * (‖u‖ ^ 2 + ‖v‖ ^ 2) := by
    intro v
    have hp := (abs_le.mp (hL (u + v))).2
    have hm := (abs_le.mp (hL (u - v))).1
    have e1 : ⟪u + v, A (u + v)⟫ - ⟪u - v, A (u - v)⟫ = 4 * ⟪A u, v⟫ := by
      have hs : ⟪u, A v⟫ = ⟪A u, v⟫ := (hA u v).symm
      have hs' : ⟪v, A u⟫ = ⟪A u, v⟫ := real_inner_comm _ _
      simp only [map_add, map_sub, inner_add_left, inner_add_right, inner_sub_left, inner_sub_right, hs, hs']
      ring
    have e2 := parallelogram_law_with_norm ℝ u v
    have e3 : ‖u + v‖ ^ 2 + ‖u - v‖ ^ 2 = 2 * (‖u‖ ^ 2 + ‖v‖ ^ 2) := by
      simp only [sq]; linarith
    have e4 : L * ‖u + v‖ ^ 2 + L * ‖u - v‖ ^ 2 = L * (2 * (‖u‖ ^ 2 + ‖v‖ ^ 2)) := by rw [← e3]; ring
    linarith
  have k := key ((‖u‖ / ‖A u‖) • A u)
  rw [inner_smul_right, real_inner_self_eq_norm_sq, norm_smul, Real.norm_eq_abs,
    abs_of_nonneg (by positivity), div_mul_cancel₀ _ hb.ne'] at k
  have e : ‖u‖ / ‖A u‖ * ‖A u‖ ^ 2 = ‖u‖ * ‖A u‖ := by field_simp
  rw [e] at k
  have : ‖u‖ * ‖A u‖ ≤ ‖u‖ * (L * ‖u‖) := by nlinarith
  exact le_of_mul_le_mul_left this hu'

theorem pow_eigen {A : V →ₗ[ℝ] V} {l : ℝ} {e : V} (he : A e = l • e) (k : ℕ) : (A ^ k) e = l ^ k • e := by
  induction k with
  | zero => simp
  | succ k ih =>
    rw [pow_succ, Module.End.mul_apply, he, map_smul, ih, smul_smul, pow_succ']

theorem pow_symm {A : V →ₗ[ℝ] V} (hA : A.IsSymmetric) (k : ℕ) : (A ^ k).IsSymmetric := by
  induction k with
  | zero => intro x y; rfl
  | succ k ih =>
    intro x y
    rw [pow_succ, Module.End.mul_apply, ih (A x) y, hA x ((A ^ k) y), ← Module.End.mul_apply, ← pow_succ',
      ← pow_succ]

theorem eigen_le {A : V →ₗ[ℝ] V} (hA : A.IsSymmetric) {l : ℝ} {e : V} (he : A e = l • e) (x : V) (k : ℕ) :
    |l| ^ k * |⟪x, e⟫| ≤ ‖(A ^ k) x‖ * ‖e‖ := by
  have h1 : ⟪(A ^ k) x, e⟫ = l ^ k * ⟪x, e⟫ := by
    rw [pow_symm hA k x e, pow_eigen he, inner_smul_right]
  have h2 := abs_real_inner_le_norm ((A ^ k) x) e
  rw [h1, abs_mul, abs_pow] at h2
  exact h2

/-! ## NaN -/

theorem loop_ne_nan {A : V →ₗ[ℝ] V} (hA : A.IsSymmetric) (tol : ℝ) (fuel : ℕ) : ∀ (it : ℕ) (u : V), ‖u‖ = 1 →
    A u ≠ 0 → ∃ r, loop A tol fuel it (A u) ‖A u‖ = .ok r := by
  induction fuel with
  | zero => intro it u _ _; exact ⟨_, rfl⟩
  | succ fuel ih =>
    intro it u hu h0
    have h0' : ‖A u‖ ≠ 0 := norm_ne_zero_iff.mpr h0
    unfold loop
    dsimp only
    rw [if_neg h0']
    split
    · exact ⟨_, rfl⟩
    · refine ih (it + 1) _ (norm_normalize h0') ?_
      intro hc
      have := grows' hA hu h0'
      rw [hc, norm_zero] at this
      exact h0' (le_antisymm this (norm_nonneg _))

end Pin.Eigenvalues
