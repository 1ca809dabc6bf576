import Verif.LieGroup.Defs
import Mathlib.Analysis.SpecialFunctions.Trigonometric.Angle
import Mathlib.Tactic.IntervalCases

/-! # SO(2) and SE(2) -/

namespace Pin
namespace Lie
open Real

theorem angle_unique {a b : ℝ} (ha : -π < a ∧ a ≤ π) (hb : -π < b ∧ b ≤ π) (hc : cos a = cos b)
    (hs : sin a = sin b) : a = b := by
  have := Real.Angle.cos_sin_inj hc hs
  rw [← Real.Angle.toReal_coe_eq_self_iff.2 ha, ← Real.Angle.toReal_coe_eq_self_iff.2 hb, this]

/-- the SO(2) logarithm of a rotation is its angle, in `(-π, π]` -/
theorem so2Log_spec {c s : ℝ} (h : c * c + s * s = 1) :
    cos (so2Log c (-s) s c) = c ∧ sin (so2Log c (-s) s c) = s ∧
      -π < so2Log c (-s) s c ∧ so2Log c (-s) s c ≤ π := by
  have hc1 : c ≤ 1 := by nlinarith
  have hc2 : -1 ≤ c := by nlinarith
  have hs1 : s ≤ 1 := by nlinarith
  have hs2 : -1 ≤ s := by nlinarith
  have hpi := pi_pos
  unfold so2Log
  dsimp only
  rw [if_neg (by linarith), if_neg (by linarith)]
  by_cases h1 : c + c > 2 - 1 / 100
  · rw [if_pos h1, show (s - -s) / 2 = s by ring]
    refine ⟨?_, sin_arcsin hs2 hs1, ?_, ?_⟩
    · rw [cos_arcsin, show 1 - s ^ 2 = c ^ 2 by nlinarith, sqrt_sq (by linarith)]
    · have := neg_pi_div_two_le_arcsin s; linarith
    · have := arcsin_le_pi_div_two s; linarith
  · rw [if_neg h1, show (c + c) / 2 = c by ring]
    have hsin : sin (arccos c) = |s| := by
      rw [sin_arccos, show 1 - c ^ 2 = s ^ 2 by nlinarith, sqrt_sq_eq_abs]
    by_cases h2 : s ≥ 0
    · rw [if_pos h2]
      refine ⟨cos_arccos hc2 hc1, by rw [hsin, abs_of_nonneg h2], ?_, arccos_le_pi c⟩
      have := arccos_nonneg c; linarith
    · rw [if_neg h2]
      have hs : s < 0 := lt_of_not_ge h2
      refine ⟨by rw [cos_neg, cos_arccos hc2 hc1], by rw [sin_neg, hsin, abs_of_neg hs, neg_neg], ?_, ?_⟩
      · have hne : arccos c ≠ π := by
          intro e
          rw [arccos_eq_pi] at e
          have : c = -1 := le_antisymm e hc2
          subst this
          have : s * s = 0 := by linarith
          have := mul_self_eq_zero.1 this
          linarith
        have := lt_of_le_of_ne (arccos_le_pi c) hne
        linarith
      · have := arccos_nonneg c; linarith

theorem so2Int_unit {q : ℕ → ℝ} (h : q 0 * q 0 + q 1 * q 1 = 1) (v : ℝ) :
    so2Int q v = (cos v * q 0 - sin v * q 1, sin v * q 0 + cos v * q 1) := by
  have hv := sin_sq_add_cos_sq v
  have : (cos v * q 0 - sin v * q 1) * (cos v * q 0 - sin v * q 1) +
      (sin v * q 0 + cos v * q 1) * (sin v * q 0 + cos v * q 1) = 1 := by
    linear_combination (q 0 * q 0 + q 1 * q 1) * hv + h
  unfold so2Int
  dsimp only
  rw [this]
  ext <;> ring

/-- unit-norm error of SO(2) after one step -/
theorem so2Int_norm (q : ℕ → ℝ) (v : ℝ) :
    (so2Int q v).1 * (so2Int q v).1 + (so2Int q v).2 * (so2Int q v).2 =
      (q 0 * q 0 + q 1 * q 1) * ((3 - (q 0 * q 0 + q 1 * q 1)) / 2) ^ 2 := by
  have hv := sin_sq_add_cos_sq v
  have : (cos v * q 0 - sin v * q 1) * (cos v * q 0 - sin v * q 1) +
      (sin v * q 0 + cos v * q 1) * (sin v * q 0 + cos v * q 1) = q 0 * q 0 + q 1 * q 1 := by
    linear_combination (q 0 * q 0 + q 1 * q 1) * hv
  unfold so2Int
  dsimp only
  rw [this]
  linear_combination ((3 - (q 0 * q 0 + q 1 * q 1)) / 2) ^ 2 * this

theorem so2_unit_rel {q0 q1 : ℕ → ℝ} (h0 : q0 0 * q0 0 + q0 1 * q0 1 = 1) (h1 : q1 0 * q1 0 + q1 1 * q1 1 = 1) :
    (q0 0 * q1 0 + q0 1 * q1 1) * (q0 0 * q1 0 + q0 1 * q1 1) +
      (q0 0 * q1 1 - q0 1 * q1 0) * (q0 0 * q1 1 - q0 1 * q1 0) = 1 := by
  linear_combination (q1 0 * q1 0 + q1 1 * q1 1) * h0 + h1

/-- `integrate(q0, difference(q0, q1)) = q1` on SO(2) -/
theorem so2_int_diff {q0 q1 : ℕ → ℝ} (h0 : q0 0 * q0 0 + q0 1 * q0 1 = 1)
    (h1 : q1 0 * q1 0 + q1 1 * q1 1 = 1) : so2Int q0 (so2Diff q0 q1) = (q1 0, q1 1) := by
  obtain ⟨hc, hs, -⟩ := so2Log_spec (so2_unit_rel h0 h1)
  rw [so2Int_unit h0]
  unfold so2Diff
  dsimp only
  rw [hc, hs]
  ext
  · linear_combination q1 0 * h0
  · linear_combination q1 1 * h0

/-- `difference(q, integrate(q, v)) = v` on SO(2) for `-π < v ≤ π` -/
theorem so2_diff_int {q q1 : ℕ → ℝ} (h : q 0 * q 0 + q 1 * q 1 = 1) {v : ℝ} (hv : -π < v ∧ v ≤ π)
    (e0 : q1 0 = (so2Int q v).1) (e1 : q1 1 = (so2Int q v).2) : so2Diff q q1 = v := by
  rw [so2Int_unit h] at e0 e1
  dsimp only at e0 e1
  have hr : q 0 * q1 0 + q 1 * q1 1 = cos v := by rw [e0, e1]; linear_combination cos v * h
  have hr' : q 0 * q1 1 - q 1 * q1 0 = sin v := by rw [e0, e1]; linear_combination sin v * h
  obtain ⟨hc, hs, hl, hu⟩ := so2Log_spec (c := cos v) (s := sin v) (by
    have := sin_sq_add_cos_sq v; linear_combination this)
  unfold so2Diff
  dsimp only
  rw [hr, hr']
  exact angle_unique ⟨hl, hu⟩ hv hc hs

/-! ## SE(2) -/

/-- `exp` undoes `log` on SE(2), when the angle is zero or at least `1e-4` -/
theorem se2Exp_log {c s : ℝ} (h : c * c + s * s = 1) (p0 p1 : ℝ)
    (ht : so2Log c (-s) s c = 0 ∨ 1 / 10 ^ 4 ≤ |so2Log c (-s) s c|) :
    se2Exp (se2Log c (-s) s c p0 p1) = (c, s, p0, p1) := by
  obtain ⟨hc, hs, hl, hu⟩ := so2Log_spec h
  unfold se2Log se2Exp
  generalize so2Log c (-s) s c = t at *
  dsimp only
  simp only [if_neg (show (2 : ℕ) ≠ 0 by omega), if_neg (show (2 : ℕ) ≠ 1 by omega), if_true,
    if_neg (show (1 : ℕ) ≠ 0 by omega), hc, hs]
  rcases ht with rfl | ht
  · have n1 : ¬ (|(0 : ℝ)| > 1 / 10 ^ 14) := by norm_num
    have n2 : |(0 : ℝ)| < 1 / 10 ^ 4 := by norm_num
    simp only [if_neg n1, if_pos n2]
    ext <;> simp
  · have hpos : 0 < |t| := lt_of_lt_of_le (by norm_num) ht
    have htne : t ≠ 0 := abs_pos.1 hpos
    have hbig : |t| > 1 / 10 ^ 14 := lt_of_lt_of_le (by norm_num) ht
    rw [if_pos hbig, if_pos hbig, if_neg (not_lt.2 ht)]
    have hcos : cos |t| = c := by rw [cos_abs, hc]
    have hsin : |t| * sin |t| = t * s := by
      rcases abs_cases t with ⟨e, -⟩ | ⟨e, -⟩ <;> rw [e]
      · rw [hs]
      · rw [sin_neg, hs]; ring
    rw [hcos, hsin]
    have hc1 : 1 - c ≠ 0 := by
      intro e
      have e1 : c = 1 := by linarith
      rw [e1] at hc
      have := (cos_eq_one_iff_of_lt_of_lt (x := t) (by linarith [pi_pos]) (by linarith [pi_pos])).1 hc
      exact htne this
    refine Prod.ext rfl (Prod.ext rfl (Prod.ext ?_ ?_))
    · dsimp only
      field_simp
      linear_combination (p0) * h
    · dsimp only
      field_simp
      linear_combination (p1) * h

/-- `log` undoes `exp` on SE(2), when the angle is zero or between `1e-4` and `π` -/
theorem se2Log_exp {v : ℕ → ℝ} (hv : -π < v 2 ∧ v 2 ≤ π) (ht : v 2 = 0 ∨ 1 / 10 ^ 4 ≤ |v 2|) {k : ℕ} (hk : k < 3) :
    se2Log (se2Exp v).1 (-(se2Exp v).2.1) (se2Exp v).2.1 (se2Exp v).1 (se2Exp v).2.2.1 (se2Exp v).2.2.2 k = v k := by
  have h1 := sin_sq_add_cos_sq (v 2)
  obtain ⟨hc, hs, hl, hu⟩ := so2Log_spec (c := cos (v 2)) (s := sin (v 2)) (by linear_combination h1)
  have e := angle_unique ⟨hl, hu⟩ hv hc hs
  unfold se2Exp se2Log
  dsimp only
  rw [e]
  generalize hv2 : v 2 = t at *
  rcases ht with rfl | ht
  · have n1 : ¬ (|(0 : ℝ)| > 1 / 10 ^ 14) := by norm_num
    have n2 : |(0 : ℝ)| < 1 / 10 ^ 4 := by norm_num
    simp only [if_neg n1, if_pos n2]
    interval_cases k <;> simp [hv2]
  · have hpos : 0 < |t| := lt_of_lt_of_le (by norm_num) ht
    have htne : t ≠ 0 := abs_pos.1 hpos
    have hbig : |t| > 1 / 10 ^ 14 := lt_of_lt_of_le (by norm_num) ht
    simp only [if_pos hbig]
    rw [if_neg (not_lt.2 ht)]
    have hcos : cos |t| = cos t := by rw [cos_abs]
    have hsin : |t| * sin |t| = t * sin t := by
      rcases abs_cases t with ⟨e, -⟩ | ⟨e, -⟩ <;> rw [e]
      rw [sin_neg]; ring
    rw [hcos, hsin]
    have hc1 : 1 - cos t ≠ 0 := by
      intro e
      have e1 : cos t = 1 := by linarith
      have := (cos_eq_one_iff_of_lt_of_lt (x := t) (by linarith [pi_pos]) (by linarith [pi_pos])).1 e1
      exact htne this
    interval_cases k
    · simp only [if_true]
      field_simp
      linear_combination (v 0) * h1
    · simp only [if_true, if_neg (show (1 : ℕ) ≠ 0 by omega)]
      field_simp
      linear_combination (v 1) * h1
    · simp [hv2]

theorem se2Diff_eq (q0 q1 : ℕ → ℝ) : se2Diff q0 q1 =
    se2Log (q0 2 * q1 2 + q0 3 * q1 3) (-(q0 2 * q1 3 - q0 3 * q1 2)) (q0 2 * q1 3 - q0 3 * q1 2)
      (q0 2 * q1 2 + q0 3 * q1 3) (q0 2 * (q1 0 - q0 0) + q0 3 * (q1 1 - q0 1))
      (-q0 3 * (q1 0 - q0 0) + q0 2 * (q1 1 - q0 1)) := by
  unfold se2Diff
  dsimp only
  congr 1 <;> ring

/-- the angle between two SE(2) configurations -/
noncomputable def se2Angle (q0 q1 : ℕ → ℝ) : ℝ :=
  so2Log (q0 2 * q1 2 + q0 3 * q1 3) (-(q0 2 * q1 3 - q0 3 * q1 2)) (q0 2 * q1 3 - q0 3 * q1 2)
      (q0 2 * q1 2 + q0 3 * q1 3)

theorem se2_int_diff {q0 q1 : ℕ → ℝ} (h0 : q0 2 * q0 2 + q0 3 * q0 3 = 1)
    (h1 : q1 2 * q1 2 + q1 3 * q1 3 = 1) (ht : se2Angle q0 q1 = 0 ∨ 1 / 10 ^ 4 ≤ |se2Angle q0 q1|)
    {k : ℕ} (hk : k < 4) : se2Int q0 (se2Diff q0 q1) k = q1 k := by
  have hr : (q0 2 * q1 2 + q0 3 * q1 3) * (q0 2 * q1 2 + q0 3 * q1 3) +
      (q0 2 * q1 3 - q0 3 * q1 2) * (q0 2 * q1 3 - q0 3 * q1 2) = 1 := by
    linear_combination (q1 2 * q1 2 + q1 3 * q1 3) * h0 + h1
  unfold se2Int
  rw [se2Diff_eq, se2Exp_log hr _ _ ht]
  dsimp only
  interval_cases k <;> simp only [if_true, if_neg (show (1 : ℕ) ≠ 0 by omega), if_neg (show (2 : ℕ) ≠ 0 by omega),
    if_neg (show (2 : ℕ) ≠ 1 by omega), if_neg (show (3 : ℕ) ≠ 0 by omega), if_neg (show (3 : ℕ) ≠ 1 by omega),
    if_neg (show (3 : ℕ) ≠ 2 by omega)]
  · linear_combination (q1 0 - q0 0) * h0
  · linear_combination (q1 1 - q0 1) * h0
  · linear_combination q1 2 * h0
  · linear_combination q1 3 * h0

theorem se2_diff_int {q q1 v : ℕ → ℝ} (h : q 2 * q 2 + q 3 * q 3 = 1) (hv : -π < v 2 ∧ v 2 ≤ π)
    (ht : v 2 = 0 ∨ 1 / 10 ^ 4 ≤ |v 2|) (hq : ∀ k, k < 4 → q1 k = se2Int q v k) {k : ℕ} (hk : k < 3) :
    se2Diff q q1 k = v k := by
  have e0 := hq 0 (by omega)
  have e1 := hq 1 (by omega)
  have e2 := hq 2 (by omega)
  have e3 := hq 3 (by omega)
  unfold se2Int at e0 e1 e2 e3
  simp only [if_true, if_neg (show (1 : ℕ) ≠ 0 by omega), if_neg (show (2 : ℕ) ≠ 0 by omega),
    if_neg (show (2 : ℕ) ≠ 1 by omega), if_neg (show (3 : ℕ) ≠ 0 by omega), if_neg (show (3 : ℕ) ≠ 1 by omega),
    if_neg (show (3 : ℕ) ≠ 2 by omega)] at e0 e1 e2 e3
  rw [se2Diff_eq, ← se2Log_exp hv ht hk]
  have a1 : q 2 * q1 2 + q 3 * q1 3 = (se2Exp v).1 := by
    rw [e2, e3]; linear_combination (se2Exp v).1 * h
  have a2 : q 2 * q1 3 - q 3 * q1 2 = (se2Exp v).2.1 := by
    rw [e2, e3]; linear_combination (se2Exp v).2.1 * h
  have a3 : q 2 * (q1 0 - q 0) + q 3 * (q1 1 - q 1) = (se2Exp v).2.2.1 := by
    rw [e0, e1]; linear_combination (se2Exp v).2.2.1 * h
  have a4 : -q 3 * (q1 0 - q 0) + q 2 * (q1 1 - q 1) = (se2Exp v).2.2.2 := by
    rw [e0, e1]; linear_combination (se2Exp v).2.2.2 * h
  rw [a1, a2, a3, a4]

/-- SE(2) integration keeps the norm of the orientation part -/
theorem se2Int_norm (q v : ℕ → ℝ) : se2Int q v 2 * se2Int q v 2 + se2Int q v 3 * se2Int q v 3 =
    q 2 * q 2 + q 3 * q 3 := by
  have h1 := sin_sq_add_cos_sq (v 2)
  unfold se2Int se2Exp
  simp only [if_neg (show (2 : ℕ) ≠ 0 by omega),
    if_neg (show (2 : ℕ) ≠ 1 by omega), if_neg (show (3 : ℕ) ≠ 0 by omega), if_neg (show (3 : ℕ) ≠ 1 by omega),
    if_neg (show (3 : ℕ) ≠ 2 by omega), if_true]
  linear_combination (q 2 * q 2 + q 3 * q 3) * h1

/-! ## interpolation on SO(2) -/

theorem so2_theta {q0 q1 : ℕ → ℝ} (h0 : q0 0 * q0 0 + q0 1 * q0 1 = 1) (h1 : q1 0 * q1 0 + q1 1 * q1 1 = 1) :
    sin (atan2 (q0 0 * q1 1 - q0 1 * q1 0) (q0 0 * q1 0 + q0 1 * q1 1)) = q0 0 * q1 1 - q0 1 * q1 0 ∧
    cos (atan2 (q0 0 * q1 1 - q0 1 * q1 0) (q0 0 * q1 0 + q0 1 * q1 1)) = q0 0 * q1 0 + q0 1 * q1 1 := by
  have hr := so2_unit_rel h0 h1
  generalize q0 0 * q1 1 - q0 1 * q1 0 = s at *
  generalize q0 0 * q1 0 + q0 1 * q1 1 = c at *
  have hn : ‖(⟨c, s⟩ : ℂ)‖ = 1 := by
    rw [Complex.norm_eq_sqrt_sq_add_sq]
    simp only
    rw [show c ^ 2 + s ^ 2 = 1 by linear_combination hr, sqrt_one]
  have hne : (⟨c, s⟩ : ℂ) ≠ 0 := by
    intro e; rw [e, norm_zero] at hn; norm_num at hn
  unfold atan2
  constructor
  · rw [Complex.sin_arg, hn, div_one]
  · rw [Complex.cos_arg hne, hn, div_one]

theorem so2Interp_zero {q0 q1 : ℕ → ℝ} (h0 : q0 0 * q0 0 + q0 1 * q0 1 = 1)
    (h1 : q1 0 * q1 0 + q1 1 * q1 1 = 1) (k : ℕ) : so2Interp q0 q1 0 k = q0 k := by
  obtain ⟨hs, hc⟩ := so2_theta h0 h1
  unfold so2Interp
  dsimp only
  split
  · ring
  split
  · rename_i a b
    have hne : sin (atan2 (q0 0 * q1 1 - q0 1 * q1 0) (q0 0 * q1 0 + q0 1 * q1 1)) ≠ 0 := by
      generalize atan2 (q0 0 * q1 1 - q0 1 * q1 0) (q0 0 * q1 0 + q0 1 * q1 1) = t at *
      intro e
      have hl : -π < t := by have := neg_abs_le t; linarith
      have hu : t < π := by have := le_abs_self t; linarith
      have := (sin_eq_zero_iff_of_lt_of_lt hl hu).1 e
      rw [this, abs_zero] at a
      norm_num at a
    rw [hs] at hne
    generalize atan2 (q0 0 * q1 1 - q0 1 * q1 0) (q0 0 * q1 0 + q0 1 * q1 1) = t at *
    rw [← hs] at hne ⊢
    simp only [sub_zero, one_mul, zero_mul, sin_zero, zero_div, add_zero]
    rw [div_self hne, one_mul]
  · rfl

theorem so2Interp_one {q0 q1 : ℕ → ℝ} (h0 : q0 0 * q0 0 + q0 1 * q0 1 = 1)
    (h1 : q1 0 * q1 0 + q1 1 * q1 1 = 1)
    (ht : |atan2 (q0 0 * q1 1 - q0 1 * q1 0) (q0 0 * q1 0 + q0 1 * q1 1)| < π - 1 / 10 ^ 6) (k : ℕ) :
    so2Interp q0 q1 1 k = q1 k := by
  obtain ⟨hs, hc⟩ := so2_theta h0 h1
  unfold so2Interp
  dsimp only
  split
  · ring
  rename_i a
  have hne : sin (atan2 (q0 0 * q1 1 - q0 1 * q1 0) (q0 0 * q1 0 + q0 1 * q1 1)) ≠ 0 := by
    generalize atan2 (q0 0 * q1 1 - q0 1 * q1 0) (q0 0 * q1 0 + q0 1 * q1 1) = t at *
    intro e
    have hl : -π < t := by have := neg_abs_le t; linarith
    have hu : t < π := by have := le_abs_self t; linarith
    have := (sin_eq_zero_iff_of_lt_of_lt hl hu).1 e
    rw [this, abs_zero] at a
    norm_num at a
  rw [hs] at hne
  generalize atan2 (q0 0 * q1 1 - q0 1 * q1 0) (q0 0 * q1 0 + q0 1 * q1 1) = t at *
  rw [← hs] at hne ⊢
  simp only [sub_self, one_mul, zero_mul, sin_zero, zero_div, zero_add]
  rw [div_self hne, one_mul]

/-- interpolation on SO(2) stays on the circle away from the antipode, for `1e-6 ≤ |θ|` -/
theorem so2Interp_unit {q0 q1 : ℕ → ℝ} (h0 : q0 0 * q0 0 + q0 1 * q0 1 = 1)
    (h1 : q1 0 * q1 0 + q1 1 * q1 1 = 1)
    (hl : 1 / 10 ^ 6 ≤ |atan2 (q0 0 * q1 1 - q0 1 * q1 0) (q0 0 * q1 0 + q0 1 * q1 1)|) (u : ℝ) :
    so2Interp q0 q1 u 0 * so2Interp q0 q1 u 0 + so2Interp q0 q1 u 1 * so2Interp q0 q1 u 1 = 1 := by
  obtain ⟨hs, hc⟩ := so2_theta h0 h1
  unfold so2Interp
  dsimp only
  simp only [if_neg (not_lt.2 hl)]
  split
  · rename_i b
    have hne : sin (atan2 (q0 0 * q1 1 - q0 1 * q1 0) (q0 0 * q1 0 + q0 1 * q1 1)) ≠ 0 := by
      generalize atan2 (q0 0 * q1 1 - q0 1 * q1 0) (q0 0 * q1 0 + q0 1 * q1 1) = t at *
      intro e
      have hl' : -π < t := by have := neg_abs_le t; linarith
      have hu : t < π := by have := le_abs_self t; linarith
      have := (sin_eq_zero_iff_of_lt_of_lt hl' hu).1 e
      rw [this, abs_zero] at hl
      norm_num at hl
    rw [hs] at hne
    generalize atan2 (q0 0 * q1 1 - q0 1 * q1 0) (q0 0 * q1 0 + q0 1 * q1 1) = t at *
    rw [← hs] at hne ⊢
    have e1 : sin ((1 - u) * t) = sin t * cos (u * t) - cos t * sin (u * t) := by
      rw [show (1 - u) * t = t - u * t by ring, sin_sub]
    have hA := sin_sq_add_cos_sq (u * t)
    have hB := sin_sq_add_cos_sq t
    rw [e1]
    generalize sin (u * t) = su at *
    generalize cos (u * t) = cu at *
    generalize sin t = st at *
    generalize cos t = ct at *
    field_simp
    have key : (st * cu - ct * su) ^ 2 * (q0 0 * q0 0 + q0 1 * q0 1) + su ^ 2 * (q1 0 * q1 0 + q1 1 * q1 1) +
      2 * (st * cu - ct * su) * su * (q0 0 * q1 0 + q0 1 * q1 1) = st ^ 2 := by
      rw [h0, h1, ← hc]
      linear_combination st ^ 2 * hA - su ^ 2 * hB
    linear_combination key
  · exact h0

end Lie
end Pin
