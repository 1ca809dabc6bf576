import Verif.LieGroup.Defs
import Verif.LieGroup.PlaneLemmas
import Mathlib.Analysis.SpecialFunctions.Trigonometric.Bounds

/-! # SO(3) and SE(3) -/

namespace Pin
namespace Lie
open Real

theorem prec_pos {ε : ℝ} (h : 0 < ε) (d : ℕ) : 0 < prec ε d := rpow_pos_of_pos h _

theorem prec_pow {ε : ℝ} (h : 0 < ε) (d : ℕ) : prec ε d ^ (d + 1) = ε := by
  unfold prec
  rw [← rpow_natCast, ← rpow_mul h.le]
  push_cast
  rw [one_div, inv_mul_cancel₀ (by positivity), rpow_one]

theorem prec3_le {ε : ℝ} (h : 0 < ε) (h2 : ε ≤ 1 / 2 ^ 20) : prec ε 3 ≤ 1 / 32 := by
  have := prec_pow h 3
  by_contra hc
  have hc := lt_of_not_ge hc
  have : (1 / 32 : ℝ) ^ 4 < prec ε 3 ^ (3 + 1) := pow_lt_pow_left₀ hc (by norm_num) (by norm_num)
  rw [prec_pow h 3] at this
  norm_num at this h2
  linarith

/-- how far from 1 the squared norm of `exp3` may be -/
noncomputable def expErr (ε : ℝ) : ℝ := prec ε 3 ^ 3 / 23040

theorem expErr_nonneg {ε : ℝ} (h : 0 < ε) : 0 ≤ expErr ε := by
  have := prec_pos h 3
  unfold expErr; positivity

theorem expErr_le {ε : ℝ} (h : 0 < ε) (h2 : ε ≤ 1 / 2 ^ 20) : expErr ε ≤ 1 / 10 ^ 6 := by
  have h1 := prec_pos h 3
  have h3 := prec3_le h h2
  have : prec ε 3 ^ 3 ≤ (1 / 32) ^ 3 := pow_le_pow_left₀ h1.le h3 3
  unfold expErr
  norm_num at this ⊢
  linarith

theorem sqNorm_smul (c : ℝ) (v : V3 ℝ) : (c • v).sqNorm = c * c * v.sqNorm := by
  simp only [V3.sqNorm, V3.dot, V3.smul_x, V3.smul_y, V3.smul_z]; ring

theorem sqNorm_nonneg (v : V3 ℝ) : 0 ≤ v.sqNorm := by
  simp only [V3.sqNorm, V3.dot]; nlinarith [mul_self_nonneg v.x, mul_self_nonneg v.y, mul_self_nonneg v.z]

theorem sqNorm_qmk (u : V3 ℝ) (w : ℝ) : (qmk u w).sqNorm = u.sqNorm + w * w := by
  simp only [qmk, Quat.sqNorm, V3.sqNorm, V3.dot]

/-- the Taylor branch of `exp3` -/
theorem exp3_taylor {ε : ℝ} {v : V3 ℝ} (h : ¬ v.sqNorm > prec ε 3) : (exp3 ε v).sqNorm - 1 =
    (v.sqNorm / 4) ^ 3 * (1 / 360 - (v.sqNorm / 4) / 960 + (v.sqNorm / 4) ^ 2 / 14400) := by
  unfold exp3
  simp only [if_neg h, sqNorm_qmk, sqNorm_smul]
  ring

/-- the other branch of `exp3` -/
theorem exp3_generic {ε : ℝ} (he : 0 < ε) {v : V3 ℝ} (h : v.sqNorm > prec ε 3) : (exp3 ε v).sqNorm - 1 =
    -(sin (sqrt (v.sqNorm + ε * ε) / 2)) ^ 2 * (ε * ε) / (v.sqNorm + ε * ε) := by
  have h1 := sqNorm_nonneg v
  have hp : 0 < v.sqNorm + ε * ε := by positivity
  have hs := mul_self_sqrt hp.le
  have hsp := sqrt_pos.2 hp
  have ht := sin_sq_add_cos_sq (sqrt (v.sqNorm + ε * ε) / 2)
  unfold exp3
  simp only [if_pos h, sqNorm_qmk, sqNorm_smul]
  generalize sqrt (v.sqNorm + ε * ε) = t at *
  have hn : v.sqNorm = t * t - ε * ε := by linarith
  rw [hn]
  rw [show t * t - ε * ε + ε * ε = t * t by ring]
  field_simp
  linear_combination t ^ 2 * ht

theorem exp3_norm {ε : ℝ} (he : 0 < ε) (he2 : ε ≤ 1 / 2 ^ 20) (v : V3 ℝ) :
    |(exp3 ε v).sqNorm - 1| ≤ expErr ε := by
  have hp := prec_pos he 3
  have hp2 := prec3_le he he2
  have h1 := sqNorm_nonneg v
  by_cases h : v.sqNorm > prec ε 3
  · rw [exp3_generic he h]
    have hpos : 0 < v.sqNorm + ε * ε := by positivity
    have hsin : (sin (sqrt (v.sqNorm + ε * ε) / 2)) ^ 2 ≤ (v.sqNorm + ε * ε) / 4 := by
      have a := abs_sin_le_abs (x := sqrt (v.sqNorm + ε * ε) / 2)
      have b := sq_le_sq.2 a
      rw [div_pow, sq_sqrt hpos.le] at b
      linarith
    have hb : |-(sin (sqrt (v.sqNorm + ε * ε) / 2)) ^ 2 * (ε * ε) / (v.sqNorm + ε * ε)| ≤ ε * ε / 4 := by
      rw [neg_mul, neg_div, abs_neg, abs_of_nonneg (by positivity), div_le_iff₀ hpos]
      nlinarith [mul_pos he he]
    refine hb.trans ?_
    have e4 := prec_pow he 3
    unfold expErr
    generalize prec ε 3 = p at *
    rw [← e4]
    have : p ^ 5 ≤ (1 / 32) ^ 5 := pow_le_pow_left₀ hp.le hp2 5
    have h3 : 0 < p ^ 3 := by positivity
    have : p ^ (3 + 1) * p ^ (3 + 1) / 4 = p ^ 3 * (p ^ 5 / 4) := by ring
    rw [this]
    have : p ^ 3 * (p ^ 5 / 4) ≤ p ^ 3 * (1 / 23040) := by
      apply mul_le_mul_of_nonneg_left _ h3.le
      norm_num at *
      linarith
    linarith
  · rw [exp3_taylor h]
    have hx : v.sqNorm ≤ prec ε 3 := not_lt.1 h
    unfold expErr
    generalize v.sqNorm = n at *
    generalize prec ε 3 = p at *
    have hn3 : n ^ 3 ≤ p ^ 3 := pow_le_pow_left₀ h1 hx 3
    have hf : 0 ≤ 1 / 360 - n / 4 / 960 + (n / 4) ^ 2 / 14400 := by nlinarith
    have hf2 : 1 / 360 - n / 4 / 960 + (n / 4) ^ 2 / 14400 ≤ 1 / 360 := by nlinarith
    rw [abs_of_nonneg (by positivity)]
    have h3 : 0 ≤ (n / 4) ^ 3 := by positivity
    calc (n / 4) ^ 3 * (1 / 360 - n / 4 / 960 + (n / 4) ^ 2 / 14400) ≤ (n / 4) ^ 3 * (1 / 360) :=
        mul_le_mul_of_nonneg_left hf2 h3
      _ = n ^ 3 / 23040 := by ring
      _ ≤ p ^ 3 / 23040 := by linarith

theorem fon_sqNorm (q : Quat ℝ) :
    (firstOrderNormalize q).sqNorm - 1 = -(q.sqNorm - 1) ^ 2 * (3 - (q.sqNorm - 1)) / 4 := by
  have : (firstOrderNormalize q).sqNorm = q.sqNorm * ((3 - q.sqNorm) / 2) ^ 2 := by
    unfold firstOrderNormalize
    dsimp only
    generalize h : (3 - q.sqNorm) / 2 = a
    simp only [Quat.sqNorm]
    ring
  rw [this]
  ring

theorem fon_unit {q : Quat ℝ} (h : q.sqNorm = 1) : firstOrderNormalize q = q := by
  unfold firstOrderNormalize
  rw [h]
  ext <;> dsimp only <;> ring

/-- one quadratic contraction -/
theorem contract {f : ℝ} (h : |f| ≤ 1) : |-f ^ 2 * (3 - f) / 4| ≤ f ^ 2 := by
  have h1 := abs_le.1 h
  rw [abs_le]
  constructor
  · nlinarith [sq_nonneg f]
  · nlinarith [sq_nonneg f]

theorem fon_step {q e : Quat ℝ} {d : ℝ} (hq : |q.sqNorm - 1| ≤ 1 / 2) (hd : d ≤ 1 / 10 ^ 6)
    (he : |e.sqNorm - 1| ≤ d) {r : Quat ℝ} (hr : r.sqNorm = q.sqNorm * e.sqNorm) :
    |(firstOrderNormalize r).sqNorm - 1| ≤ (|q.sqNorm - 1| + 3 / 2 * d) ^ 2 := by
  rw [fon_sqNorm, hr]
  have key : |q.sqNorm * e.sqNorm - 1| ≤ |q.sqNorm - 1| + 3 / 2 * d := by
    have : q.sqNorm * e.sqNorm - 1 = (q.sqNorm - 1) + (1 + (q.sqNorm - 1)) * (e.sqNorm - 1) := by ring
    rw [this]
    refine (abs_add_le _ _).trans ?_
    rw [abs_mul]
    have h1 : |1 + (q.sqNorm - 1)| ≤ 3 / 2 := by
      refine (abs_add_le _ _).trans ?_
      rw [abs_one]; linarith
    have := mul_le_mul h1 he (abs_nonneg _) (by norm_num)
    linarith
  have hd0 : 0 ≤ d := (abs_nonneg _).trans he
  have h1 : |q.sqNorm * e.sqNorm - 1| ≤ 1 := by norm_num at hd; linarith
  refine (contract h1).trans ?_
  rw [← sq_abs]
  exact pow_le_pow_left₀ (abs_nonneg _) key 2

theorem so3Int_step {ε : ℝ} (he : 0 < ε) (he2 : ε ≤ 1 / 2 ^ 20) {q : Quat ℝ} (hq : |q.sqNorm - 1| ≤ 1 / 2)
    (v : V3 ℝ) : |(so3Int ε q v).sqNorm - 1| ≤ (|q.sqNorm - 1| + 3 / 2 * expErr ε) ^ 2 :=
  fon_step hq (expErr_le he he2) (exp3_norm he he2 v) (Quat.sqNorm_mul _ _)

theorem sqNorm_neg (q : Quat ℝ) : (-q).sqNorm = q.sqNorm := by
  show Quat.sqNorm ⟨-q.x, -q.y, -q.z, -q.w⟩ = _
  simp only [Quat.sqNorm]; ring

theorem se3Int_step {ε : ℝ} (he : 0 < ε) (he2 : ε ≤ 1 / 2 ^ 20) (p : V3 ℝ) {q : Quat ℝ}
    (hq : |q.sqNorm - 1| ≤ 1 / 2) (v w : V3 ℝ) :
    |(se3Int ε p q v w).2.sqNorm - 1| ≤ (|q.sqNorm - 1| + 3 / 2 * expErr ε) ^ 2 := by
  refine fon_step (e := exp3 ε w) hq (expErr_le he he2) (exp3_norm he he2 w) ?_
  show (if _ then _ else _ : Quat ℝ).sqNorm = _
  split
  · rw [sqNorm_neg]; exact Quat.sqNorm_mul _ _
  · exact Quat.sqNorm_mul _ _

/-- the bound of `so3Int_step` maps `[7 d², 1/2]` below itself -/
theorem step_bound {d M a : ℝ} (hd0 : 0 ≤ d) (hd : d ≤ 1 / 10 ^ 6) (h1 : 7 * d ^ 2 ≤ M) (h2 : M ≤ 1 / 2)
    (ha0 : 0 ≤ a) (ha : a ≤ M) : (a + 3 / 2 * d) ^ 2 ≤ M := by
  have h3 : (a + 3 / 2 * d) ^ 2 ≤ (M + 3 / 2 * d) ^ 2 := pow_le_pow_left₀ (by positivity) (by linarith) 2
  refine h3.trans ?_
  norm_num at hd
  have hM : 0 ≤ M := ha0.trans ha
  have a1 : M ^ 2 ≤ M / 2 := by nlinarith
  have a2 : 3 * M * d ≤ 3 * M / 1000000 := by nlinarith
  nlinarith

/-! ## zero velocity, zero difference -/

theorem exp3_zero {ε : ℝ} (he : 0 < ε) : exp3 ε 0 = ⟨0, 0, 0, 1⟩ := by
  have h0 : (0 : V3 ℝ).sqNorm = 0 := by simp [V3.sqNorm, V3.dot]
  have := prec_pos he 3
  unfold exp3
  simp only [h0]
  rw [if_neg (by linarith)]
  simp [qmk]

theorem quat_mul_one (q : Quat ℝ) : q * ⟨0, 0, 0, 1⟩ = q := by
  show (⟨_, _, _, _⟩ : Quat ℝ) = q
  ext <;> dsimp only <;> ring

theorem conj_mul_self {q : Quat ℝ} (h : q.sqNorm = 1) : q.conj * q = ⟨0, 0, 0, 1⟩ := by
  show (⟨_, _, _, _⟩ : Quat ℝ) = _
  simp only [Quat.sqNorm] at h
  ext <;> dsimp only [Quat.conj]
  · ring
  · ring
  · ring
  · linear_combination h

theorem conj_mul_neg {q : Quat ℝ} (h : q.sqNorm = 1) : q.conj * (-q) = ⟨0, 0, 0, -1⟩ := by
  show (⟨_, _, _, _⟩ : Quat ℝ) = _
  have e : -q = ⟨-q.x, -q.y, -q.z, -q.w⟩ := rfl
  simp only [Quat.sqNorm] at h
  ext <;> dsimp only [Quat.conj, e]
  · rw [e]; ring
  · rw [e]; ring
  · rw [e]; ring
  · rw [e]; linear_combination -h

theorem log3_vec_zero (ε : ℝ) {q : Quat ℝ} (h : qvec q = 0) : (log3 ε q).1 = 0 := by
  unfold log3
  simp only [h]
  simp

theorem so3Int_zero {ε : ℝ} (he : 0 < ε) {q : Quat ℝ} (h : q.sqNorm = 1) : so3Int ε q 0 = q := by
  unfold so3Int
  rw [exp3_zero he, quat_mul_one, fon_unit h]

theorem so3Diff_self (ε : ℝ) {q : Quat ℝ} (h : q.sqNorm = 1) : so3Diff ε q q = 0 := by
  unfold so3Diff
  rw [conj_mul_self h]
  exact log3_vec_zero ε rfl

theorem so3Diff_neg (ε : ℝ) {q : Quat ℝ} (h : q.sqNorm = 1) : so3Diff ε q (-q) = 0 := by
  unfold so3Diff
  rw [conj_mul_neg h]
  exact log3_vec_zero ε rfl

theorem cross_zero' (v : V3 ℝ) : v.cross 0 = 0 := by
  ext <;> simp [V3.cross]

theorem zero_cross' (v : V3 ℝ) : V3.cross 0 v = 0 := by
  ext <;> simp [V3.cross]

theorem qrot_zero (q : Quat ℝ) : qrot q 0 = 0 := by
  unfold qrot
  simp only [cross_zero']
  simp [cross_zero']

theorem se3Int_zero {ε : ℝ} (he : 0 < ε) (p : V3 ℝ) {q : Quat ℝ} (h : q.sqNorm = 1) :
    se3Int ε p q 0 0 = (p, q) := by
  unfold se3Int exp6
  simp only [cross_zero', exp3_zero he, quat_mul_one]
  have hd : q.dot q = 1 := h
  rw [if_neg (show ¬ q.dot q < 0 by rw [hd]; norm_num), fon_unit h]
  simp [qrot_zero]

theorem se3Diff_self (ε : ℝ) (p : V3 ℝ) {q : Quat ℝ} (h : q.sqNorm = 1) : se3Diff ε p q p q = (0, 0) := by
  unfold se3Diff
  rw [conj_mul_self h, sub_self, qrot_zero]
  unfold log6
  dsimp only
  rw [log3_vec_zero ε rfl]
  simp [cross_zero']

end Lie
end Pin
