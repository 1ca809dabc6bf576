import Verif.LieGroup.ExpCode
import Mathlib.Analysis.Complex.Trigonometric

/-! # Hessian of the logarithm, quaternion coefficients, accuracy of the exponential (helpers) -/

namespace Pin
namespace Lie
open Real Spec

/-! ## Hessian of the logarithm -/

theorem d_Jri {w : ℝ → V3 ℝ} {w' : V3 ℝ} {t : ℝ} (h : VDeriv w w' t) (hc : cos (norm3 (w t)) ≠ 1) :
    MDeriv (fun s => Jri (w s)) ((1 / 2 : ℝ) • M3.skew w' + ((w t).dot w' * cF (w t)) • (M3.skew (w t) * M3.skew (w t)) +
      cE (w t) • (M3.skew w' * M3.skew (w t) + M3.skew (w t) * M3.skew w')) t := by
  refine MDeriv.congr (((MDeriv.const 1).add (MDeriv.smul (hasDerivAt_const t (1 / 2 : ℝ)) h.skew)).add
    (MDeriv.smul (d_cE h hc) (h.skew.mul h.skew))) ?_
  m3ring

theorem Hlog3_eq {w v : V3 ℝ} (hc : cos (norm3 w) ≠ 1) : Hlog3 (norm3 w) w v =
    (1 / 2 : ℝ) • M3.skew ((Jri w).mulVec v) +
      (w.dot ((Jri w).mulVec v) * cF w) • (M3.skew w * M3.skew w) +
      cE w • (M3.skew ((Jri w).mulVec v) * M3.skew w + M3.skew w * M3.skew ((Jri w).mulVec v)) := by
  obtain ⟨hn, hA⟩ := cos_ne_A hc
  have hc' : 1 - cos (norm3 w) ≠ 0 := sub_ne_zero.2 (Ne.symm hc)
  have hs := sqNorm_ne hn
  have ea : norm3 w * sin (norm3 w) * (1 / 2 / (1 - cos (norm3 w))) = 1 - cE w * w.sqNorm := by
    unfold cE cB; rw [← norm3_sq]; field_simp; ring
  have eb : (1 - (1 - cE w * w.sqNorm)) / (norm3 w * norm3 w) = cE w := by
    rw [norm3_sq]; field_simp; ring
  have edl : (1 - cE w * w.sqNorm) • v + (1 / 2 : ℝ) • w.cross v + (cE w * w.dot v) • w = (Jri w).mulVec v := by
    rw [sqNorm_def]; unfold Jri pw; m3ring
  have edb : ∀ s : ℝ, -(2 / norm3 w - (norm3 w + sin (norm3 w)) * (1 / 2 / (1 - cos (norm3 w)))) / (norm3 w * norm3 w) *
      (s / norm3 w) = s * cF w := by
    intro s
    unfold cF cB; rw [← norm3_sq]; field_simp; ring
  have eda : ∀ s : ℝ, (sin (norm3 w) - norm3 w) * (1 / 2 / (1 - cos (norm3 w))) * (s / norm3 w) =
      -(s * (cF w * w.sqNorm + 2 * cE w)) := by
    intro s
    unfold cF cE cB; rw [← norm3_sq]; field_simp; ring
  unfold Hlog3
  simp only [ea, eb, edl, edb, eda]
  generalize (Jri w).mulVec v = d
  rw [sqNorm_def]
  m3ring

/-! ## quaternion coefficients -/

theorem qexp_toMat {v : V3 ℝ} (h : norm3 v ≠ 0) : (qexp v).toMat = Rot v := by
  have h1 : sin (norm3 v) = 2 * sin (norm3 v / 2) * cos (norm3 v / 2) := by rw [← sin_two_mul]; congr 1; ring
  have h2 : cos (norm3 v) = 1 - 2 * sin (norm3 v / 2) ^ 2 := by
    have := cos_two_mul' (norm3 v / 2)
    have h3 := sin_sq_add_cos_sq (norm3 v / 2)
    rw [show 2 * (norm3 v / 2) = norm3 v by ring] at this
    linarith
  have e : (qexp v).toMat = pw (2 * cos (norm3 v / 2) * (sin (norm3 v / 2) / norm3 v))
      (2 * (sin (norm3 v / 2) / norm3 v) * (sin (norm3 v / 2) / norm3 v)) v := by
    ext <;> simp only [qexp, qmk, Quat.toMat, quatMat, pw] <;> m3simp <;> ring
  rw [e, Rot_pw]
  congr 1
  · unfold cB; rw [h1]; field_simp
  · unfold cA; rw [h2, ← norm3_sq]; field_simp; ring

/-- the derivative of the exponential, coefficient by coefficient -/
theorem d_qexp {v : ℝ → V3 ℝ} {v' : V3 ℝ} {t : ℝ} (h : VDeriv v v' t) (hn : norm3 (v t) ≠ 0) {ε : ℝ}
    (hb : sqrt ε < (v t).sqNorm) :
    VDeriv (fun s => qvec (qexp (v s))) ((Jexp3CoeffWise ε (v t)).1.mulVec v') t ∧
      HasDerivAt (fun s => (qexp (v s)).w) ((Jexp3CoeffWise ε (v t)).2.dot v') t := by
  have hd := d_norm3 h hn
  have hh : HasDerivAt (fun s => norm3 (v s) / 2) ((v t).dot v' / norm3 (v t) / 2) t := hd.div_const 2
  have hE : Jexp3CoeffWise ε (v t) = (addDiag (outer ((1 / 2 / (v t).sqNorm * (cos (norm3 (v t) / 2) -
      2 * sin (norm3 (v t) / 2) / norm3 (v t))) • v t) (v t)) (sin (norm3 (v t) / 2) / norm3 (v t)),
      (-sin (norm3 (v t) / 2) / (2 * norm3 (v t))) • v t) := by
    unfold Jexp3CoeffWise
    have e : 1 / 2 * sqrt (v t).sqNorm = norm3 (v t) / 2 := by unfold norm3; ring
    simp only [if_pos (show (v t).sqNorm > sqrt ε from hb), e]
    rfl
  rw [hE]
  constructor
  · refine VDeriv.congr (VDeriv.smul (hh.sin.div hd hn) h) ?_
    have e : (cos (norm3 (v t) / 2) * ((v t).dot v' / norm3 (v t) / 2) * norm3 (v t) -
        sin (norm3 (v t) / 2) * ((v t).dot v' / norm3 (v t))) / norm3 (v t) ^ 2 =
        (v t).dot v' * (1 / 2 / (v t).sqNorm * (cos (norm3 (v t) / 2) - 2 * sin (norm3 (v t) / 2) / norm3 (v t))) := by
      rw [← norm3_sq]; field_simp
    rw [e]
    simp only [Pi.div_apply]
    m3ring
  · refine HasDerivAt.congr_deriv hh.cos ?_
    simp only [V3.dot, V3.smul_x, V3.smul_y, V3.smul_z]
    field_simp
    ring

/-! ## accuracy of `exp3` -/

theorem near_coef {v : V3 ℝ} {a b c a' b' c' x y z : ℝ} (hx : |a - a'| * v.sqNorm ≤ x) (hy : |b - b'| * norm3 v ≤ y)
    (hz : |c - c'| ≤ z) : Near (a • outer v v + b • M3.skew v + c • 1) (a' • outer v v + b' • M3.skew v + c' • 1)
      (x + y + z) := by
  have hn := norm3_sq v
  have hn0 := norm3_nn v
  have hx0 : |v.x| ≤ norm3 v := abs_le_of_sq_le_sq (by rw [pow_two, pow_two, hn, sqNorm_def]; nlinarith [sq_nonneg v.y, sq_nonneg v.z]) hn0
  have hy0 : |v.y| ≤ norm3 v := abs_le_of_sq_le_sq (by rw [pow_two, pow_two, hn, sqNorm_def]; nlinarith [sq_nonneg v.x, sq_nonneg v.z]) hn0
  have hz0 : |v.z| ≤ norm3 v := abs_le_of_sq_le_sq (by rw [pow_two, pow_two, hn, sqNorm_def]; nlinarith [sq_nonneg v.x, sq_nonneg v.y]) hn0
  have hA : ∀ p q : ℝ, |p| ≤ norm3 v → |q| ≤ norm3 v → |(a - a') * (p * q)| ≤ x := fun p q hp hq => by
    rw [abs_mul, abs_mul]
    refine le_trans ?_ hx
    rw [← hn]
    gcongr
  have hB : ∀ p : ℝ, |p| ≤ norm3 v → |(b - b') * p| ≤ y := fun p hp => by
    rw [abs_mul]; refine le_trans ?_ hy; gcongr
  have x0 : 0 ≤ x := le_trans (by have := sqNorm_nn v; positivity) hx
  have y0 : 0 ≤ y := le_trans (by positivity) hy
  have z0 : 0 ≤ z := le_trans (abs_nonneg _) hz
  have ent : ∀ p q r k : ℝ, |p| ≤ norm3 v → |q| ≤ norm3 v → |r| ≤ norm3 v → |k| ≤ 1 →
      |a * (p * q) + b * r + c * k - (a' * (p * q) + b' * r + c' * k)| ≤ x + y + z := fun p q r k hp hq hr hk => by
    rw [show a * (p * q) + b * r + c * k - (a' * (p * q) + b' * r + c' * k) =
      (a - a') * (p * q) + (b - b') * r + (c - c') * k by ring]
    refine (abs_add_three _ _ _).trans ?_
    have h1 := hA p q hp hq
    have h2 := hB r hr
    have h3 : |(c - c') * k| ≤ z := by
      rw [abs_mul]
      calc |c - c'| * |k| ≤ |c - c'| * 1 := by gcongr
        _ ≤ z := by rw [mul_one]; exact hz
    linarith
  have n0 : |(0 : ℝ)| ≤ norm3 v := by rw [abs_zero]; exact hn0
  have k0 : |(0 : ℝ)| ≤ 1 := by rw [abs_zero]; exact zero_le_one
  have k1 : |(1 : ℝ)| ≤ 1 := by rw [abs_one]
  have mx : |-v.x| ≤ norm3 v := by rwa [abs_neg]
  have my : |-v.y| ≤ norm3 v := by rwa [abs_neg]
  have mz : |-v.z| ≤ norm3 v := by rwa [abs_neg]
  exact ⟨ent v.x v.x 0 1 hx0 hx0 n0 k1, ent v.x v.y (-v.z) 0 hx0 hy0 mz k0, ent v.x v.z v.y 0 hx0 hz0 hy0 k0,
    ent v.y v.x v.z 0 hy0 hx0 hz0 k0, ent v.y v.y 0 1 hy0 hy0 n0 k1, ent v.y v.z (-v.x) 0 hy0 hz0 mx k0,
    ent v.z v.x (-v.y) 0 hz0 hx0 my k0, ent v.z v.y v.x 0 hz0 hy0 hx0 k0, ent v.z v.z 0 1 hz0 hz0 n0 k1⟩

theorem absmul {x y : ℝ} (h : 0 ≤ y) : |x| * y = |x * y| := by rw [abs_mul, abs_of_nonneg h]

theorem mexp3_form (ε : ℝ) (v : V3 ℝ) : mexp3 ε v =
    (if sqrt (v.sqNorm + ε * ε) > prec ε 3 then (1 - cos (sqrt (v.sqNorm + ε * ε))) / (v.sqNorm + ε * ε)
      else 1 / 2 - (v.sqNorm + ε * ε) / 24) • outer v v +
    (if sqrt (v.sqNorm + ε * ε) > prec ε 3 then sin (sqrt (v.sqNorm + ε * ε)) / sqrt (v.sqNorm + ε * ε)
      else 1 - (v.sqNorm + ε * ε) / 6) • M3.skew v +
    (if sqrt (v.sqNorm + ε * ε) > prec ε 3 then cos (sqrt (v.sqNorm + ε * ε)) else 1 - (v.sqNorm + ε * ε) / 2) • 1 := by
  unfold mexp3
  m3ring

/-- `exp3` is within five units of rounding of the exponential, entry by entry -/
theorem mexp3_near {ε : ℝ} (he : 0 < ε) (h1 : ε ≤ 1) (v : V3 ℝ) : Near (mexp3 ε v) (Rot v) (5 * ε) := by
  have hn := norm3_sq v
  have hn0 := norm3_nn v
  have hs0 := sqNorm_nn v
  have hpos : 0 < v.sqNorm + ε * ε := by positivity
  have htn : norm3 v ≤ sqrt (v.sqNorm + ε * ε) := sqrt_le_sqrt (by nlinarith)
  have htt : sqrt (v.sqNorm + ε * ε) * sqrt (v.sqNorm + ε * ε) = v.sqNorm + ε * ε := mul_self_sqrt hpos.le
  have ht0 : 0 < sqrt (v.sqNorm + ε * ε) := sqrt_pos.2 hpos
  have htu : sqrt (v.sqNorm + ε * ε) ≤ norm3 v + ε := by
    rw [sqrt_le_left (by positivity)]; nlinarith
  have hee : ε * ε ≤ ε := by nlinarith
  rw [mexp3_form]
  unfold Rot
  generalize ht : sqrt (v.sqNorm + ε * ε) = t at *
  have hd : |t - norm3 v| ≤ ε := by rw [abs_of_nonneg (by linarith)]; linarith
  by_cases hb : t > prec ε 3
  · simp only [if_pos hb]
    have hc := (abs_cos_sub_cos_le t (norm3 v)).trans hd
    have hsn := (abs_sin_sub_sin_le t (norm3 v)).trans hd
    have A1 : |(1 - cos t) / (v.sqNorm + ε * ε) - cA v| * v.sqNorm ≤ 2 * ε := by
      by_cases hz : v = 0
      · subst hz; simp [V3.sqNorm]; exact he.le
      · have hnz := norm3_ne hz
        have hsz := sqNorm_ne hnz
        rw [absmul hs0]
        have e : ((1 - cos t) / (v.sqNorm + ε * ε) - cA v) * v.sqNorm =
            -((1 - cos t) * (ε * ε) / (v.sqNorm + ε * ε)) + -(cos t - cos (norm3 v)) := by
          unfold cA; field_simp; ring
        rw [e]
        refine (abs_add_le _ _).trans ?_
        rw [abs_neg, abs_neg]
        have : |(1 - cos t) * (ε * ε) / (v.sqNorm + ε * ε)| ≤ ε := by
          have h2 := one_sub_sq_div_two_le_cos (x := t)
          have h3 := cos_le_one t
          rw [abs_of_nonneg (by have : 0 ≤ 1 - cos t := by linarith
                                positivity), div_le_iff₀ hpos]
          nlinarith
        linarith
    have B1 : |sin t / t - cB v| * norm3 v ≤ 2 * ε := by
      by_cases hz : v = 0
      · subst hz; simp [norm3_zero]; exact he.le
      · have hnz := norm3_ne hz
        rw [absmul hn0]
        have e : (sin t / t - cB v) * norm3 v = -(sin t / t * (t - norm3 v)) + (sin t - sin (norm3 v)) := by
          unfold cB; field_simp; ring
        rw [e]
        refine (abs_add_le _ _).trans ?_
        rw [abs_neg]
        have : |sin t / t * (t - norm3 v)| ≤ ε := by
          rw [abs_mul, abs_div, abs_of_pos ht0]
          have : |sin t| / t ≤ 1 := by
            rw [div_le_one ht0]
            exact (abs_sin_le_abs).trans (abs_of_pos ht0).le
          calc |sin t| / t * |t - norm3 v| ≤ 1 * ε := by gcongr
            _ = ε := one_mul _
        linarith
    have := near_coef A1 B1 hc
    rw [show 2 * ε + 2 * ε + ε = 5 * ε by ring] at this
    exact this
  · simp only [if_neg hb]
    have hb := le_of_not_gt hb
    have hp4 := prec_pow he 3
    have ht4 : t ^ 4 ≤ ε := by
      calc t ^ 4 ≤ prec ε 3 ^ 4 := by gcongr
        _ = ε := hp4
    have hp1 := prec_le_one he h1 3
    have hn1 : |norm3 v| ≤ 1 := by rw [abs_of_nonneg hn0]; linarith
    have cb := cos_bound hn1
    have sb := sin_bound hn1
    rw [abs_of_nonneg hn0] at cb sb
    have hn4 : norm3 v ^ 4 ≤ ε := le_trans (by gcongr) ht4
    rw [← htt]
    have htt' : t * t = norm3 v * norm3 v + ε * ε := by rw [htt, hn]
    have A1 : |(1 / 2 - t * t / 24) - cA v| * (v.sqNorm) ≤ ε := by
      by_cases hz : v = 0
      · subst hz; simp [V3.sqNorm]; exact he.le
      · have hnz := norm3_ne hz
        have hsz := sqNorm_ne hnz
        rw [absmul hs0]
        have e : ((1 / 2 - t * t / 24) - cA v) * v.sqNorm =
            (cos (norm3 v) - (1 - norm3 v ^ 2 / 2)) + -(norm3 v ^ 2 * t ^ 2 / 24) := by
          unfold cA; rw [← hn]; field_simp; ring
        rw [e]
        refine (abs_add_le _ _).trans ?_
        rw [abs_neg, abs_of_nonneg (by positivity : 0 ≤ norm3 v ^ 2 * t ^ 2 / 24)]
        have : norm3 v ^ 2 * t ^ 2 ≤ t ^ 2 * t ^ 2 := by gcongr
        nlinarith
    have B1 : |(1 - t * t / 6) - cB v| * norm3 v ≤ ε := by
      by_cases hz : v = 0
      · subst hz; simp [norm3_zero]; exact he.le
      · have hnz := norm3_ne hz
        rw [absmul hn0]
        have e : ((1 - t * t / 6) - cB v) * norm3 v =
            -(sin (norm3 v) - (norm3 v - norm3 v ^ 3 / 6)) + -(norm3 v * (ε * ε) / 6) := by
          unfold cB; rw [htt']; field_simp; ring
        rw [e]
        refine (abs_add_le _ _).trans ?_
        rw [abs_neg, abs_neg, abs_of_nonneg (by positivity : 0 ≤ norm3 v * (ε * ε) / 6)]
        have h5 : norm3 v ^ 5 ≤ norm3 v ^ 4 := pow_le_pow_of_le_one hn0 (by linarith) (by norm_num)
        nlinarith
    have C1 : |(1 - t * t / 2) - cos (norm3 v)| ≤ ε := by
      have e : (1 - t * t / 2) - cos (norm3 v) = -(cos (norm3 v) - (1 - norm3 v ^ 2 / 2)) + -(ε * ε / 2) := by
        rw [htt']; ring
      rw [e]
      refine (abs_add_le _ _).trans ?_
      rw [abs_neg, abs_neg, abs_of_nonneg (by positivity : 0 ≤ ε * ε / 2)]
      nlinarith
    have := near_coef A1 B1 C1
    constructor
    · exact this.m00.trans (by linarith)
    · exact this.m01.trans (by linarith)
    · exact this.m02.trans (by linarith)
    · exact this.m10.trans (by linarith)
    · exact this.m11.trans (by linarith)
    · exact this.m12.trans (by linarith)
    · exact this.m20.trans (by linarith)
    · exact this.m21.trans (by linarith)
    · exact this.m22.trans (by linarith)

end Lie
end Pin
