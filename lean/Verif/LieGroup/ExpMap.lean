import Verif.LieGroup.Curves
import Mathlib.Analysis.SpecialFunctions.Trigonometric.Deriv
import Mathlib.Analysis.SpecialFunctions.Sqrt

/-! # The closed form of the exponential maps and their derivatives (helpers) -/

namespace Pin
namespace Lie
open Real Spec

/-- `(1 - cos n)/n²` -/
noncomputable def cA (w : V3 ℝ) : ℝ := (1 - cos (norm3 w)) / w.sqNorm
/-- `sin n/n` -/
noncomputable def cB (w : V3 ℝ) : ℝ := sin (norm3 w) / norm3 w
/-- `(1 - sin n/n)/n²` -/
noncomputable def cD (w : V3 ℝ) : ℝ := (1 - cB w) / w.sqNorm

/-- Rodrigues' formula -/
noncomputable def Rot (w : V3 ℝ) : M3 ℝ := cA w • outer w w + cB w • M3.skew w + cos (norm3 w) • 1

/-- the left Jacobian of SO(3) -/
noncomputable def Jl (w : V3 ℝ) : M3 ℝ := (1 - cD w * w.sqNorm) • 1 + cA w • M3.skew w + cD w • outer w w

/-- the right Jacobian of SO(3) -/
noncomputable def Jr (w : V3 ℝ) : M3 ℝ := (1 - cD w * w.sqNorm) • 1 + (-cA w) • M3.skew w + cD w • outer w w

theorem sqNorm_def (w : V3 ℝ) : w.sqNorm = w.x * w.x + w.y * w.y + w.z * w.z := rfl

theorem sqNorm_nn (w : V3 ℝ) : 0 ≤ w.sqNorm := by
  rw [sqNorm_def]; nlinarith [sq_nonneg w.x, sq_nonneg w.y, sq_nonneg w.z]

theorem norm3_sq (w : V3 ℝ) : norm3 w * norm3 w = w.sqNorm := mul_self_sqrt (sqNorm_nn w)

theorem norm3_nn (w : V3 ℝ) : 0 ≤ norm3 w := sqrt_nonneg _

theorem sqNorm_ne {w : V3 ℝ} (h : norm3 w ≠ 0) : w.sqNorm ≠ 0 := by
  rw [← norm3_sq]; exact mul_ne_zero h h

theorem norm3_ne {w : V3 ℝ} (h : w ≠ 0) : norm3 w ≠ 0 := by
  intro h0
  apply h
  have := norm3_sq w
  rw [h0, sqNorm_def] at this
  ext
  · show w.x = 0; nlinarith [sq_nonneg w.x, sq_nonneg w.y, sq_nonneg w.z]
  · show w.y = 0; nlinarith [sq_nonneg w.x, sq_nonneg w.y, sq_nonneg w.z]
  · show w.z = 0; nlinarith [sq_nonneg w.x, sq_nonneg w.y, sq_nonneg w.z]

/-- the two relations that eliminate `cos` and `sin` -/
theorem coef_rel {w : V3 ℝ} (h : norm3 w ≠ 0) :
    cos (norm3 w) = 1 - cA w * w.sqNorm ∧ cB w = 1 - cD w * w.sqNorm ∧
      (1 - cD w * w.sqNorm) * (1 - cD w * w.sqNorm) = cA w * (2 - cA w * w.sqNorm) := by
  have hs := sqNorm_ne h
  have h1 : cos (norm3 w) = 1 - cA w * w.sqNorm := by
    unfold cA; field_simp; ring
  have h2 : cB w = 1 - cD w * w.sqNorm := by
    unfold cD; field_simp; ring
  refine ⟨h1, h2, ?_⟩
  rw [← h2]
  have h3 : cB w * norm3 w = sin (norm3 w) := by unfold cB; field_simp
  have h4 := sin_sq_add_cos_sq (norm3 w)
  have h5 := norm3_sq w
  apply mul_right_cancel₀ hs
  rw [← h3, h1] at h4
  linear_combination h4 - cB w * cB w * h5

theorem d_sqNorm {w : ℝ → V3 ℝ} {w' : V3 ℝ} {t : ℝ} (h : VDeriv w w' t) :
    HasDerivAt (fun s => (w s).sqNorm) (2 * (w t).dot w') t := by
  have := ((h.x.mul h.x).add (h.y.mul h.y)).add (h.z.mul h.z)
  refine HasDerivAt.congr_deriv this ?_
  simp only [V3.dot]; ring

theorem d_norm3 {w : ℝ → V3 ℝ} {w' : V3 ℝ} {t : ℝ} (h : VDeriv w w' t) (hn : norm3 (w t) ≠ 0) :
    HasDerivAt (fun s => norm3 (w s)) ((w t).dot w' / norm3 (w t)) t := by
  have := (d_sqNorm h).sqrt (sqNorm_ne hn)
  refine HasDerivAt.congr_deriv this ?_
  show 2 * (w t).dot w' / (2 * norm3 (w t)) = _
  field_simp

theorem d_cos {w : ℝ → V3 ℝ} {w' : V3 ℝ} {t : ℝ} (h : VDeriv w w' t) (hn : norm3 (w t) ≠ 0) :
    HasDerivAt (fun s => cos (norm3 (w s))) (-(cB (w t) * (w t).dot w')) t := by
  refine HasDerivAt.congr_deriv (d_norm3 h hn).cos ?_
  unfold cB; field_simp

theorem d_cA {w : ℝ → V3 ℝ} {w' : V3 ℝ} {t : ℝ} (h : VDeriv w w' t) (hn : norm3 (w t) ≠ 0) :
    HasDerivAt (fun s => cA (w s)) ((w t).dot w' * (cB (w t) * cD (w t) - cA (w t) * cA (w t))) t := by
  have hs := sqNorm_ne hn
  refine HasDerivAt.congr_deriv (((d_cos h hn).const_sub 1).div (d_sqNorm h) hs) ?_
  obtain ⟨h1, h2, h3⟩ := coef_rel hn
  rw [h1, h2]
  field_simp
  linear_combination (w t).dot w' * (w t).sqNorm * h3

theorem d_cB {w : ℝ → V3 ℝ} {w' : V3 ℝ} {t : ℝ} (h : VDeriv w w' t) (hn : norm3 (w t) ≠ 0) :
    HasDerivAt (fun s => cB (w s)) ((w t).dot w' * (cos (norm3 (w t)) * cD (w t) - cA (w t) * cB (w t))) t := by
  have hs := sqNorm_ne hn
  refine HasDerivAt.congr_deriv (((d_norm3 h hn).sin).div (d_norm3 h hn) hn) ?_
  obtain ⟨h1, h2, h3⟩ := coef_rel hn
  have h4 : sin (norm3 (w t)) = cB (w t) * norm3 (w t) := by unfold cB; field_simp
  have h5 := norm3_sq (w t)
  rw [h4, h1, h2, div_eq_iff (by positivity), pow_two, h5]
  field_simp
  linear_combination (0 : ℝ) * h3

theorem d_cD {w : ℝ → V3 ℝ} {w' : V3 ℝ} {t : ℝ} (h : VDeriv w w' t) (hn : norm3 (w t) ≠ 0) :
    HasDerivAt (fun s => cD (w s))
      ((w t).dot w' * ((cA (w t) - 3 * cD (w t)) / (w t).sqNorm)) t := by
  have hs := sqNorm_ne hn
  refine HasDerivAt.congr_deriv (((d_cB h hn).const_sub 1).div (d_sqNorm h) hs) ?_
  obtain ⟨h1, h2, h3⟩ := coef_rel hn
  rw [h1, h2, div_eq_iff (by positivity)]
  field_simp
  ring

/-! ## rotations -/

theorem norm3_zero : norm3 0 = 0 := by simp [norm3, sqNorm_def]

@[simp] theorem Rot_zero : Rot 0 = 1 := by
  ext <;> simp [Rot, outer, M3.skew, norm3_zero]

theorem Rot_orth (w : V3 ℝ) : Rot w * (Rot w).tr = 1 := by
  by_cases hw : w = 0
  · subst hw; ext <;> simp
  · have hn := norm3_ne hw
    obtain ⟨h1, h2, h3⟩ := coef_rel hn
    have hS := sqNorm_def w
    generalize hA : cA w = A at *
    generalize hD : cD w = D at *
    generalize w.sqNorm = S at *
    subst hS
    ext <;> simp only [Rot, outer, M3.skew, hA, h1, h2, M3.mul_m00, M3.mul_m01, M3.mul_m02, M3.mul_m10, M3.mul_m11, M3.mul_m12,
      M3.mul_m20, M3.mul_m21, M3.mul_m22, M3.tr_m00, M3.tr_m01, M3.tr_m02, M3.tr_m10, M3.tr_m11, M3.tr_m12, M3.tr_m20,
      M3.tr_m21, M3.tr_m22, M3.add_m00, M3.add_m01, M3.add_m02, M3.add_m10, M3.add_m11, M3.add_m12, M3.add_m20,
      M3.add_m21, M3.add_m22, M3.smul_m00, M3.smul_m01, M3.smul_m02, M3.smul_m10, M3.smul_m11, M3.smul_m12,
      M3.smul_m20, M3.smul_m21, M3.smul_m22, M3.one_m00, M3.one_m01, M3.one_m02, M3.one_m10, M3.one_m11, M3.one_m12,
      M3.one_m20, M3.one_m21, M3.one_m22]
    · linear_combination (w.y ^ 2 + w.z ^ 2) * h3
    · linear_combination (-w.x * w.y) * h3
    · linear_combination (-w.x * w.z) * h3
    · linear_combination (-w.x * w.y) * h3
    · linear_combination (w.x ^ 2 + w.z ^ 2) * h3
    · linear_combination (-w.y * w.z) * h3
    · linear_combination (-w.x * w.z) * h3
    · linear_combination (-w.y * w.z) * h3
    · linear_combination (w.x ^ 2 + w.y ^ 2) * h3

/-- the angular velocity of `Rot` along a curve, away from zero -/
theorem d_Rot {w : ℝ → V3 ℝ} {w' : V3 ℝ} {t : ℝ} (h : VDeriv w w' t) (hn : norm3 (w t) ≠ 0) :
    AngVel (fun s => Rot (w s)) ((Jr (w t)).mulVec w') t := by
  have hd := ((MDeriv.smul (d_cA h hn) (h.outer h)).add (MDeriv.smul (d_cB h hn) h.skew)).add
    (MDeriv.smul (d_cos h hn) (MDeriv.const 1))
  refine MDeriv.congr hd ?_
  clear hd
  obtain ⟨h1, h2, h3⟩ := coef_rel hn
  have hS := sqNorm_def (w t)
  show _ = Rot (w t) * _
  clear h
  generalize w t = w at *
  unfold Jr Rot
  rw [h1, h2]
  generalize cA w = A at *
  generalize cD w = D at *
  generalize w.sqNorm = S at *
  subst hS
  ext <;> simp only [outer, M3.skew, V3.dot, M3.mul_m00, M3.mul_m01, M3.mul_m02, M3.mul_m10, M3.mul_m11, M3.mul_m12,
    M3.mul_m20, M3.mul_m21, M3.mul_m22, M3.mulVec_x, M3.mulVec_y, M3.mulVec_z, M3.zero_m00, M3.zero_m01, M3.zero_m02,
    M3.zero_m10, M3.zero_m11, M3.zero_m12, M3.zero_m20, M3.zero_m21, M3.zero_m22,
    M3.add_m00, M3.add_m01, M3.add_m02, M3.add_m10, M3.add_m11, M3.add_m12, M3.add_m20,
    M3.add_m21, M3.add_m22, M3.smul_m00, M3.smul_m01, M3.smul_m02, M3.smul_m10, M3.smul_m11, M3.smul_m12,
    M3.smul_m20, M3.smul_m21, M3.smul_m22, M3.one_m00, M3.one_m01, M3.one_m02, M3.one_m10, M3.one_m11, M3.one_m12,
    M3.one_m20, M3.one_m21, M3.one_m22]
  · linear_combination (-w'.x * w.x) * h3
  · linear_combination (-w'.x * w.y) * h3
  · linear_combination (-w'.x * w.z) * h3
  · linear_combination (-w'.y * w.x) * h3
  · linear_combination (-w'.y * w.y) * h3
  · linear_combination (-w'.y * w.z) * h3
  · linear_combination (-w'.z * w.x) * h3
  · linear_combination (-w'.z * w.y) * h3
  · linear_combination (-w'.z * w.z) * h3

/-- the flow of a constant body angular velocity -/
noncomputable def flow3 (w : V3 ℝ) (t : ℝ) : M3 ℝ :=
  (sin (t * norm3 w) / norm3 w) • M3.skew w + ((1 - cos (t * norm3 w)) / w.sqNorm) • (outer w w - w.sqNorm • 1) + 1

theorem flow3_zero (w : V3 ℝ) : flow3 w 0 = 1 := by
  ext <;> simp [flow3]

theorem flow3_one (w : V3 ℝ) : flow3 w 1 = Rot w := by
  by_cases hw : w = 0
  · subst hw; ext <;> simp [flow3, outer, M3.skew, norm3_zero]
  · obtain ⟨h1, -⟩ := coef_rel (norm3_ne hw)
    have e : (1 - cos (1 * norm3 w)) / w.sqNorm = cA w := by rw [one_mul]; rfl
    have e2 : sin (1 * norm3 w) / norm3 w = cB w := by rw [one_mul]; rfl
    unfold flow3 Rot
    rw [e, e2, h1]
    ext <;> simp [outer, M3.skew] <;> ring

theorem flow3_vel (w : V3 ℝ) (t : ℝ) : AngVel (flow3 w) w t := by
  by_cases hw : w = 0
  · subst hw
    have : flow3 0 = fun _ => (1 : M3 ℝ) := by
      funext t; ext <;> simp [flow3, outer, M3.skew, norm3_zero]
    unfold AngVel
    rw [this]
    refine MDeriv.congr (MDeriv.const 1) ?_
    ext <;> simp [M3.skew]
  · have hn := norm3_ne hw
    have hs := sqNorm_ne hn
    have hl : HasDerivAt (fun s => s * norm3 w) (norm3 w) t := by
      simpa using (hasDerivAt_id t).mul_const (norm3 w)
    have hsn : HasDerivAt (fun s => sin (s * norm3 w) / norm3 w) (cos (t * norm3 w)) t :=
      (hl.sin.div_const _).congr_deriv (by field_simp)
    have hcs : HasDerivAt (fun s => (1 - cos (s * norm3 w)) / w.sqNorm) (sin (t * norm3 w) / norm3 w) t :=
      ((hl.cos.const_sub 1).div_const _).congr_deriv (by rw [← norm3_sq]; field_simp)
    refine MDeriv.congr (((MDeriv.smul hsn (MDeriv.const (M3.skew w))).add
      (MDeriv.smul hcs (MDeriv.const (outer w w - w.sqNorm • 1)))).add (MDeriv.const 1)) ?_
    have e : cos (t * norm3 w) = 1 - (1 - cos (t * norm3 w)) / w.sqNorm * w.sqNorm := by field_simp; ring
    have hS := sqNorm_def w
    show _ = flow3 w t * _
    unfold flow3
    generalize (1 - cos (t * norm3 w)) / w.sqNorm = G at *
    rw [e]
    generalize sin (t * norm3 w) / norm3 w = s at *
    ext <;> simp [outer, M3.skew, hS] <;> ring

theorem skew_tr (w : V3 ℝ) : (M3.skew w).tr = -M3.skew w := by ext <;> simp [M3.skew]

/-- the polynomials `1 + b [w]× + c [w]×²` in a skew matrix -/
def pw (b c : ℝ) (w : V3 ℝ) : M3 ℝ := 1 + b • M3.skew w + c • (M3.skew w * M3.skew w)

theorem pw_mul (b c b' c' : ℝ) (w : V3 ℝ) : pw b c w * pw b' c' w =
    pw (b + b' - w.sqNorm * (b * c' + c * b')) (c + c' + b * b' - w.sqNorm * (c * c')) w := by
  rw [sqNorm_def]
  unfold pw; m3ring

theorem pw_tr (b c : ℝ) (w : V3 ℝ) : (pw b c w).tr = pw (-b) c w := by
  unfold pw; m3ring

theorem pw_zero (w : V3 ℝ) : pw 0 0 w = 1 := by
  ext <;> simp [pw]

theorem pw_det (b c : ℝ) (w : V3 ℝ) : (pw b c w).det = (1 - c * w.sqNorm) ^ 2 + b ^ 2 * w.sqNorm := by
  rw [sqNorm_def]
  simp [pw, M3.skew, M3.det]
  ring

theorem Rot_pw (w : V3 ℝ) : Rot w = pw (cB w) (cA w) w := by
  by_cases hw : w = 0
  · subst hw; ext <;> simp [pw, M3.skew]
  · obtain ⟨h1, -⟩ := coef_rel (norm3_ne hw)
    unfold Rot
    rw [h1, sqNorm_def]
    unfold pw; m3ring

theorem Jl_pw (w : V3 ℝ) : Jl w = pw (cA w) (cD w) w := by
  unfold Jl
  rw [sqNorm_def]
  unfold pw; m3ring

theorem Jr_pw (w : V3 ℝ) : Jr w = pw (-cA w) (cD w) w := by
  unfold Jr
  rw [sqNorm_def]
  unfold pw; m3ring

theorem flow3_pw (w : V3 ℝ) (t : ℝ) :
    flow3 w t = pw (sin (t * norm3 w) / norm3 w) ((1 - cos (t * norm3 w)) / w.sqNorm) w := by
  unfold flow3
  generalize (1 - cos (t * norm3 w)) / w.sqNorm = G
  rw [sqNorm_def]
  unfold pw; m3ring

theorem flow3_rot (w : V3 ℝ) (t : ℝ) : (flow3 w t).IsRot := by
  by_cases hw : w = 0
  · subst hw
    have : flow3 0 t = 1 := by ext <;> simp [flow3, outer, M3.skew, norm3_zero]
    rw [this]
    exact M3.IsRot.one
  · have hn := norm3_ne hw
    have hs := sqNorm_ne hn
    have h1 := sin_sq_add_cos_sq (t * norm3 w)
    have hr : (sin (t * norm3 w) / norm3 w) ^ 2 * w.sqNorm = 1 - cos (t * norm3 w) ^ 2 := by
      rw [← norm3_sq]; field_simp; linear_combination h1
    have hr2 : (1 - cos (t * norm3 w)) / w.sqNorm * w.sqNorm = 1 - cos (t * norm3 w) := by field_simp
    constructor
    · rw [flow3_pw, pw_tr, pw_mul, ← pw_zero w]
      congr 1
      · ring
      · apply mul_right_cancel₀ hs
        generalize (1 - cos (t * norm3 w)) / w.sqNorm = G at *
        generalize sin (t * norm3 w) / norm3 w = s at *
        generalize cos (t * norm3 w) = c at *
        linear_combination -hr + (2 - w.sqNorm * G - (1 - c)) * hr2
    · rw [flow3_pw, pw_det, hr, hr2]
      ring

theorem Rot_isRot (w : V3 ℝ) : (Rot w).IsRot := flow3_one w ▸ flow3_rot w 1

/-- two motions that start from the identity with the same constant angular velocity agree -/
theorem flow3_unique {w : V3 ℝ} {F : ℝ → M3 ℝ} (h0 : F 0 = 1) (h : ∀ t, AngVel F w t) (t : ℝ) : F t = flow3 w t := by
  have hd : ∀ t, MDeriv (fun s => F s * (flow3 w s).tr) 0 t := fun t => by
    refine MDeriv.congr ((h t).mul (flow3_vel w t).tr) ?_
    ext <;> simp [M3.skew] <;> ring
  have h1 := mconst_of_zero hd t 0
  simp only [h0, flow3_zero] at h1
  have h2 : F t * (flow3 w t).tr = 1 := by rw [h1]; ext <;> simp
  calc F t = F t * ((flow3 w t).tr * flow3 w t) := by rw [(flow3_rot w t).tr_mul, M3.mul_one']
    _ = flow3 w t := by rw [← M3.mul_assoc', h2, M3.one_mul']

theorem isExp3_iff (w : V3 ℝ) (R : M3 ℝ) : IsExp3 w R ↔ R = Rot w := by
  constructor
  · rintro ⟨F, h0, h1, h⟩
    rw [← h1, flow3_unique h0 h, flow3_one]
  · rintro rfl
    exact ⟨flow3 w, flow3_zero w, flow3_one w, flow3_vel w⟩

/-! ## poses -/

/-- the closed form of the exponential of SE(3) -/
noncomputable def Pose (ν : Motion ℝ) : SE3 ℝ := ⟨Rot ν.ang, (Jl ν.ang).mulVec ν.lin⟩

/-- the flow of a constant spatial velocity -/
noncomputable def flow6 (ν : Motion ℝ) (t : ℝ) : SE3 ℝ :=
  ⟨flow3 ν.ang t, t • ν.lin + ((1 - cos (t * norm3 ν.ang)) / ν.ang.sqNorm) • ν.ang.cross ν.lin +
    ((t - sin (t * norm3 ν.ang) / norm3 ν.ang) / ν.ang.sqNorm) • ν.ang.cross (ν.ang.cross ν.lin)⟩

theorem flow6_zero (ν : Motion ℝ) : flow6 ν 0 = 1 := by
  apply SE3.ext
  · exact flow3_zero _
  · ext <;> simp [flow6]

theorem flow6_one (ν : Motion ℝ) : flow6 ν 1 = Pose ν := by
  apply SE3.ext
  · exact flow3_one _
  · show (1 : ℝ) • ν.lin + ((1 - cos (1 * norm3 ν.ang)) / ν.ang.sqNorm) • ν.ang.cross ν.lin +
      ((1 - sin (1 * norm3 ν.ang) / norm3 ν.ang) / ν.ang.sqNorm) • ν.ang.cross (ν.ang.cross ν.lin) = _
    rw [one_mul]
    show (1 : ℝ) • ν.lin + cA ν.ang • ν.ang.cross ν.lin + cD ν.ang • ν.ang.cross (ν.ang.cross ν.lin) =
      (Jl ν.ang).mulVec ν.lin
    rw [Jl_pw]
    unfold pw; m3ring

theorem flow6_vel (ν : Motion ℝ) (t : ℝ) : BodyVel (flow6 ν) ν t := by
  refine ⟨flow3_vel ν.ang t, ?_⟩
  obtain ⟨v, w⟩ := ν
  show VDeriv _ ((flow3 w t).mulVec v) t
  by_cases hw : w = 0
  · subst hw
    have e : (fun s => (flow6 ⟨v, 0⟩ s).trans) = fun s : ℝ => s • v := by
      funext s; ext <;> simp [flow6]
    rw [e]
    refine VDeriv.congr (VDeriv.smul (hasDerivAt_id t) (VDeriv.const v)) ?_
    ext <;> simp [flow3, outer, M3.skew, norm3_zero]
  · have hn := norm3_ne hw
    have hs := sqNorm_ne hn
    have hl : HasDerivAt (fun s => s * norm3 w) (norm3 w) t := by
      simpa using (hasDerivAt_id t).mul_const (norm3 w)
    have hsn : HasDerivAt (fun s => (s - sin (s * norm3 w) / norm3 w) / w.sqNorm)
        ((1 - cos (t * norm3 w)) / w.sqNorm) t :=
      (((hasDerivAt_id t).sub (hl.sin.div_const _)).div_const _).congr_deriv (by field_simp)
    have hcs : HasDerivAt (fun s => (1 - cos (s * norm3 w)) / w.sqNorm) (sin (t * norm3 w) / norm3 w) t :=
      ((hl.cos.const_sub 1).div_const _).congr_deriv (by rw [← norm3_sq]; field_simp)
    refine VDeriv.congr (((VDeriv.smul (hasDerivAt_id t) (VDeriv.const v)).add
      (VDeriv.smul hcs (VDeriv.const (w.cross v)))).add (VDeriv.smul hsn (VDeriv.const (w.cross (w.cross v))))) ?_
    rw [flow3_pw]
    unfold pw; m3ring

theorem isExp6_iff (ν : Motion ℝ) (M : SE3 ℝ) : IsExp6 ν M ↔ M = Pose ν := by
  constructor
  · rintro ⟨F, h0, h1, h⟩
    have hr : ∀ t, (F t).rot = (flow6 ν t).rot :=
      flow3_unique (F := fun s => (F s).rot) (by simp [h0]) (fun t => (h t).ang)
    have hd : ∀ t, VDeriv (fun s => (F s).trans - (flow6 ν s).trans) 0 t := fun t => by
      refine VDeriv.congr ((h t).lin.sub (flow6_vel ν t).lin) ?_
      rw [hr]; exact sub_self _
    have h2 := vconst_of_zero hd 1 0
    rw [h0, flow6_zero, sub_self] at h2
    rw [← h1, ← flow6_one]
    exact SE3.ext (hr 1) (sub_eq_zero.1 h2)
  · rintro rfl
    exact ⟨flow6 ν, flow6_zero ν, flow6_one ν, flow6_vel ν⟩

end Lie
end Pin
