import Verif.Math.Quaternion
import Mathlib.Analysis.Real.Sqrt

/-! # C41: quaternions and rotation matrices -/

namespace Pin
universe u

/-- the square root of the reals -/
noncomputable instance : HasSqrt ℝ where
  sqrt := Real.sqrt
  sq _ h := Real.mul_self_sqrt h
  nonneg _ := Real.sqrt_nonneg _

section ring
variable {K : Type u} [CommRing K]

/-- the matrix of a unit quaternion is a rotation -/
theorem C41_rotation {q : Quat K} (h : q.sqNorm = 1) : q.toMat.IsRot := quatMat_rot h

/-- opposite quaternions have the same matrix -/
theorem C41_opposite (q : Quat K) : (-q).toMat = q.toMat := Quat.toMat_neg q

/-- conversion turns products into products, and keeps unit norm -/
theorem C41_product {a b : Quat K} (ha : a.sqNorm = 1) (hb : b.sqNorm = 1) :
    (a * b).toMat = a.toMat * b.toMat ∧ (a * b).sqNorm = 1 :=
  ⟨Quat.toMat_mul ha hb, by rw [Quat.sqNorm_mul, ha, hb, one_mul]⟩

/-- the conjugate has the transposed, i.e. inverse, matrix -/
theorem C41_conjugate {q : Quat K} (h : q.sqNorm = 1) : q.conj.toMat = q.toMat.tr ∧ q.conj.toMat * q.toMat = 1 := by
  refine ⟨Quat.toMat_conj q, ?_⟩
  rw [Quat.toMat_conj]; exact (C41_rotation h).tr_mul
end ring

section field
variable {K : Type u} [Field K] [LinearOrder K] [IsStrictOrderedRing K]

/-- unit quaternions with the same matrix are equal or opposite -/
theorem C41_same_rotation {p q : Quat K} (hp : p.sqNorm = 1) (hq : q.sqNorm = 1) :
    p.toMat = q.toMat ↔ p = q ∨ p = -q := by
  constructor
  · intro h
    obtain ⟨a, b, c, d⟩ := p
    obtain ⟨x, y, z, w⟩ := q
    simp only [Quat.sqNorm] at hp hq
    simp only [Quat.toMat, quatMat, M3.ext_iff] at h
    obtain ⟨h0, h1, h2, h3, h4, h5, h6, h7, h8⟩ := h
    have haa : a * a = x * x := by linarith
    have hbb : b * b = y * y := by linarith
    have hcc : c * c = z * z := by linarith
    have hdd : d * d = w * w := by linarith
    have hab : a * b = x * y := by linear_combination (h1 + h3) / 4
    have hac : a * c = x * z := by linear_combination (h2 + h6) / 4
    have hbc : b * c = y * z := by linear_combination (h5 + h7) / 4
    have hda : d * a = w * x := by linear_combination (h7 - h5) / 4
    have hdb : d * b = w * y := by linear_combination (h2 - h6) / 4
    have hdc : d * c = w * z := by linear_combination (h3 - h1) / 4
    have e : (a * x + b * y + c * z + d * w) * (a * x + b * y + c * z + d * w) = 1 := by
      linear_combination (x*x*haa + y*y*hbb + z*z*hcc + w*w*hdd + 2*x*y*hab + 2*x*z*hac + 2*y*z*hbc + 2*w*x*hda
        + 2*w*y*hdb + 2*w*z*hdc) + (x*x+y*y+z*z+w*w+1) * hq
    rcases mul_self_eq_one_iff.1 e with e | e
    · left
      have s : (a-x)*(a-x) + (b-y)*(b-y) + (c-z)*(c-z) + (d-w)*(d-w) = 0 := by linear_combination hp + hq - 2*e
      have n1 := mul_self_nonneg (a-x); have n2 := mul_self_nonneg (b-y)
      have n3 := mul_self_nonneg (c-z); have n4 := mul_self_nonneg (d-w)
      have z1 : a - x = 0 := mul_self_eq_zero.1 (by linarith)
      have z2 : b - y = 0 := mul_self_eq_zero.1 (by linarith)
      have z3 : c - z = 0 := mul_self_eq_zero.1 (by linarith)
      have z4 : d - w = 0 := mul_self_eq_zero.1 (by linarith)
      rw [sub_eq_zero.1 z1, sub_eq_zero.1 z2, sub_eq_zero.1 z3, sub_eq_zero.1 z4]
    · right
      have s : (a+x)*(a+x) + (b+y)*(b+y) + (c+z)*(c+z) + (d+w)*(d+w) = 0 := by linear_combination hp + hq + 2*e
      have n1 := mul_self_nonneg (a+x); have n2 := mul_self_nonneg (b+y)
      have n3 := mul_self_nonneg (c+z); have n4 := mul_self_nonneg (d+w)
      have z1 : a + x = 0 := mul_self_eq_zero.1 (by linarith)
      have z2 : b + y = 0 := mul_self_eq_zero.1 (by linarith)
      have z3 : c + z = 0 := mul_self_eq_zero.1 (by linarith)
      have z4 : d + w = 0 := mul_self_eq_zero.1 (by linarith)
      change (⟨a, b, c, d⟩ : Quat K) = ⟨-x, -y, -z, -w⟩
      rw [eq_neg_of_add_eq_zero_left z1, eq_neg_of_add_eq_zero_left z2, eq_neg_of_add_eq_zero_left z3,
        eq_neg_of_add_eq_zero_left z4]
  · rintro (rfl | rfl)
    · rfl
    · exact Quat.toMat_neg q

variable [HasSqrt K]

/-- `assignQuaternion` on a rotation returns a unit quaternion of this rotation, on every branch. -/
theorem C41_assign {m : M3 K} (h : m.IsRot) : (Quat.assign m).sqNorm = 1 ∧ (Quat.assign m).toMat = m := by
  unfold Quat.assign
  simp only
  split
  · rename_i ht
    exact Quat.assignPos_ok h (by linarith)
  · rename_i ht
    by_cases h1 : m.m11 > m.m00
    · by_cases h2 : m.m22 > m.m11
      · simp only [h1, h2, if_true]
        exact Quat.assignNeg2_ok h (by linarith)
      · simp only [h1, h2, if_true, if_false]
        exact Quat.assignNeg1_ok h (by linarith)
    · by_cases h2 : m.m22 > m.m00
      · simp only [h1, h2, if_true, if_false]
        exact Quat.assignNeg2_ok h (by linarith)
      · simp only [h1, h2, if_false]
        exact Quat.assignNeg0_ok h (by linarith)

/-- `assignQuaternion(q.toRotationMatrix())` is `q` or `-q` -/
theorem C41_roundtrip {q : Quat K} (h : q.sqNorm = 1) : Quat.assign q.toMat = q ∨ Quat.assign q.toMat = -q := by
  obtain ⟨h1, h2⟩ := C41_assign (C41_rotation h)
  exact (C41_same_rotation h1 h).1 h2
end field

/-! ## the hypotheses are met, on every branch -/
example : (⟨3/5, 0, 4/5, 0⟩ : Quat ℝ).sqNorm = 1 ∧ (⟨1/2, 1/2, 1/2, 1/2⟩ : Quat ℝ).sqNorm = 1 := by
  norm_num [Quat.sqNorm]
example : ((⟨3/5, 0, 4/5, 0⟩ : Quat ℝ).toMat).IsRot := C41_rotation (by norm_num [Quat.sqNorm])

/-- the three branches for a non-positive trace are reached by half turns -/
example : (⟨1, 0, 0, 0, -1, 0, 0, 0, -1⟩ : M3 ℝ) = (⟨1, 0, 0, 0⟩ : Quat ℝ).toMat ∧
    (⟨-1, 0, 0, 0, 1, 0, 0, 0, -1⟩ : M3 ℝ) = (⟨0, 1, 0, 0⟩ : Quat ℝ).toMat ∧
    (⟨-1, 0, 0, 0, -1, 0, 0, 0, 1⟩ : M3 ℝ) = (⟨0, 0, 1, 0⟩ : Quat ℝ).toMat := by
  norm_num [Quat.toMat, quatMat]

end Pin
