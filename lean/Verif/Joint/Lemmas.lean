import Verif.Spec.Dual
import Mathlib.Tactic.FinCases

/-! # Lemmas about the joint types -/

namespace Pin
open Finset DualNumber TrivSqZeroExt
universe u
variable {K : Type u} [CommRing K]

@[simp] theorem V3.map_x {L M : Type*} (f : L → M) (a : V3 L) : (a.map f).x = f a.x := rfl
@[simp] theorem V3.map_y {L M : Type*} (f : L → M) (a : V3 L) : (a.map f).y = f a.y := rfl
@[simp] theorem V3.map_z {L M : Type*} (f : L → M) (a : V3 L) : (a.map f).z = f a.z := rfl

theorem rotAxis_rot (a : Fin 3) {s c : K} (h : s * s + c * c = 1) : (rotAxis a s c).IsRot := by
  fin_cases a <;>
  · refine ⟨?_, ?_⟩
    · ext <;> simp [rotAxis] <;> first | ring1 | linear_combination h
    · simp [rotAxis, M3.det]; linear_combination h

theorem toRotationMatrix_rot {u : V3 K} {s c : K} (hu : u.sqNorm = 1) (h : s * s + c * c = 1) :
    (toRotationMatrix u c s).IsRot := by
  simp only [V3.sqNorm] at hu
  refine ⟨?_, ?_⟩
  · ext <;> simp only [toRotationMatrix, M3.mul_m00, M3.mul_m01, M3.mul_m02, M3.mul_m10, M3.mul_m11,
      M3.mul_m12, M3.mul_m20, M3.mul_m21, M3.mul_m22, M3.tr, V3.smul_x, V3.smul_y, V3.smul_z,
      M3.one_m00, M3.one_m01, M3.one_m02, M3.one_m10, M3.one_m11, M3.one_m12, M3.one_m20, M3.one_m21,
      M3.one_m22]
    · linear_combination (1 - u.x * u.x) * h + (s * s + (1 - c) * (1 - c) * u.x * u.x) * hu
    · linear_combination (- u.x * u.y) * h + ((1 - c) * (1 - c) * u.x * u.y) * hu
    · linear_combination (- u.x * u.z) * h + ((1 - c) * (1 - c) * u.x * u.z) * hu
    · linear_combination (- u.x * u.y) * h + ((1 - c) * (1 - c) * u.x * u.y) * hu
    · linear_combination (1 - u.y * u.y) * h + (s * s + (1 - c) * (1 - c) * u.y * u.y) * hu
    · linear_combination (- u.y * u.z) * h + ((1 - c) * (1 - c) * u.y * u.z) * hu
    · linear_combination (- u.x * u.z) * h + ((1 - c) * (1 - c) * u.x * u.z) * hu
    · linear_combination (- u.y * u.z) * h + ((1 - c) * (1 - c) * u.y * u.z) * hu
    · linear_combination (1 - u.z * u.z) * h + (s * s + (1 - c) * (1 - c) * u.z * u.z) * hu
  · simp only [toRotationMatrix, M3.det, V3.smul_x, V3.smul_y, V3.smul_z]
    linear_combination (1 + (1 - c) * (u.x * u.x + u.y * u.y + u.z * u.z - 1)) * h
      + (s * s + (1 - c) * (1 + s * s * (u.x * u.x + u.y * u.y + u.z * u.z - 1))) * hu

theorem quatMat_rot {x y z w : K} (h : x * x + y * y + z * z + w * w = 1) : (quatMat x y z w).IsRot := by
  refine ⟨?_, ?_⟩
  · ext <;> simp only [quatMat, M3.mul_m00, M3.mul_m01, M3.mul_m02, M3.mul_m10, M3.mul_m11,
      M3.mul_m12, M3.mul_m20, M3.mul_m21, M3.mul_m22, M3.tr,
      M3.one_m00, M3.one_m01, M3.one_m02, M3.one_m10, M3.one_m11, M3.one_m12, M3.one_m20, M3.one_m21,
      M3.one_m22]
    · linear_combination (4 * (y * y + z * z)) * h
    · linear_combination (-4 * (x * y)) * h
    · linear_combination (-4 * (x * z)) * h
    · linear_combination (-4 * (x * y)) * h
    · linear_combination (4 * (x * x + z * z)) * h
    · linear_combination (-4 * (y * z)) * h
    · linear_combination (-4 * (x * z)) * h
    · linear_combination (-4 * (y * z)) * h
    · linear_combination (4 * (x * x + y * y)) * h
  · simp only [quatMat, M3.det]
    linear_combination (4 * (x * x + y * y + z * z)) * h

theorem comb_cols (l : List (Motion K)) (w : ℕ → K) :
    comb (cols l) l.length w = ∑ k ∈ range l.length, w k • l.getD k 0 := rfl

theorem comb_one (S : ℕ → Motion K) (w : ℕ → K) : comb S 1 w = w 0 • S 0 := by simp [comb]
theorem comb_two (S : ℕ → Motion K) (w : ℕ → K) : comb S 2 w = w 0 • S 0 + w 1 • S 1 := by
  simp [comb, Finset.sum_range_succ]
theorem comb_three (S : ℕ → Motion K) (w : ℕ → K) :
    comb S 3 w = w 0 • S 0 + w 1 • S 1 + w 2 • S 2 := by simp [comb, Finset.sum_range_succ]
theorem comb_six (S : ℕ → Motion K) (w : ℕ → K) :
    comb S 6 w = w 0 • S 0 + w 1 • S 1 + w 2 • S 2 + w 3 • S 3 + w 4 • S 4 + w 5 • S 5 := by
  simp [comb, Finset.sum_range_succ]

/-! ## The joint transform is rigid and the joint velocity is `S w` -/

section ok
theorem jRevolute_ok (a : Fin 3) [Trig K] (q : ℕ → K) : (jRevolute a : Joint K).Ok q where
  valid := rotAxis_rot a (Trig.sq _)
  vel w := by rw [show (jRevolute a : Joint K).nv = 1 from rfl, comb_one]
              ext <;> simp [jRevolute, cols]

theorem jRevoluteUnaligned_ok {u : V3 K} (hu : u.sqNorm = 1) [Trig K] (q : ℕ → K) :
    (jRevoluteUnaligned u).Ok q where
  valid := toRotationMatrix_rot hu (Trig.sq _)
  vel w := by rw [show (jRevoluteUnaligned u).nv = 1 from rfl, comb_one]
              ext <;> simp [jRevoluteUnaligned, cols]

theorem jRUB_ok (a : Fin 3) {q : ℕ → K} (h : q 0 * q 0 + q 1 * q 1 = 1) : (jRUB a : Joint K).Ok q where
  valid := rotAxis_rot a (by linear_combination h)
  vel w := by rw [show (jRUB a : Joint K).nv = 1 from rfl, comb_one]
              ext <;> simp [jRUB, cols]

theorem jRUBUnaligned_ok {u : V3 K} (hu : u.sqNorm = 1) {q : ℕ → K} (h : q 0 * q 0 + q 1 * q 1 = 1) :
    (jRUBUnaligned u).Ok q where
  valid := toRotationMatrix_rot hu (by linear_combination h)
  vel w := by rw [show (jRUBUnaligned u).nv = 1 from rfl, comb_one]
              ext <;> simp [jRUBUnaligned, cols]

theorem jPrismatic_ok (a : Fin 3) (q : ℕ → K) : (jPrismatic a : Joint K).Ok q where
  valid := M3.IsRot.one
  vel w := by rw [show (jPrismatic a : Joint K).nv = 1 from rfl, comb_one]
              ext <;> simp [jPrismatic, cols]

theorem jPrismaticUnaligned_ok (u : V3 K) (q : ℕ → K) : (jPrismaticUnaligned u).Ok q where
  valid := M3.IsRot.one
  vel w := by rw [show (jPrismaticUnaligned u).nv = 1 from rfl, comb_one]
              ext <;> simp [jPrismaticUnaligned, cols]

theorem jTranslation_ok (q : ℕ → K) : (jTranslation : Joint K).Ok q where
  valid := M3.IsRot.one
  vel w := by rw [show (jTranslation : Joint K).nv = 3 from rfl, comb_three]
              ext <;> simp [jTranslation, cols, V3.axis, V3.ofSeq]

theorem jPlanar_ok {q : ℕ → K} (h : q 2 * q 2 + q 3 * q 3 = 1) : (jPlanar : Joint K).Ok q where
  valid := rotAxis_rot 2 (by linear_combination h)
  vel w := by rw [show (jPlanar : Joint K).nv = 3 from rfl, comb_three]
              ext <;> simp [jPlanar, cols, V3.axis]

theorem jSpherical_ok {q : ℕ → K} (h : q 0 * q 0 + q 1 * q 1 + q 2 * q 2 + q 3 * q 3 = 1) :
    (jSpherical : Joint K).Ok q where
  valid := quatMat_rot h
  vel w := by rw [show (jSpherical : Joint K).nv = 3 from rfl, comb_three]
              ext <;> simp [jSpherical, cols, V3.axis, V3.ofSeq]

theorem jFreeFlyer_ok {q : ℕ → K} (h : q 3 * q 3 + q 4 * q 4 + q 5 * q 5 + q 6 * q 6 = 1) :
    (jFreeFlyer : Joint K).Ok q where
  valid := quatMat_rot h
  vel w := by rw [show (jFreeFlyer : Joint K).nv = 6 from rfl, comb_six]
              ext <;> simp [jFreeFlyer, cols, V3.axis, V3.ofSeq, seg]

theorem jSphericalZYX_ok [Trig K] (q : ℕ → K) : (jSphericalZYX : Joint K).Ok q where
  valid := by
    have h0 := Trig.sq (q 0)
    have h1 := Trig.sq (q 1)
    have h2 := Trig.sq (q 2)
    have e : ((jSphericalZYX : Joint K).M q).rot = rotAxis 2 (Trig.sin (q 0)) (Trig.cos (q 0))
        * rotAxis 1 (Trig.sin (q 1)) (Trig.cos (q 1)) * rotAxis 0 (Trig.sin (q 2)) (Trig.cos (q 2)) := by
      ext <;> simp [jSphericalZYX, rotAxis] <;> ring
    unfold SE3.Valid
    rw [e]
    exact ((rotAxis_rot 2 h0).mul (rotAxis_rot 1 h1)).mul (rotAxis_rot 0 h2)
  vel w := by rw [show (jSphericalZYX : Joint K).nv = 3 from rfl, comb_three]
              ext <;> simp [jSphericalZYX, cols, angMul, Finset.sum_range_succ]

theorem jUniversal_ok {a1 a2 : V3 K} (h1 : a1.sqNorm = 1) (h2 : a2.sqNorm = 1) [Trig K] (q : ℕ → K) :
    (jUniversal a1 a2).Ok q where
  valid := (toRotationMatrix_rot h1 (Trig.sq _)).mul (toRotationMatrix_rot h2 (Trig.sq _))
  vel w := by rw [show (jUniversal a1 a2).nv = 2 from rfl, comb_two]
              ext <;> simp [jUniversal, cols, angMul, Finset.sum_range_succ]

theorem jHelical_ok (a : Fin 3) (h : K) [Trig K] (q : ℕ → K) : (jHelical a h).Ok q where
  valid := rotAxis_rot a (Trig.sq _)
  vel w := by rw [show (jHelical a h).nv = 1 from rfl, comb_one]
              ext <;> simp [jHelical, cols, mul_assoc]

theorem jHelicalUnaligned_ok {u : V3 K} (hu : u.sqNorm = 1) (h : K) [Trig K] (q : ℕ → K) :
    (jHelicalUnaligned u h).Ok q where
  valid := toRotationMatrix_rot hu (Trig.sq _)
  vel w := by rw [show (jHelicalUnaligned u h).nv = 1 from rfl, comb_one]
              ext <;> simp [jHelicalUnaligned, cols, mul_assoc]
end ok
end Pin
