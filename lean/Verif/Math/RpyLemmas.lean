import Verif.Math.Rpy
import Verif.Math.Quaternion
import Verif.Spec.Rpy
import Verif.Spatial.InertiaLemmas

/-! # Lemmas on roll, pitch, yaw -/

namespace Pin
namespace Rpy
open Real Spec

theorem half (t : ℝ) : sin t = 2 * sin (t / 2) * cos (t / 2) ∧ cos t = 1 - 2 * sin (t / 2) * sin (t / 2) ∧
    sin (t / 2) * sin (t / 2) + cos (t / 2) * cos (t / 2) = 1 := by
  have h := sin_sq_add_cos_sq (t / 2)
  refine ⟨?_, ?_, by linear_combination h⟩
  · rw [← sin_two_mul]; congr 1; ring
  · have : cos t = cos (2 * (t / 2)) := by congr 1; ring
    rw [this, cos_two_mul]; linear_combination 2 * h

theorem angleAxis_unit (t : ℝ) {u : V3 ℝ} (hu : u.x * u.x + u.y * u.y + u.z * u.z = 1) : (angleAxis t u).sqNorm = 1 := by
  obtain ⟨_, _, h⟩ := half t
  unfold Quat.sqNorm angleAxis
  linear_combination h + sin (t / 2) * sin (t / 2) * hu

theorem angleAxis_x (t : ℝ) : (angleAxis t ⟨1, 0, 0⟩).toMat = rotX t := by
  obtain ⟨h1, h2, h3⟩ := half t
  ext <;> simp [angleAxis, Quat.toMat, quatMat, rotX] <;> linarith

theorem angleAxis_y (t : ℝ) : (angleAxis t ⟨0, 1, 0⟩).toMat = rotY t := by
  obtain ⟨h1, h2, h3⟩ := half t
  ext <;> simp [angleAxis, Quat.toMat, quatMat, rotY] <;> linarith

theorem angleAxis_z (t : ℝ) : (angleAxis t ⟨0, 0, 1⟩).toMat = rotZ t := by
  obtain ⟨h1, h2, h3⟩ := half t
  ext <;> simp [angleAxis, Quat.toMat, quatMat, rotZ] <;> linarith

theorem toMatrix_eq (r p y : ℝ) : rpyToMatrix r p y = rotZ y * rotY p * rotX r := by
  have hx := angleAxis_unit r (u := ⟨1, 0, 0⟩) (by simp)
  have hy := angleAxis_unit p (u := ⟨0, 1, 0⟩) (by simp)
  have hz := angleAxis_unit y (u := ⟨0, 0, 1⟩) (by simp)
  unfold rpyToMatrix
  rw [Quat.toMat_mul (by rw [Quat.sqNorm_mul, hz, hy, one_mul]) hx, Quat.toMat_mul hz hy, angleAxis_x, angleAxis_y,
    angleAxis_z]

theorem entries (r p y : ℝ) : rpyToMatrix r p y =
    ⟨cos y * cos p, cos y * sin p * sin r - sin y * cos r, cos y * sin p * cos r + sin y * sin r,
     sin y * cos p, sin y * sin p * sin r + cos y * cos r, sin y * sin p * cos r - cos y * sin r,
     -sin p, cos p * sin r, cos p * cos r⟩ := by
  rw [toMatrix_eq]
  ext <;> simp [rotX, rotY, rotZ] <;> ring

theorem rot_x (t : ℝ) : (rotX t).IsRot := by
  have h := sin_sq_add_cos_sq t
  constructor
  · ext <;> simp [rotX] <;> linarith
  · simp [rotX, M3.det]; linarith

theorem rot_y (t : ℝ) : (rotY t).IsRot := by
  have h := sin_sq_add_cos_sq t
  constructor
  · ext <;> simp [rotY] <;> linarith
  · simp [rotY, M3.det]; linarith

theorem rot_z (t : ℝ) : (rotZ t).IsRot := by
  have h := sin_sq_add_cos_sq t
  constructor
  · ext <;> simp [rotZ] <;> linarith
  · simp [rotZ, M3.det]; linarith

/-! ## the angles of a matrix -/

theorem atan2_polar (s c : ℝ) : sqrt (c * c + s * s) * cos (Lie.atan2 s c) = c ∧
    sqrt (c * c + s * s) * sin (Lie.atan2 s c) = s := by
  have hn : ‖(⟨c, s⟩ : ℂ)‖ = sqrt (c * c + s * s) := by
    rw [Complex.norm_eq_sqrt_sq_add_sq]; simp only [pow_two]
  unfold Lie.atan2
  rw [← hn]
  exact ⟨Complex.norm_mul_cos_arg _, Complex.norm_mul_sin_arg _⟩

theorem atan2_unit {s c : ℝ} (h : c * c + s * s = 1) : cos (Lie.atan2 s c) = c ∧ sin (Lie.atan2 s c) = s := by
  have := atan2_polar s c
  rwa [h, sqrt_one, one_mul, one_mul] at this

theorem atan2_range (s c : ℝ) : -π < Lie.atan2 s c ∧ Lie.atan2 s c ≤ π :=
  ⟨Complex.neg_pi_lt_arg _, Complex.arg_le_pi _⟩

/-- what determines the angles of a rotation -/
theorem of_angles {R : M3 ℝ} (h : R.IsRot) {r p y : ℝ} (h00 : R.m00 = cos y * cos p) (h10 : R.m10 = sin y * cos p)
    (h20 : R.m20 = -sin p) (hc : cos r = cos y * R.m11 - sin y * R.m01) (hs : sin r = sin y * R.m02 - cos y * R.m12) :
    rpyToMatrix r p y = R := by
  obtain ⟨_, _, e00, e01, e02, e10, e11, e12, e20, e21, e22⟩ := h.eqs
  have hy := sin_sq_add_cos_sq y
  rw [entries]
  generalize cos r = cr at *
  generalize sin r = sr at *
  generalize cos p = cp at *
  generalize sin p = sp at *
  generalize cos y = cy at *
  generalize sin y = sy at *
  subst hc hs
  ext
  · exact h00.symm
  · dsimp only; grind
  · dsimp only; grind
  · exact h10.symm
  · dsimp only; grind
  · dsimp only; grind
  · exact h20.symm
  · dsimp only; grind
  · dsimp only; grind

/-- turning roll and yaw by half a turn and mirroring the pitch is the same orientation -/
theorem flip {r p y r' p' y' : ℝ} (hr : cos r' = -cos r ∧ sin r' = -sin r) (hp : cos p' = -cos p ∧ sin p' = sin p)
    (hy : cos y' = -cos y ∧ sin y' = -sin y) : rpyToMatrix r' p' y' = rpyToMatrix r p y := by
  rw [entries, entries, hr.1, hr.2, hp.1, hp.2, hy.1, hy.2]
  ext <;> ring

theorem pitch_range {p : ℝ} (hl : -π < p) (hu : p ≤ π) (hc : 0 ≤ cos p) : -(π / 2) ≤ p ∧ p ≤ π / 2 := by
  constructor
  · by_contra hn
    have : cos p < 0 := by
      rw [← cos_neg]; exact cos_neg_of_pi_div_two_lt_of_lt (by linarith) (by linarith [pi_pos])
    linarith
  · by_contra hn
    have : cos p < 0 := cos_neg_of_pi_div_two_lt_of_lt (by linarith) (by linarith [pi_pos])
    linarith

theorem pitch_far {p : ℝ} (hc : cos p < 0) : p < -(π / 2) ∨ π / 2 < p := by
  by_contra hn
  have hn := not_or.1 hn
  have := cos_nonneg_of_neg_pi_div_two_le_of_le (not_lt.1 hn.1) (not_lt.1 hn.2)
  linarith

/-- the norm of the first column without its last entry -/
theorem c2_eq {R : M3 ℝ} (h : R.IsRot) : sqrt (R.m22 * R.m22 + R.m21 * R.m21) = sqrt (R.m00 * R.m00 + R.m10 * R.m10) := by
  obtain ⟨⟨a, -, -, -, -, -⟩, ⟨-, -, -, -, -, b⟩, -⟩ := h.eqs
  congr 1; linarith

theorem c2_unit {R : M3 ℝ} (h : R.IsRot) :
    sqrt (R.m00 * R.m00 + R.m10 * R.m10) * sqrt (R.m00 * R.m00 + R.m10 * R.m10) + -R.m20 * -R.m20 = 1 := by
  obtain ⟨⟨a, -, -, -, -, -⟩, -, -⟩ := h.eqs
  rw [mul_self_sqrt (by nlinarith [mul_self_nonneg R.m00, mul_self_nonneg R.m10])]
  linarith

/-- the roll is that of a unit vector as soon as the yaw cancels the first column -/
theorem roll_unit {R : M3 ℝ} (h : R.IsRot) {y c : ℝ} (h00 : R.m00 = cos y * c) (h10 : R.m10 = sin y * c) :
    (cos y * R.m11 - sin y * R.m01) * (cos y * R.m11 - sin y * R.m01) +
    (sin y * R.m02 - cos y * R.m12) * (sin y * R.m02 - cos y * R.m12) = 1 := by
  obtain ⟨-, ⟨b0, b1, b2, b3, b4, b5⟩, -⟩ := h.eqs
  have hy := sin_sq_add_cos_sq y
  generalize cos y = cy at *
  generalize sin y = sy at *
  grind

theorem eulerAngles_ok {R : M3 ℝ} (h : R.IsRot) :
    rpyToMatrix (eulerAngles210 R).2.2 (eulerAngles210 R).2.1 (eulerAngles210 R).1 = R ∧
    (-π < (eulerAngles210 R).2.2 ∧ (eulerAngles210 R).2.2 ≤ π) ∧
    (-π < (eulerAngles210 R).2.1 ∧ (eulerAngles210 R).2.1 ≤ π) ∧
    ((0 ≤ Lie.atan2 R.m10 R.m00 ∧ (eulerAngles210 R).1 = Lie.atan2 R.m10 R.m00 ∧ 0 ≤ cos (eulerAngles210 R).2.1) ∨
     (Lie.atan2 R.m10 R.m00 < 0 ∧ (eulerAngles210 R).1 = Lie.atan2 R.m10 R.m00 + π ∧ cos (eulerAngles210 R).2.1 < 0)) := by
  obtain ⟨ac, as⟩ := atan2_polar R.m10 R.m00
  have hu := c2_unit h
  have h2 := c2_eq h
  unfold eulerAngles210
  dsimp only
  rw [h2]
  have hc0 := sqrt_nonneg (R.m00 * R.m00 + R.m10 * R.m10)
  have hz : sqrt (R.m00 * R.m00 + R.m10 * R.m10) = 0 → Lie.atan2 R.m10 R.m00 = 0 := by
    intro e
    rw [e, zero_mul] at ac as
    rw [← ac, ← as]
    unfold Lie.atan2
    exact Complex.arg_zero
  generalize sqrt (R.m00 * R.m00 + R.m10 * R.m10) = c2 at *
  generalize Lie.atan2 R.m10 R.m00 = a at *
  by_cases ha : a < 0
  · rw [if_pos ha, if_neg (not_lt.2 ha.le), if_pos ha]
    have hpos : 0 < c2 := lt_of_le_of_ne hc0 (fun e => by rw [hz e.symm] at ha; exact lt_irrefl _ ha)
    obtain ⟨pc, ps⟩ := atan2_unit (s := -R.m20) (c := -c2) (by linarith)
    have e00 : R.m00 = cos (a + π) * -c2 := by rw [cos_add_pi]; linarith
    have e10 : R.m10 = sin (a + π) * -c2 := by rw [sin_add_pi]; linarith
    obtain ⟨rc, rs⟩ := atan2_unit (roll_unit h e00 e10)
    refine ⟨of_angles h ?_ ?_ ?_ rc rs, atan2_range _ _, atan2_range _ _, Or.inr ⟨ha, rfl, ?_⟩⟩
    · rw [pc]; exact e00
    · rw [pc]; exact e10
    · rw [ps]; ring
    · rw [pc]; linarith
  · rw [if_neg ha, if_neg ha]
    obtain ⟨pc, ps⟩ := atan2_unit (s := -R.m20) (c := c2) (by linarith)
    have e00 : R.m00 = cos a * c2 := by linarith
    have e10 : R.m10 = sin a * c2 := by linarith
    obtain ⟨rc, rs⟩ := atan2_unit (roll_unit h e00 e10)
    refine ⟨of_angles h ?_ ?_ ?_ rc rs, atan2_range _ _, atan2_range _ _, Or.inl ⟨not_lt.1 ha, rfl, ?_⟩⟩
    · rw [pc]; exact e00
    · rw [pc]; exact e10
    · rw [ps]; ring
    · rw [pc]; exact hc0

theorem matrixToRpy_ok {R : M3 ℝ} (h : R.IsRot) :
    rpyToMatrix (matrixToRpy R).1 (matrixToRpy R).2.1 (matrixToRpy R).2.2 = R ∧
    (-π ≤ (matrixToRpy R).1 ∧ (matrixToRpy R).1 ≤ π) ∧
    (-(π / 2) ≤ (matrixToRpy R).2.1 ∧ (matrixToRpy R).2.1 ≤ π / 2) ∧
    (matrixToRpy R).2.2 = Lie.atan2 R.m10 R.m00 := by
  obtain ⟨e, hr, hp, hy⟩ := eulerAngles_ok h
  have hpi := pi_pos
  unfold matrixToRpy
  dsimp only
  generalize (eulerAngles210 R).2.2 = r at *
  generalize (eulerAngles210 R).2.1 = p at *
  generalize (eulerAngles210 R).1 = y at *
  generalize Lie.atan2 R.m10 R.m00 = a at *
  rcases hy with ⟨_, hy, hc⟩ | ⟨_, hy, hc⟩
  · obtain ⟨h1, h2⟩ := pitch_range hp.1 hp.2 hc
    rw [if_neg (show ¬ p < -π / 2 by linarith), if_neg (not_lt.2 h2)]
    exact ⟨e, ⟨hr.1.le, hr.2⟩, ⟨h1, h2⟩, hy⟩
  · set p' := if p < -π / 2 then p + 2 * π else p with hp'
    have hq : cos p' = cos p ∧ sin p' = sin p ∧ π / 2 < p' ∧ p' ≤ 3 * π / 2 := by
      rw [hp']
      split
      · rename_i hlt
        exact ⟨cos_add_two_pi p, sin_add_two_pi p, by linarith [hp.1], by linarith⟩
      · rename_i hlt
        refine ⟨rfl, rfl, ?_, by linarith [hp.2]⟩
        rcases pitch_far hc with h1 | h1
        · exact absurd (show p < -π / 2 by linarith) hlt
        · exact h1
    rw [if_pos hq.2.2.1]
    dsimp only
    refine ⟨?_, ?_, ⟨by linarith [hq.2.2.2], by linarith [hq.2.2.1]⟩, by rw [hy]; ring⟩
    · rw [← e]
      refine flip ?_ ⟨by rw [cos_pi_sub, hq.1], by rw [sin_pi_sub, hq.2.1]⟩ ⟨cos_sub_pi y, sin_sub_pi y⟩
      split
      · exact ⟨cos_add_pi r, sin_add_pi r⟩
      · exact ⟨cos_sub_pi r, sin_sub_pi r⟩
    · split
      · rename_i h0
        exact ⟨by linarith [hr.1], by linarith⟩
      · rename_i h0
        exact ⟨by linarith [not_lt.1 h0], by linarith [hr.2]⟩

/-- angles less than a turn apart with the same sine and cosine are equal -/
theorem angle_eq {a b : ℝ} (hc : cos a = cos b) (hs : sin a = sin b) (h1 : a - b < 2 * π) (h2 : b - a < 2 * π) : a = b := by
  have h : cos (a - b) = 1 := by
    rw [cos_sub, hc, hs]; have := sin_sq_add_cos_sq b; linarith
  have := (cos_eq_one_iff_of_lt_of_lt (by linarith) h1).1 h
  linarith

/-- the angles are determined by the orientation, away from the singular pitches -/
theorem unique {r p y r' p' y' : ℝ} (e : rpyToMatrix r p y = rpyToMatrix r' p' y') (hp : -(π / 2) < p ∧ p < π / 2)
    (hp' : -(π / 2) ≤ p' ∧ p' ≤ π / 2) (hy : |y - y'| < 2 * π) (hr : |r - r'| < 2 * π) : r = r' ∧ p = p' ∧ y = y' := by
  rw [entries, entries] at e
  simp only [M3.mk.injEq] at e
  obtain ⟨e00, -, -, e10, -, -, e20, e21, e22⟩ := e
  have hpp : p = p' := injOn_sin ⟨hp.1.le, hp.2.le⟩ hp' (by linarith)
  subst hpp
  have hc : cos p ≠ 0 := (cos_pos_of_mem_Ioo hp).ne'
  rw [abs_lt] at hy hr
  refine ⟨angle_eq (mul_left_cancel₀ hc e22) (mul_left_cancel₀ hc e21) (by linarith) (by linarith), rfl,
    angle_eq (mul_right_cancel₀ hc e00) (mul_right_cancel₀ hc e10) (by linarith) (by linarith)⟩

end Rpy
end Pin
