import Verif.Math.RpyLemmas
import Mathlib.Analysis.Real.Pi.Bounds

/-! # C65: roll, pitch, yaw -/

namespace Pin
open Real Spec Rpy

/-- the matrix of roll, pitch and yaw is the product of the elementary rotations `Rz(yaw) Ry(pitch) Rx(roll)`, and is a
rotation -/
theorem C65_matrix (r p y : ℝ) : rpyToMatrix r p y = rotZ y * rotY p * rotX r ∧ (rpyToMatrix r p y).IsRot := by
  refine ⟨toMatrix_eq r p y, ?_⟩
  rw [toMatrix_eq]
  exact M3.IsRot.mul (M3.IsRot.mul (rot_z y) (rot_y p)) (rot_x r)

/-- the angles found for a rotation, the singular ones included, give this rotation back, and lie in the documented ranges -/
theorem C65_angles {R : M3 ℝ} (h : R.IsRot) : ∃ r p y, matrixToRpy R = (r, p, y) ∧
    rotZ y * rotY p * rotX r = R ∧ r ∈ Set.Icc (-π) π ∧ p ∈ Set.Icc (-(π / 2)) (π / 2) ∧ y ∈ Set.Ioc (-π) π := by
  obtain ⟨e, hr, hp, hy⟩ := matrixToRpy_ok h
  refine ⟨(matrixToRpy R).1, (matrixToRpy R).2.1, (matrixToRpy R).2.2, rfl, ?_, hr, hp, ?_⟩
  · rw [← toMatrix_eq]; exact e
  · rw [hy]; exact atan2_range _ _

/-- a rotation whose pitch is a quarter of a turn is given the yaw zero -/
theorem C65_singular {R : M3 ℝ} (h : R.IsRot) (hs : R.m20 = 1 ∨ R.m20 = -1) : (matrixToRpy R).2.2 = 0 := by
  obtain ⟨-, -, -, hy⟩ := matrixToRpy_ok h
  obtain ⟨⟨a, -, -, -, -, -⟩, -, -⟩ := h.eqs
  have hq : R.m20 * R.m20 = 1 := by rcases hs with e | e <;> rw [e] <;> ring
  have h0 : R.m00 = 0 := by nlinarith [mul_self_nonneg R.m00, mul_self_nonneg R.m10]
  have h1 : R.m10 = 0 := by nlinarith [mul_self_nonneg R.m00, mul_self_nonneg R.m10]
  rw [hy, h0, h1]
  exact Complex.arg_zero

/-- angles inside the ranges are found again from their matrix -/
theorem C65_roundtrip {r p y : ℝ} (hr : r ∈ Set.Ioo (-π) π) (hp : p ∈ Set.Ioo (-(π / 2)) (π / 2)) (hy : y ∈ Set.Ioc (-π) π) :
    matrixToRpy (rpyToMatrix r p y) = (r, p, y) := by
  obtain ⟨e, hr', hp', hy'⟩ := matrixToRpy_ok (C65_matrix r p y).2
  have hy2 := atan2_range (rpyToMatrix r p y).m10 (rpyToMatrix r p y).m00
  rw [← hy'] at hy2
  obtain ⟨a, b, c⟩ := unique e.symm hp hp' (by rw [abs_lt]; constructor <;> linarith [hy.1, hy.2, hy2.1, hy2.2])
    (by rw [abs_lt]; constructor <;> linarith [hr.1, hr.2, hr'.1, hr'.2])
  exact Prod.ext a.symm (Prod.ext b.symm c.symm)

/-- `w` is the angular velocity at `t` of the moving orientation `R`, in the frame `rf` -/
def AngVelIn (rf : RF) (R : ℝ → M3 ℝ) (w : V3 ℝ) (t : ℝ) : Prop :=
  match rf with
  | .LOCAL => AngVel R w t
  | .WORLD | .LOCAL_WORLD_ALIGNED => AngVelWorld R w t

/-- the Jacobian maps the rates of roll, pitch and yaw to the angular velocity, in the frame asked for, of the moving
orientation -/
theorem C65_jacobian (rf : RF) {r p y : ℝ → ℝ} {dr dp dy t : ℝ} (hr : HasDerivAt r dr t) (hp : HasDerivAt p dp t)
    (hy : HasDerivAt y dy t) :
    AngVelIn rf (fun s => rpyToMatrix (r s) (p s) (y s)) ((jacobian (r t) (p t) (y t) rf).mulVec ⟨dr, dp, dy⟩) t := by
  have sr := hr.sin
  have cr := hr.cos
  have sp := hp.sin
  have cp := hp.cos
  have sy := hy.sin
  have cy := hy.cos
  have q1 := sin_sq_add_cos_sq (r t)
  have q2 := sin_sq_add_cos_sq (p t)
  have q3 := sin_sq_add_cos_sq (y t)
  cases rf <;> simp only [AngVelIn, AngVel, AngVelWorld, entries] <;> constructor <;> dsimp only
  all_goals first
    | refine (cy.fun_mul cp).congr_deriv ?_
    | refine (((cy.fun_mul sp).fun_mul sr).fun_sub (sy.fun_mul cr)).congr_deriv ?_
    | refine (((cy.fun_mul sp).fun_mul cr).fun_add (sy.fun_mul sr)).congr_deriv ?_
    | refine (sy.fun_mul cp).congr_deriv ?_
    | refine (((sy.fun_mul sp).fun_mul sr).fun_add (cy.fun_mul cr)).congr_deriv ?_
    | refine (((sy.fun_mul sp).fun_mul cr).fun_sub (cy.fun_mul sr)).congr_deriv ?_
    | refine sp.fun_neg.congr_deriv ?_
    | refine (cp.fun_mul sr).congr_deriv ?_
    | refine (cp.fun_mul cr).congr_deriv ?_
  all_goals
    simp only [jacobian, M3.mulVec, M3.skew, M3.mul_m00, M3.mul_m01, M3.mul_m02, M3.mul_m10, M3.mul_m11, M3.mul_m12,
      M3.mul_m20, M3.mul_m21, M3.mul_m22]
    generalize cos (r t) = cr' at *
    generalize sin (r t) = sr' at *
    generalize cos (p t) = cp' at *
    generalize sin (p t) = sp' at *
    generalize cos (y t) = cy' at *
    generalize sin (y t) = sy' at *
    clear sr cr sp cp sy cy hr hp hy
    grind

/-- away from the singular pitches the inverse Jacobian is the inverse of the Jacobian -/
theorem C65_inverse (rf : RF) (r p y : ℝ) (h : cos p ≠ 0) :
    jacobian r p y rf * jacobianInverse r p y rf = 1 ∧ jacobianInverse r p y rf * jacobian r p y rf = 1 := by
  have q1 := sin_sq_add_cos_sq r
  have q2 := sin_sq_add_cos_sq p
  have q3 := sin_sq_add_cos_sq y
  generalize hcr : cos r = cr' at *
  generalize hsr : sin r = sr' at *
  generalize hcp : cos p = cp' at *
  generalize hsp : sin p = sp' at *
  generalize hcy : cos y = cy' at *
  generalize hsy : sin y = sy' at *
  cases rf <;> constructor <;> ext <;>
    simp only [jacobian, jacobianInverse, hcr, hsr, hcp, hsp, hcy, hsy, M3.mul_m00, M3.mul_m01, M3.mul_m02, M3.mul_m10,
      M3.mul_m11, M3.mul_m12, M3.mul_m20, M3.mul_m21, M3.mul_m22, M3.one_m00, M3.one_m01, M3.one_m02, M3.one_m10, M3.one_m11,
      M3.one_m12, M3.one_m20, M3.one_m21, M3.one_m22] <;> field_simp <;> grind

/-- the time derivative of the Jacobian is the derivative of the Jacobian along every motion of the angles -/
theorem C65_jacobian_dot (rf : RF) {r p y : ℝ → ℝ} {dr dp dy t : ℝ} (hr : HasDerivAt r dr t) (hp : HasDerivAt p dp t)
    (hy : HasDerivAt y dy t) :
    MDeriv (fun s => jacobian (r s) (p s) (y s) rf) (jacobianDot (r t) (p t) (y t) dr dp dy rf) t := by
  have sr := hr.sin
  have cr := hr.cos
  have sp := hp.sin
  have cp := hp.cos
  have sy := hy.sin
  have cy := hy.cos
  cases rf <;> constructor <;> simp only [jacobian, jacobianDot]
  all_goals first
    | exact hasDerivAt_const _ _
    | refine (cp.fun_mul cy).congr_deriv ?_; ring
    | refine (cp.fun_mul sy).congr_deriv ?_; ring
    | refine (sr.fun_mul cp).congr_deriv ?_; ring
    | refine (cr.fun_mul cp).congr_deriv ?_; ring
    | refine sy.fun_neg.congr_deriv ?_; ring
    | refine sp.fun_neg.congr_deriv ?_; ring
    | refine sr.fun_neg.congr_deriv ?_; ring
    | refine cy.congr_deriv ?_; ring
    | refine cr.congr_deriv ?_; ring

/-! ## examples -/

/-- the angles of `C65_roundtrip` exist, with a negative yaw -/
example : matrixToRpy (rpyToMatrix 1 (-1) (-2)) = (1, -1, -2) :=
  C65_roundtrip ⟨by linarith [pi_gt_three], by linarith [pi_gt_three]⟩ ⟨by linarith [pi_gt_three], by linarith [pi_gt_three]⟩
    ⟨by linarith [pi_gt_three], by linarith [pi_gt_three]⟩

/-- a singular rotation: a quarter of a turn about the second axis, then one radian about the third -/
example : ∃ R : M3 ℝ, R.IsRot ∧ R.m20 = -1 ∧ R ≠ rotY (π / 2) := by
  refine ⟨rpyToMatrix 0 (π / 2) 1, (C65_matrix _ _ _).2, by rw [entries]; simp, ?_⟩
  intro e
  rw [entries] at e
  have := congrArg M3.m01 e
  simp only [rotY, cos_zero, sin_zero, mul_zero, zero_sub, mul_one, neg_eq_zero] at this
  exact (sin_pos_of_pos_of_lt_pi one_pos (by linarith [pi_gt_three])).ne' this

/-- a motion of the three angles for `C65_jacobian` and `C65_jacobian_dot` -/
example (rf : RF) : AngVelIn rf (fun s : ℝ => rpyToMatrix (2 * s) (s * s) 1)
    ((jacobian (2 * 3) (3 * 3) 1 rf).mulVec ⟨2, 3 + 3, 0⟩) 3 :=
  C65_jacobian rf (r := fun s => 2 * s) (p := fun s => s * s) (y := fun _ => 1)
    (by simpa using (hasDerivAt_id (3 : ℝ)).const_mul 2)
    (by simpa using (hasDerivAt_id (3 : ℝ)).fun_mul (hasDerivAt_id (3 : ℝ))) (hasDerivAt_const _ _)

/-- a pitch for `C65_inverse` -/
example : cos (1 : ℝ) ≠ 0 := cos_one_pos.ne'

/-! ## counterexamples -/

/-- `math/rpy.hpp:45-46` gives roll the range `[-π, π]`: with the roll `π` and a negative yaw the roll found is not the
one given, but `-π` -/
theorem C65_half_turn_counterexample : matrixToRpy (rpyToMatrix π 0 (-1)) = (-π, 0, -1) := by
  have e1 : rpyToMatrix π 0 (-1) = rpyToMatrix (-π) 0 (-1) := by rw [entries, entries]; simp
  have hpi := pi_gt_three
  obtain ⟨e, hr', hp', hy'⟩ := matrixToRpy_ok (C65_matrix π 0 (-1)).2
  have hy2 := atan2_range (rpyToMatrix π 0 (-1)).m10 (rpyToMatrix π 0 (-1)).m00
  rw [← hy'] at hy2
  have hm : (matrixToRpy (rpyToMatrix π 0 (-1))).1 ≠ π := by
    obtain ⟨e2, hr, hp, hy⟩ := eulerAngles_ok (C65_matrix π 0 (-1)).2
    have ha : Lie.atan2 (rpyToMatrix π 0 (-1)).m10 (rpyToMatrix π 0 (-1)).m00 = -1 := by
      obtain ⟨c, s⟩ := atan2_unit (s := sin (-1)) (c := cos (-1)) (by have := sin_sq_add_cos_sq (-1); linarith)
      have hh := atan2_range (sin (-1)) (cos (-1))
      have : Lie.atan2 (sin (-1)) (cos (-1)) = -1 := angle_eq c s (by linarith [hh.2]) (by linarith [hh.1])
      rw [entries]
      simpa using this
    rw [ha] at hy
    obtain ⟨h0, -⟩ | ⟨-, h1, h2⟩ := hy
    · linarith
    unfold matrixToRpy
    dsimp only
    generalize (eulerAngles210 (rpyToMatrix π 0 (-1))).2.2 = r0 at *
    generalize (eulerAngles210 (rpyToMatrix π 0 (-1))).2.1 = p0 at *
    generalize (eulerAngles210 (rpyToMatrix π 0 (-1))).1 = y0 at *
    have hp1 : π / 2 < (if p0 < -π / 2 then p0 + 2 * π else p0) := by
      split
      · linarith [hp.1]
      · rename_i hn
        rcases pitch_far h2 with h | h
        · exact absurd (show p0 < -π / 2 by linarith) hn
        · exact h
    rw [if_pos hp1]
    dsimp only
    split
    · rename_i h; intro e3; linarith
    · rename_i h; intro e3; linarith [hr.2]
  have hlt : (matrixToRpy (rpyToMatrix π 0 (-1))).1 < π := lt_of_le_of_ne hr'.2 hm
  obtain ⟨a, b, c⟩ := unique (e1.symm.trans e.symm) ⟨by linarith, by linarith⟩ hp'
    (by rw [abs_lt]; constructor <;> linarith [hy2.1, hy2.2]) (by rw [abs_lt]; constructor <;> linarith [hr'.1])
  exact Prod.ext a.symm (Prod.ext b.symm c.symm)

end Pin
