import Verif.LieGroup.ExpWitness
import Verif.LieGroup.Examples

/-!
# Derivatives of the exponential maps and of the operations on configurations (C57)

`Spec.IsExp3 w R`, `Spec.IsExp6 ν M`: `R` (`M`) is the rotation (pose) reached in unit time with the constant
velocity `w` (`ν`). `Spec.AngVel`, `Spec.BodyVel`: body velocity of a curve. `Spec.ModelStep m q v out`: every joint
makes the step `v` from `q`; `Spec.ModelDiff m q0 q1 d`: `d` is the step of less than half a turn from `q0` to `q1`;
`Spec.ModelVel m q δ t`: the configuration `q` moves with the velocity `δ`. `Verif.Spec.ExpRegime` says where the code
leaves its expansions.
-/

namespace Pin
open Lie Model Real Spec

/-! ## exponentials and logarithms of rotations and poses -/

/-- `exp3` is within `5ε` of the exponential, entry by entry, for every argument -/
theorem C57_exp3_accuracy {ε : ℝ} (he : 0 < ε) (h1 : ε ≤ 1) {v : V3 ℝ} {R : M3 ℝ} (h : IsExp3 v R) :
    Near (mexp3 ε v) R (5 * ε) := by
  rw [(isExp3_iff _ _).1 h]; exact mexp3_near he h1 v

example : Near (mexp3 (1 / 2 ^ 52) ⟨0, 0, 1⟩) (Rot ⟨0, 0, 1⟩) (5 * (1 / 2 ^ 52)) :=
  C57_exp3_accuracy (by positivity) (by norm_num) ((isExp3_iff _ _).2 rfl)

/-- `exp6` is within `5ε` of the exponential for the rotation and `8ε‖v‖` for the translation, where it does not use
its expansions -/
theorem C57_exp6_accuracy_partial {ε : ℝ} (he : 0 < ε) (h1 : ε ≤ 1) {ν : Motion ℝ} {M : SE3 ℝ} (h : IsExp6 ν M)
    (hw : prec ε 3 ≤ norm3 ν.ang) : Near (mexp6 ε ν).rot M.rot (5 * ε) ∧
    |(mexp6 ε ν).trans.x - M.trans.x| ≤ 8 * ε * norm3 ν.lin ∧ |(mexp6 ε ν).trans.y - M.trans.y| ≤ 8 * ε * norm3 ν.lin ∧
    |(mexp6 ε ν).trans.z - M.trans.z| ≤ 8 * ε * norm3 ν.lin := by
  obtain ⟨e, hx, hy, hz⟩ := mexp6_near he h1 hw
  rw [(isExp6_iff _ _).1 h, e]
  exact ⟨mexp3_near he h1 _, hx, hy, hz⟩

/-- `Jexp3(w)` is the derivative of the exponential: along any curve `w`, `exp (w s)` turns with the body angular
velocity `Jexp3(w) w'`. Missing: small angles, see `C57_exp3_derivative_counterexample`. -/
theorem C57_exp3_derivative_partial {ε : ℝ} (he : 0 < ε) {w : ℝ → V3 ℝ} {w' : V3 ℝ} {R : ℝ → M3 ℝ} {t : ℝ}
    (hw : VDeriv w w' t) (hR : ∀ s, IsExp3 (w s) (R s)) (hn : prec ε 3 ≤ norm3 (w t)) :
    AngVel R ((Jexp3 ε (w t)).mulVec w') t := by
  have e : R = fun s => Rot (w s) := funext fun s => (isExp3_iff _ _).1 (hR s)
  rw [e, Jexp3_eq he hn]
  exact d_Rot hw (prec_ne he hn)

/-- a curve of rotation vectors through `(0, 0, 1)` -/
noncomputable def Ex.wLine (s : ℝ) : V3 ℝ := ⟨0, 0, 1⟩ + s • ⟨1, 2, 3⟩

theorem Ex.wLine_zero : Ex.wLine 0 = ⟨0, 0, 1⟩ := by unfold Ex.wLine; rw [zero_smul, add_zero]

theorem Ex.wLine_deriv : VDeriv Ex.wLine ⟨1, 2, 3⟩ 0 := vd_line _ _ _

theorem ex_prec3 : prec (1 / 2 ^ 52) 3 ≤ norm3 ⟨0, 0, 1⟩ := by
  rw [norm3_z, abs_one]; exact prec_le_one (by positivity) (by norm_num) 3

theorem ex_cos1 : cos (norm3 ⟨0, 0, 1⟩) ≠ 1 := by
  rw [norm3_z, abs_one]
  intro h
  have := (cos_eq_one_iff_of_lt_of_lt (x := 1) (by linarith [two_le_pi]) (by linarith [two_le_pi])).1 h
  norm_num at this

example : AngVel (fun s => Rot (Ex.wLine s)) ((Jexp3 (1 / 2 ^ 52) (Ex.wLine 0)).mulVec ⟨1, 2, 3⟩) 0 :=
  C57_exp3_derivative_partial (by positivity) Ex.wLine_deriv (fun _ => (isExp3_iff _ _).2 rfl)
    (by rw [Ex.wLine_zero]; exact ex_prec3)

/-- With the machine precision `ε = 2⁻⁵²` and a rotation of angle `2⁻¹⁴` (below the threshold `2⁻¹³`), `Jexp3` misses
the derivative of the exponential by more than `40 ε`: the second order term of its coefficient `b` has the wrong sign
(`spatial/explog.hpp:136`, `-1/2 - n²/24` instead of `-1/2 + n²/24`). -/
theorem C57_exp3_derivative_counterexample : ∃ (w : ℝ → V3 ℝ) (w' : V3 ℝ), VDeriv w w' 0 ∧ norm3 (w 0) = 1 / 2 ^ 14 ∧
    ∀ (R : ℝ → M3 ℝ) (ω : V3 ℝ), (∀ s, IsExp3 (w s) (R s)) → AngVel R ω 0 →
      40 * (1 / 2 ^ 52) ≤ |((Jexp3 (1 / 2 ^ 52) (w 0)).mulVec w').x - ω.x| := by
  have hp : (1 / 2 ^ 14 : ℝ) < prec (1 / 2 ^ 52) 3 := by
    rw [show (1 / 2 ^ 52 : ℝ) = (1 / 2 ^ 13) ^ (3 + 1) by norm_num, prec_eq (by positivity)]; norm_num
  generalize hx : (1 / 2 ^ 14 : ℝ) = x at hp ⊢
  have h0 : 0 < x := by rw [← hx]; positivity
  refine ⟨fun s => ⟨0, s, x⟩, ⟨0, 1, 0⟩, ⟨hasDerivAt_const _ _, hasDerivAt_id _, hasDerivAt_const _ _⟩,
    by rw [norm3_z, abs_of_pos h0], fun R ω hR hω => le_trans ?_ (small_Jexp3_line h0 hp hR hω)⟩
  rw [← hx]; norm_num

/-- `Jexp3<op>` sets, adds or subtracts the same matrix -/
theorem C57_exp3_operators (ε : ℝ) (r : V3 ℝ) (J : M3 ℝ) : Jexp3Op .setto ε r J = Jexp3 ε r ∧
    Jexp3Op .addto ε r J = J + Jexp3 ε r ∧ Jexp3Op .rmto ε r J = J - Jexp3 ε r :=
  ⟨Jexp3Op_set ε r J, Jexp3Op_add ε r J, Jexp3Op_rm ε r J⟩

/-- `Jexp6(ν)` is the derivative of the exponential of poses. Missing: small angles, and the full turns, see
`C57_exp6_derivative_counterexample`. -/
theorem C57_exp6_derivative_partial {ε : ℝ} (he : 0 < ε) {v w : ℝ → V3 ℝ} {v' w' : V3 ℝ} {M : ℝ → SE3 ℝ} {t : ℝ}
    (hv : VDeriv v v' t) (hw : VDeriv w w' t) (hM : ∀ s, IsExp6 ⟨v s, w s⟩ (M s)) (hn : prec ε 3 ≤ norm3 (w t))
    (hc : cos (norm3 (w t)) ≠ 1) : BodyVel M ((Jexp6 ε ⟨v t, w t⟩).mulMM ⟨v', w'⟩) t := by
  have e : M = fun s => Pose ⟨v s, w s⟩ := funext fun s => (isExp6_iff _ _).1 (hM s)
  rw [e, Jexp6_eq he hn]
  exact d_Pose hv hw hc

example : BodyVel (fun s => Pose ⟨Ex.wLine s, Ex.wLine s⟩)
    ((Jexp6 (1 / 2 ^ 52) ⟨Ex.wLine 0, Ex.wLine 0⟩).mulMM ⟨⟨1, 2, 3⟩, ⟨1, 2, 3⟩⟩) 0 :=
  C57_exp6_derivative_partial (by positivity) Ex.wLine_deriv Ex.wLine_deriv (fun _ => (isExp6_iff _ _).2 rfl)
    (by rw [Ex.wLine_zero]; exact ex_prec3) (by rw [Ex.wLine_zero]; exact ex_cos1)

/-- At a full turn `Jexp6` divides by zero (`spatial/explog.hpp:513`). Whatever the value `x` of this quotient, the
result is not the derivative of the exponential, which exists: with the angular velocity `(2π, s, 0)` and the linear
velocity `(1, 0, 0)` the second component of the body velocity is `1/(2π)` and the code's is `0`. -/
theorem C57_exp6_derivative_counterexample {ε : ℝ} (he : 0 < ε) (h1 : ε ≤ 1) (x : ℝ) :
    ∃ (w : ℝ → V3 ℝ) (w' : V3 ℝ), VDeriv w w' 0 ∧ ∀ M : ℝ → SE3 ℝ, (∀ s, IsExp6 ⟨⟨1, 0, 0⟩, w s⟩ (M s)) →
      HasDerivAt (fun s => (M s).trans.y) (1 / (2 * π)) 0 ∧
      ¬ BodyVel M ((Jexp6OpWith x .setto ε ⟨⟨1, 0, 0⟩, w 0⟩ 0).mulMM ⟨0, w'⟩) 0 := by
  refine ⟨fun s => ⟨2 * π, s, 0⟩, ⟨0, 1, 0⟩, ⟨hasDerivAt_const _ _, hasDerivAt_id _, hasDerivAt_const _ _⟩,
    fun M hM => ?_⟩
  have e : M = fun s => Pose ⟨⟨1, 0, 0⟩, ⟨2 * π, s, 0⟩⟩ := funext fun s => (isExp6_iff _ _).1 (hM s)
  subst e
  refine ⟨d_full_turn, fun hb => ?_⟩
  have h2 := hb.lin.y.unique d_full_turn
  have h3 := Jexp6_full_turn he h1 x ⟨1, 0, 0⟩ 0 ⟨0, 1, 0⟩
  have hr : (Pose ⟨⟨1, 0, 0⟩, ⟨2 * π, 0, 0⟩⟩).rot = 1 := Rot_2pi
  dsimp only at h2
  rw [hr, M3.one_mulVec, h3] at h2
  have := pi_pos
  have : (0 : ℝ) < 1 / (2 * π) := by positivity
  linarith

/-- `log3` inverts the exponential: on the rotations where it takes its exact branch, the rotation of its result is
the argument and `theta` is its norm -/
theorem C57_exp_log3 {ε : ℝ} (he : 0 < ε) (h1 : ε ≤ 1) {R : M3 ℝ} (h : Nominal ε R) :
    IsExp3 (mlog3 ε R).1 R ∧ (mlog3 ε R).2 = norm3 (mlog3 ε R).1 ∧ norm3 (mlog3 ε R).1 < π :=
  ⟨(isExp3_iff _ _).2 (h.Rot_mlog3 he h1).symm, by rw [h.norm he h1, h.mlog3 he h1],
    by rw [h.norm he h1]; exact (h.sin_pos he h1).2.2⟩

/-- `log3` of the exponential of a rotation vector of less than half a turn is this vector -/
theorem C57_log_exp3 {ε : ℝ} (he : 0 < ε) (h1 : ε ≤ 1) {w : V3 ℝ} {R : M3 ℝ} (h : IsExp3 w R) (hw : NomVec ε w) :
    mlog3 ε R = (w, norm3 w) := by
  rw [(isExp3_iff _ _).1 h]; exact hw.mlog3 he h1

theorem ex_prec2 : prec (1 / 2 ^ 52) 2 ≤ 1 / 2 := by
  refine le_trans (prec_mono (by positivity) (show (1 / 2 ^ 52 : ℝ) ≤ (1 / 2) ^ (2 + 1) by norm_num) 2) ?_
  rw [prec_eq (by norm_num)]

theorem ex_nomvec : NomVec (1 / 2 ^ 52) ⟨0, 0, 1⟩ := by
  have hp := ex_prec2
  have c1 := cos_one_le
  have c2 := cos_one_pos
  constructor <;> rw [norm3_z, abs_one]
  · linarith [two_le_pi]
  · linarith
  · linarith

example : mlog3 (1 / 2 ^ 52) (Rot ⟨0, 0, 1⟩) = (⟨0, 0, 1⟩, norm3 ⟨0, 0, 1⟩) :=
  C57_log_exp3 (by positivity) (by norm_num) ((isExp3_iff _ _).2 rfl) ex_nomvec

example : IsExp3 (mlog3 (1 / 2 ^ 52) (Rot ⟨0, 0, 1⟩)).1 (Rot ⟨0, 0, 1⟩) :=
  (C57_exp_log3 (by positivity) (by norm_num) ex_nomvec.nominal).1

/-- `Jlog3(R)` is the derivative of the logarithm: along any curve of rotations turning with the body velocity `ω`,
`log3` moves with the velocity `Jlog3(R) ω` -/
theorem C57_log3_derivative_partial {ε : ℝ} (he : 0 < ε) (h1 : ε ≤ 1) {R : ℝ → M3 ℝ} {ω : V3 ℝ} {t : ℝ}
    (hr : ∀ s, (R s).IsRot) (hv : AngVel R ω t) (hi : Interior ε (R t)) :
    VDeriv (fun s => (mlog3 ε (R s)).1) ((Jlog3R ε (R t)).mulVec ω) t := by
  rw [(hi.nominal (hr t)).Jlog3R he h1]
  exact d_mlog3 he h1 hr hv hi

theorem ex_interior : Interior (1 / 2 ^ 52) (Rot ⟨0, 0, 1⟩) := by
  have hp := ex_prec2
  have c1 := cos_one_le
  have c2 := cos_one_pos
  refine interior_of ⟨?_, ?_⟩ <;> rw [norm3_z, abs_one] <;> linarith

theorem ex_angvel : AngVel (fun s => Rot (Ex.wLine s)) ((Jr ⟨0, 0, 1⟩).mulVec ⟨1, 2, 3⟩) 0 := by
  have := d_Rot Ex.wLine_deriv (by rw [Ex.wLine_zero, norm3_z, abs_one]; exact one_ne_zero)
  rwa [Ex.wLine_zero] at this

example : ∃ l, VDeriv (fun s => (mlog3 (1 / 2 ^ 52) (Rot (Ex.wLine s))).1) l 0 :=
  ⟨_, C57_log3_derivative_partial (by positivity) (by norm_num) (fun _ => Rot_isRot _) ex_angvel
    (by rw [Ex.wLine_zero]; exact ex_interior)⟩

/-- `Jlog6(M)` is the derivative of `log6` -/
theorem C57_log6_derivative_partial {ε : ℝ} (he : 0 < ε) (h1 : ε ≤ 1) {M : ℝ → SE3 ℝ} {ν : Motion ℝ} {t : ℝ}
    (hr : ∀ s, (M s).rot.IsRot) (hv : BodyVel M ν t) (hi : Interior ε (M t).rot) :
    VDeriv (fun s => (mlog6 ε (M s)).lin) ((Jlog6 ε (M t)).mulMM ν).lin t ∧
      VDeriv (fun s => (mlog6 ε (M s)).ang) ((Jlog6 ε (M t)).mulMM ν).ang t := by
  rw [(hi.nominal (hr t)).Jlog6 he h1]
  exact d_mlog6 he h1 hr hv hi

example : ∃ l a, VDeriv (fun s => (mlog6 (1 / 2 ^ 52) ⟨Rot (Ex.wLine s), 0⟩).lin) l 0 ∧
    VDeriv (fun s => (mlog6 (1 / 2 ^ 52) ⟨Rot (Ex.wLine s), 0⟩).ang) a 0 :=
  ⟨_, _, C57_log6_derivative_partial (M := fun s => ⟨Rot (Ex.wLine s), 0⟩) (ν := ⟨0, _⟩) (by positivity)
    (by norm_num) (fun _ => Rot_isRot _)
    ⟨ex_angvel, by
      show VDeriv (fun _ => 0) ((Rot _).mulVec 0) 0
      rw [M3.mulVec_zero]
      exact ⟨hasDerivAt_const _ _, hasDerivAt_const _ _, hasDerivAt_const _ _⟩⟩
    (by rw [Ex.wLine_zero]; exact ex_interior)⟩

/-- `Jlog3(R)` and `Jexp3(log3(R))` are inverse matrices -/
theorem C57_log3_exp3_inverse {ε : ℝ} (he : 0 < ε) (h1 : ε ≤ 1) {R : M3 ℝ} (h : Nominal ε R) :
    Jlog3R ε R * Jexp3 ε (mlog3 ε R).1 = 1 ∧ Jexp3 ε (mlog3 ε R).1 * Jlog3R ε R = 1 := by
  rw [h.Jlog3R he h1, Jexp3_eq he (by rw [h.norm he h1]; exact (h.angle_ge he h1).2)]
  exact ⟨Jri_mul (h.cos_ne he h1), Jr_mul_inv (h.cos_ne he h1)⟩

example : Jlog3R (1 / 2 ^ 52) (Rot ⟨0, 0, 1⟩) * Jexp3 (1 / 2 ^ 52) (mlog3 (1 / 2 ^ 52) (Rot ⟨0, 0, 1⟩)).1 = 1 :=
  (C57_log3_exp3_inverse (by positivity) (by norm_num) ex_nomvec.nominal).1

/-- `Hlog3(R, v)` is the derivative of `Jlog3` in the direction `v`: while `R` turns with the body velocity `v`, the
matrix `Jlog3(R)` has the derivative `Hlog3(R, v)` -/
theorem C57_log3_second_derivative_partial {ε : ℝ} (he : 0 < ε) (h1 : ε ≤ 1) {R : ℝ → M3 ℝ} {ω : V3 ℝ} {t : ℝ}
    (hr : ∀ s, (R s).IsRot) (hv : AngVel R ω t) (hi : Interior ε (R t)) :
    MDeriv (fun s => Jlog3R ε (R s)) (Hlog3 (mlog3 ε (R t)).2 (mlog3 ε (R t)).1 ω) t := by
  have hN := hi.nominal (hr t)
  have hc := hN.cos_ne he h1
  have hl := d_mlog3 he h1 hr hv hi
  have hTc : ContinuousAt (fun s => trace (R s)) t := ((hv.m00.add hv.m11).add hv.m22).continuousAt
  rw [show (mlog3 ε (R t)).2 = norm3 (mlog3 ε (R t)).1 by rw [hN.norm he h1, hN.mlog3 he h1], Hlog3_eq hc]
  refine md_eventually (d_Jri hl hc) ?_
  filter_upwards [hTc.eventually (lt_mem_nhds hi.lo), hTc.eventually (gt_mem_nhds hi.hi)] with s a b
  exact Nominal.Jlog3R he h1 ⟨hr s, a.le, b.le⟩

example : ∃ H, MDeriv (fun s => Jlog3R (1 / 2 ^ 52) (Rot (Ex.wLine s))) H 0 :=
  ⟨_, C57_log3_second_derivative_partial (by positivity) (by norm_num) (fun _ => Rot_isRot _) ex_angvel
    (by rw [Ex.wLine_zero]; exact ex_interior)⟩

/-- `Jexp3CoeffWise(v)` is the derivative of the coefficients of the quaternion `qexp v` of the rotation `v`.
Missing: small angles, see `C57_quaternion_coefficients_counterexample`. -/
theorem C57_quaternion_coefficients_partial {v : ℝ → V3 ℝ} {v' : V3 ℝ} {t : ℝ} (h : VDeriv v v' t)
    (hn : norm3 (v t) ≠ 0) {ε : ℝ} (hb : sqrt ε < (v t).sqNorm) : IsExp3 (v t) (qexp (v t)).toMat ∧
    VDeriv (fun s => qvec (qexp (v s))) ((Jexp3CoeffWise ε (v t)).1.mulVec v') t ∧
      HasDerivAt (fun s => (qexp (v s)).w) ((Jexp3CoeffWise ε (v t)).2.dot v') t :=
  ⟨(isExp3_iff _ _).2 (qexp_toMat hn), d_qexp h hn hb⟩

example : ∃ a, VDeriv (fun s => qvec (qexp (Ex.wLine s))) a 0 :=
  ⟨_, (C57_quaternion_coefficients_partial Ex.wLine_deriv
    (by rw [Ex.wLine_zero, norm3_z, abs_one]; exact one_ne_zero) (ε := 1 / 4) (by
      rw [Ex.wLine_zero, show (1 / 4 : ℝ) = (1 / 2) ^ 2 by norm_num, sqrt_sq (by norm_num)]
      simp [V3.sqNorm]; norm_num)).2.1⟩

/-- With `ε = 2⁻⁵²`, at a rotation of angle `2⁻¹³`, `Jexp3CoeffWise` misses the derivative of the first coefficient
of the quaternion by more than `2⁻³¹`, half of the digits of a `double`: its expansion of the coefficient of `v vᵀ` is
`-1/12 + …` (`spatial/explog-quaternion.hpp:316`) where `-1/24 + …` is needed. -/
theorem C57_quaternion_coefficients_counterexample :
    HasDerivAt (fun s => (qexp ⟨1 / 2 ^ 13 + s, 0, 0⟩).x) (1 / 2 * cos (1 / 2 ^ 13 / 2)) 0 ∧
    1 / 2 ^ 31 ≤ |1 / 2 * cos (1 / 2 ^ 13 / 2) - (Jexp3CoeffWise (1 / 2 ^ 52) ⟨1 / 2 ^ 13, 0, 0⟩).1.m00| := by
  refine ⟨d_qexp_line (by positivity), ?_⟩
  refine le_trans ?_ (le_abs_self _)
  refine le_trans ?_ (small_coeff (by positivity) (by norm_num) ?_)
  · norm_num
  · rw [show (1 / 2 ^ 52 : ℝ) = (1 / 2 ^ 26) ^ 2 by norm_num, sqrt_sq (by positivity)]; norm_num

/-! ## configurations of a model -/

section
variable [HasEps ℝ] {p0 : LJ} {m : Model ℝ LJ} {ε : ℝ}

/-- `dIntegrate` writes, adds to or subtracts from the diagonal block of each joint, and nothing else -/
theorem C57_dIntegrate_blocks (h : Reach p0 m) (hp : PayloadOk m) (q v : ℕ → ℝ) (J : ℕ → ℕ → ℝ) (arg : Arg) (op : Op) :
    (∀ s ∈ slotsOf m, ∀ a, a < s.g.nv → (∀ b, b < s.g.nv → dIntegrate ε m q v J arg op (s.iv + a) (s.iv + b) =
        (match op with
          | .setto => s.g.dInt ε arg (fun j => v (s.iv + j)) a b
          | .addto => J (s.iv + a) (s.iv + b) + s.g.dInt ε arg (fun j => v (s.iv + j)) a b
          | .rmto => J (s.iv + a) (s.iv + b) - s.g.dInt ε arg (fun j => v (s.iv + j)) a b)) ∧
      ∀ j, ¬(s.iv ≤ j ∧ j < s.iv + s.g.nv) → dIntegrate ε m q v J arg op (s.iv + a) j = J (s.iv + a) j) ∧
    ∀ i, m.nv ≤ i → ∀ j, dIntegrate ε m q v J arg op i j = J i j := by
  have := dIntegrate_spec (ε := ε) h.inv hp q v J arg op
  refine ⟨fun s hs a ha => ⟨fun b hb => ?_, ((this.1 s hs a ha).2)⟩, this.2⟩
  rw [(this.1 s hs a ha).1 b hb]
  cases op <;> rfl

/-- `integrate` is the exact step on vector spaces, SO(2) and SE(2) -/
theorem C57_integrate_step_partial (h : Reach p0 m) (hp : PayloadOk m) {q v out : ℕ → ℝ}
    (hx : ∀ s ∈ slotsOf m, ExactStep s.g (fun j => q (s.iq + j)) (fun j => v (s.iv + j))) :
    ModelStep m q v (integrate ε m q v out) := by
  intro s hs
  refine isStep_congr s.g (fun k hk => ?_) Same.rfl (integrate_isStep (ε := ε) s.g (hx s hs))
  exact ((integrate_spec h.inv hp q v out).1 s hs k hk).symm

/-- `difference` is the exact difference on vector spaces, SO(2) and SE(2) -/
theorem C57_difference_diff_partial (h : Reach p0 m) (hp : PayloadOk m) {q0 q1 out : ℕ → ℝ}
    (hx : ∀ s ∈ slotsOf m, ExactDiff s.g (fun j => q0 (s.iq + j)) (fun j => q1 (s.iq + j))) :
    ModelDiff m q0 q1 (difference ε m q0 q1 out) := by
  intro s hs
  have hd := difference_isDiff (ε := ε) s.g (hx s hs)
  have e : Same s.g.nv (s.g.difference ε (seg q0 s.iq) (seg q1 s.iq)) (seg (difference ε m q0 q1 out) s.iv) :=
    fun k hk => ((difference_spec h.inv hp q0 q1 out).1 s hs k hk).symm
  exact ⟨isStep_congr s.g Same.rfl e hd.step, twistOf_congr s.g e ▸ hd.lt⟩

/-- **Derivatives of `integrate`.** Whenever `q` moves with the velocity `δ` and `v` with the derivative `v'`, the
configuration reached from `q` by the step `v` moves with the velocity `A δ + J₁ v'`, where `J₁` is the result of
`dIntegrate(…, ARG1)` and `A` is the result of `dIntegrate(…, ARG0)` up to a few `ε`, `0` for vector spaces, SO(2) and
SE(2). `J` is the matrix passed by the caller, zero beside the blocks. Missing: small and full turns. -/
theorem C57_integrate_derivative_partial (he : 0 < ε) (h1 : ε ≤ 1) (h : Reach p0 m) (hp : PayloadOk m)
    {q v out : ℝ → ℕ → ℝ} {δ v' : ℕ → ℝ} {t : ℝ} (hok : ∀ s ∈ slotsOf m, StepOk ε s.g (fun j => v t (s.iv + j)))
    (hq : ModelVel m q δ t) (hv : ∀ k, k < m.nv → HasDerivAt (fun s => v s k) (v' k) t)
    (hs : ∀ᶠ s in nhds t, ModelStep m (q s) (v s) (out s)) {J0 J : ℕ → ℕ → ℝ} (hJ0 : OffZero m J0) (hJ : OffZero m J) :
    ∃ A : ℕ → ℕ → ℝ, OffZero m A ∧
      (∀ s ∈ slotsOf m, ∀ a b, a < s.g.nv → b < s.g.nv →
        |dIntegrate ε m (q t) (v t) J0 .arg0 .setto (s.iv + a) (s.iv + b) - A (s.iv + a) (s.iv + b)| ≤
          stepTol ε s.g (fun j => v t (s.iv + j))) ∧
      (∀ s ∈ slotsOf m, ∀ a j, a < s.g.nv → ¬(s.iv ≤ j ∧ j < s.iv + s.g.nv) →
        dIntegrate ε m (q t) (v t) J0 .arg0 .setto (s.iv + a) j = A (s.iv + a) j) ∧
      ModelVel m out (fun i => Spec.apply m.nv A δ i +
        Spec.apply m.nv (dIntegrate ε m (q t) (v t) J .arg1 .setto) v' i) t := by
  have b := blocks_spec h.inv hp (fun s => adInv ε s.g (seg (v t) s.iv))
  have d := (dIntegrate_spec (ε := ε) h.inv hp (q t) (v t) J0 .arg0 .setto).1
  have hz : OffZero m (blocks m fun s => adInv ε s.g (seg (v t) s.iv)) := fun s hs i j hi hj => by
    obtain ⟨a, rfl⟩ := Nat.exists_eq_add_of_le hi.1
    exact (b s hs a (by omega)).2 j hj
  refine ⟨blocks m fun s => adInv ε s.g (seg (v t) s.iv), hz, fun s hs x y hx hy => ?_, fun s hs a j ha hj => ?_,
    d_model_step' he h.inv hp hok hq hv hs hJ⟩
  · rw [(b s hs x hx).1 y hy, (d s hs x hx).1 y hy]
    exact dInt_near he h1 s.g (hok s hs) x y
  · rw [(d s hs a ha).2 j hj, (b s hs a ha).2 j hj]
    exact hJ0 s hs _ _ ⟨by omega, by omega⟩ hj

/-- **Derivatives of `difference`.** Whenever `q0` moves with the velocity `δ0` and `q1` with `δ1`, the difference
of `q1` and `q0` has the derivative `J₀ δ0 + J₁ δ1`, where `J₀`, `J₁` are the results of `dDifference` with `ARG0` and
`ARG1`. Missing: small angles and angles close to half a turn. -/
theorem C57_difference_derivative_partial (he : 0 < ε) (h1 : ε ≤ 1) (h : Reach p0 m) (hp : PayloadOk m)
    {q0 q1 d : ℝ → ℕ → ℝ} {δ0 δ1 : ℕ → ℝ} {t : ℝ} (hok : ∀ s ∈ slotsOf m, DiffOk ε s.g (fun j => d t (s.iv + j)))
    (u0 : ∀ᶠ τ in nhds t, ∀ s ∈ slotsOf m, s.g.Unit (fun j => q0 τ (s.iq + j)))
    (u1 : ∀ᶠ τ in nhds t, ∀ s ∈ slotsOf m, s.g.Unit (fun j => q1 τ (s.iq + j)))
    (hq0 : ModelVel m q0 δ0 t) (hq1 : ModelVel m q1 δ1 t) (hd : ∀ᶠ τ in nhds t, ModelDiff m (q0 τ) (q1 τ) (d τ))
    {J0 J1 : ℕ → ℕ → ℝ} (hJ0 : OffZero m J0) (hJ1 : OffZero m J1) {k : ℕ} (hk : k < m.nv) :
    HasDerivAt (fun s => d s k) (Spec.apply m.nv (dDifference ε m (q0 t) (q1 t) J0 .arg0) δ0 k +
      Spec.apply m.nv (dDifference ε m (q0 t) (q1 t) J1 .arg1) δ1 k) t :=
  d_model_diff' he h1 h.inv hp hok u0 u1 hq0 hq1 hd hJ0 hJ1 hk

/-- On the models without ball and free-flyer joints, the derivative of `integrate` itself is given by `dIntegrate`,
exactly, with respect to both arguments. Missing: SO(3) and SE(3), whose `integrate` is off by a few `ε`. -/
theorem C57_planar_integrate_derivative_partial (he : 0 < ε) (h1 : ε ≤ 1) (h : Reach p0 m) (hp : PayloadOk m)
    (hg : ∀ s ∈ slotsOf m, s.g ≠ .so3 ∧ s.g ≠ .se3) {q v : ℝ → ℕ → ℝ} {o δ v' : ℕ → ℝ} {t : ℝ}
    (hu : ∀ᶠ τ in nhds t, ∀ s ∈ slotsOf m, s.g.Unit (fun j => q τ (s.iq + j)))
    (hok : ∀ s ∈ slotsOf m, StepOk ε s.g (fun j => v t (s.iv + j)))
    (hq : ModelVel m q δ t) (hv : ∀ k, k < m.nv → HasDerivAt (fun s => v s k) (v' k) t)
    {J0 J1 : ℕ → ℕ → ℝ} (hJ0 : OffZero m J0) (hJ1 : OffZero m J1) :
    ModelVel m (fun τ => integrate ε m (q τ) (v τ) o) (fun i =>
      Spec.apply m.nv (dIntegrate ε m (q t) (v t) J0 .arg0 .setto) δ i +
      Spec.apply m.nv (dIntegrate ε m (q t) (v t) J1 .arg1 .setto) v' i) t := by
  have hx : ∀ᶠ τ in nhds t, ∀ s ∈ slotsOf m,
      ExactStep s.g (fun j => q τ (s.iq + j)) (fun j => v τ (s.iv + j)) := by
    refine (Filter.eventually_all_finite (List.finite_toSet (slotsOf m))).2 fun s hs => ?_
    have hs : s ∈ slotsOf m := hs
    have hr := (slot_range h.inv hp hs).2
    have hk := hok s hs
    have hgs := hg s hs
    have hu' : ∀ᶠ τ in nhds t, s.g.Unit (fun j => q τ (s.iq + j)) := hu.mono fun τ hτ => hτ s hs
    obtain ⟨g, iq, iv⟩ := s
    dsimp only at hk hgs hu' hr ⊢
    cases g with
    | vec n => exact Filter.Eventually.of_forall fun _ => trivial
    | so2 => exact hu'
    | so3 => exact absurd rfl hgs.1
    | se3 => exact absurd rfl hgs.2
    | se2 =>
      have c := (hv (iv + 2) (by simp only [LG.nv] at hr; omega)).continuousAt.abs
      exact (c.eventually_const_lt hk.1).mono fun τ hτ => Or.inr hτ
  obtain ⟨A, -, a1, a2, a3⟩ := C57_integrate_derivative_partial he h1 h hp
    (out := fun τ => integrate ε m (q τ) (v τ) o) hok hq hv
    (hx.mono fun τ hτ => C57_integrate_step_partial h hp hτ) hJ0 hJ1
  intro s hs
  refine confVel_congr s.g (a3 s hs) (fun k hk => ?_)
  have hz : stepTol ε s.g (fun j => v t (s.iv + j)) = 0 := by
    have hgs := hg s hs
    obtain ⟨g, iq, iv⟩ := s
    cases g <;> first | rfl | exact absurd rfl hgs.1 | exact absurd rfl hgs.2
  show Spec.apply m.nv A δ (s.iv + k) + _ = Spec.apply m.nv _ δ (s.iv + k) + _
  congr 1
  refine Finset.sum_congr rfl fun j _ => ?_
  congr 1
  by_cases c : s.iv ≤ j ∧ j < s.iv + s.g.nv
  · obtain ⟨b, rfl⟩ := Nat.exists_eq_add_of_le c.1
    have := a1 s hs k b hk (by omega)
    rw [hz] at this
    exact (sub_eq_zero.1 (abs_nonpos_iff.1 this)).symm
  · exact (a2 s hs k j hk c).symm

/-- On the models without ball and free-flyer joints, the derivative of `difference` itself is given by `dDifference`.
Missing: SO(3) and SE(3), small angles of SE(2). -/
theorem C57_planar_difference_derivative_partial (he : 0 < ε) (h1 : ε ≤ 1) (h : Reach p0 m) (hp : PayloadOk m)
    {q0 q1 : ℝ → ℕ → ℝ} {o δ0 δ1 : ℕ → ℝ} {t : ℝ}
    (hx : ∀ᶠ τ in nhds t, ∀ s ∈ slotsOf m, ExactDiff s.g (fun j => q0 τ (s.iq + j)) (fun j => q1 τ (s.iq + j)))
    (hok : ∀ s ∈ slotsOf m, DiffOk ε s.g (fun j => difference ε m (q0 t) (q1 t) o (s.iv + j)))
    (hq0 : ModelVel m q0 δ0 t) (hq1 : ModelVel m q1 δ1 t)
    {J0 J1 : ℕ → ℕ → ℝ} (hJ0 : OffZero m J0) (hJ1 : OffZero m J1) {k : ℕ} (hk : k < m.nv) :
    HasDerivAt (fun τ => difference ε m (q0 τ) (q1 τ) o k)
      (Spec.apply m.nv (dDifference ε m (q0 t) (q1 t) J0 .arg0) δ0 k +
        Spec.apply m.nv (dDifference ε m (q0 t) (q1 t) J1 .arg1) δ1 k) t := by
  have u : ∀ (g : LG) (a b : ℕ → ℝ), ExactDiff g a b → g.Unit a ∧ g.Unit b := fun g a b hab => by
    cases g with
    | vec n => exact ⟨trivial, trivial⟩
    | so2 => exact ⟨hab.1, hab.2.1⟩
    | so3 => exact hab.elim
    | se2 => exact ⟨hab.1, hab.2.1⟩
    | se3 => exact hab.elim
  exact C57_difference_derivative_partial he h1 h hp (d := fun τ => difference ε m (q0 τ) (q1 τ) o) hok
    (hx.mono fun τ hτ s hs => (u _ _ _ (hτ s hs)).1) (hx.mono fun τ hτ s hs => (u _ _ _ (hτ s hs)).2)
    hq0 hq1 (hx.mono fun τ hτ => C57_difference_diff_partial h hp hτ) hJ0 hJ1 hk

/-- `dIntegrateTransport(model, q, v, Jin, Jout, arg)` writes the product of `dIntegrate(…, arg)` and `Jin` -/
theorem C57_transport (h : Reach p0 m) (hp : PayloadOk m) (q v : ℕ → ℝ) (Jin Jout : ℕ → ℕ → ℝ) (arg : Arg)
    {i : ℕ} (hi : i < m.nv) (j : ℕ) : dIntegrateTransport ε m q v Jin Jout arg i j =
      ∑ k ∈ Finset.range m.nv, dIntegrate ε m q v (fun _ _ => 0) arg .setto i k * Jin k j := by
  obtain ⟨x, ⟨s, hx, h2, h3⟩, -⟩ := (slotsOf_tiles h.inv hp).2.cover (Nat.zero_le i) hi
  have hs : s ∈ slotsOf m := List.mem_of_getElem? hx
  obtain ⟨a, rfl⟩ := Nat.exists_eq_add_of_le h2
  have ha : a < s.g.nv := by omega
  have hr := (slot_range h.inv hp hs).2
  have d := (dIntegrate_spec (ε := ε) h.inv hp q v (fun _ _ => 0) arg .setto).1 s hs a ha
  rw [(transport_spec h.inv hp q v Jin Jout arg).1 s hs a ha j]
  have := apply_block hr (fun k => Jin k j) (J := dIntegrate ε m q v (fun _ _ => 0) arg .setto) (a := a) d.2
  unfold Spec.apply at this
  rw [this]
  refine Finset.sum_congr rfl fun b hb => ?_
  dsimp only
  rw [d.1 b (Finset.mem_range.1 hb)]
  rfl

/-- the in-place `dIntegrateTransport(model, q, v, J, arg)` gives what the other overload writes from a copy of `J` -/
theorem C57_transport_in_place (h : Reach p0 m) (hp : PayloadOk m) (q v : ℕ → ℝ) (J : ℕ → ℕ → ℝ) (arg : Arg) (i j : ℕ) :
    dIntegrateTransportInPlace ε m q v J arg i j = dIntegrateTransport ε m q v J J arg i j := by
  by_cases hi : i < m.nv
  · obtain ⟨x, ⟨s, hx, h2, h3⟩, -⟩ := (slotsOf_tiles h.inv hp).2.cover (Nat.zero_le i) hi
    have hs : s ∈ slotsOf m := List.mem_of_getElem? hx
    obtain ⟨a, rfl⟩ := Nat.exists_eq_add_of_le h2
    have ha : a < s.g.nv := by omega
    rw [(transport_spec h.inv hp q v J J arg).1 s hs a ha j, (transport_inplace_spec h.inv hp q v J arg).1 s hs a ha j]
  · rw [(transport_spec h.inv hp q v J J arg).2 i (not_lt.1 hi) j,
      (transport_inplace_spec h.inv hp q v J arg).2 i (not_lt.1 hi) j]

end

/-- the diagonal block of the wheel of the example: `1` whatever was there -/
example (q v : ℕ → ℝ) : dIntegrate (1 / 2 ^ 52) Ex.modL q v (fun _ _ => 7) .arg1 .setto 6 6 = 1 :=
  ((C57_dIntegrate_blocks Ex.modL_reach Ex.modL_ok q v (fun _ _ => 7) .arg1 .setto).1 ⟨.so2, 7, 6⟩
    (by rw [Ex.modL_slots]; simp) 0 (by decide)).1 0 (by decide)

/-- `dIntegrate(model, q, v, J, arg, SETTO)` and `dDifference(model, q0, q1, J, arg)`, whose `J` is documented as an
output, leave the entries beside the blocks of the joints as they were (`liegroup-algo.hxx:233-248, 378-396`): the
derivative comes out wrong unless the caller has filled `J` with zeros. -/
theorem C57_stale_matrix_counterexample (ε : ℝ) (q v q1 : ℕ → ℝ) (arg : Arg) :
    dIntegrate ε Ex.modL q v (fun _ _ => 7) arg .setto 0 6 = 7 ∧ dIntegrate ε Ex.modL q v (fun _ _ => 0) arg .setto 0 6 = 0 ∧
    dDifference ε Ex.modL q q1 (fun _ _ => 7) arg 0 6 = 7 ∧ dDifference ε Ex.modL q q1 (fun _ _ => 0) arg 0 6 = 0 := by
  have hs : (⟨.se3, 0, 0⟩ : Slot) ∈ slotsOf Ex.modL := by rw [Ex.modL_slots]; simp
  have a := fun c : ℝ => ((dIntegrate_spec (ε := ε) Ex.modL_reach.inv Ex.modL_ok q v (fun _ _ => c) arg .setto).1 _ hs 0 (by decide)).2 6 (by decide)
  have b := fun c : ℝ => ((dDifference_spec (ε := ε) Ex.modL_reach.inv Ex.modL_ok q q1 (fun _ _ => c) arg).1 _ hs 0 (by decide)).2 6 (by decide)
  exact ⟨a 7, a 0, b 7, b 0⟩

/-- `integrateCoeffWiseJacobian` of vector spaces, SO(2) and SE(2): the coefficients of a configuration moving with
the velocity `δ` have the derivative `J δ`. Missing: SO(3) and SE(3). -/
theorem C57_coefficients_partial {ε : ℝ} {g : LG} (hg : g ≠ .so3 ∧ g ≠ .se3) {q : ℝ → ℕ → ℝ} {δ : ℕ → ℝ} {t : ℝ}
    (h : ConfVel g q δ t) {i : ℕ} (hi : i < g.nq) :
    HasDerivAt (fun s => q s i) (Spec.apply g.nv (g.coeffJ ε (q t)) δ i) t := by
  cases g with
  | vec n =>
    refine (h i hi).congr_deriv ?_
    unfold Spec.apply LG.coeffJ
    simp [LG.nv, LG.nq] at hi ⊢
    omega
  | so2 =>
    have h : BodyVel (fun s => planar (q s 0) (q s 1) 0 0) ⟨0, ⟨0, 0, δ 0⟩⟩ t := h
    have hi : i < 2 := hi
    interval_cases i
    · refine h.ang.m00.congr_deriv ?_
      simp [planar, M3.skew, Spec.apply, LG.coeffJ, LG.nv]
    · refine h.ang.m10.congr_deriv ?_
      simp [planar, M3.skew, Spec.apply, LG.coeffJ, LG.nv]
  | so3 => exact absurd rfl hg.1
  | se2 =>
    have h : BodyVel (fun s => planar (q s 2) (q s 3) (q s 0) (q s 1)) ⟨⟨δ 0, δ 1, 0⟩, ⟨0, 0, δ 2⟩⟩ t := h
    have hi : i < 4 := hi
    interval_cases i
    · refine h.lin.x.congr_deriv ?_
      simp [planar, Spec.apply, LG.coeffJ, LG.nv, Finset.sum_range_succ]
    · refine h.lin.y.congr_deriv ?_
      simp [planar, Spec.apply, LG.coeffJ, LG.nv, Finset.sum_range_succ]
    · refine h.ang.m00.congr_deriv ?_
      simp [planar, M3.skew, Spec.apply, LG.coeffJ, LG.nv, Finset.sum_range_succ]
    · refine h.ang.m10.congr_deriv ?_
      simp [planar, M3.skew, Spec.apply, LG.coeffJ, LG.nv, Finset.sum_range_succ]
  | se3 => exact absurd rfl hg.2

/-! ## the hypotheses are met by the example model with every kind of joint -/

namespace Ex

/-- a step that turns every joint by one radian, plus translations -/
def vel (k : ℕ) : ℝ := if k = 0 ∨ k = 5 ∨ k = 6 ∨ k = 8 ∨ k = 9 ∨ k = 12 ∨ k = 13 then 1 else 0

/-- a varying multiple of it, never more than `3/2` -/
noncomputable def velT (s : ℝ) (k : ℕ) : ℝ := (1 + sin s / 2) * vel k

/-- `neutral` of the example -/
def q0 (k : ℕ) : ℝ := if k = 6 ∨ k = 7 ∨ k = 11 ∨ k = 16 then 1 else 0

theorem slot_cases {P : Slot → Prop} (h1 : P ⟨.se3, 0, 0⟩) (h2 : P ⟨.so2, 7, 6⟩) (h3 : P ⟨.se2, 9, 7⟩)
    (h4 : P ⟨.so3, 13, 10⟩) (h5 : P ⟨.vec 1, 17, 13⟩) : ∀ s ∈ slotsOf modL, P s := by
  intro s hs
  rw [modL_slots] at hs
  simp only [List.mem_cons, List.not_mem_nil, or_false] at hs
  rcases hs with rfl | rfl | rfl | rfl | rfl <;> assumption

theorem q0_unit : ∀ s ∈ slotsOf modL, s.g.Unit (seg q0 s.iq) := by
  refine slot_cases ?_ ?_ ?_ ?_ trivial
  · show LG.sqn _ 3 4 = 1; simp [LG.sqn, seg, q0, Finset.sum_range_succ]
  · show LG.sqn _ 0 2 = 1; simp [LG.sqn, seg, q0, Finset.sum_range_succ]
  · show LG.sqn _ 2 2 = 1; simp [LG.sqn, seg, q0, Finset.sum_range_succ]
  · show LG.sqn _ 0 4 = 1; simp [LG.sqn, seg, q0, Finset.sum_range_succ]

/-- exact steps of the whole model exist -/
theorem exists_modelStep (q v : ℕ → ℝ) (hu : ∀ s ∈ slotsOf modL, s.g.Unit (seg q s.iq)) :
    ∃ out, ModelStep modL q v out ∧ ∀ s ∈ slotsOf modL, s.g.Unit (seg out s.iq) := by
  have mem : ∀ s, s ∈ slotsOf modL ↔ s ∈ [(⟨.se3, 0, 0⟩ : Slot), ⟨.so2, 7, 6⟩, ⟨.se2, 9, 7⟩, ⟨.so3, 13, 10⟩, ⟨.vec 1, 17, 13⟩] :=
    fun s => by rw [modL_slots]
  obtain ⟨o1, a1, b1⟩ := exists_step .se3 (v := seg v 0) (hu ⟨.se3, 0, 0⟩ ((mem _).2 (by simp)))
  obtain ⟨o2, a2, b2⟩ := exists_step .so2 (v := seg v 6) (hu ⟨.so2, 7, 6⟩ ((mem _).2 (by simp)))
  obtain ⟨o3, a3, b3⟩ := exists_step .se2 (v := seg v 7) (hu ⟨.se2, 9, 7⟩ ((mem _).2 (by simp)))
  obtain ⟨o4, a4, b4⟩ := exists_step .so3 (v := seg v 10) (hu ⟨.so3, 13, 10⟩ ((mem _).2 (by simp)))
  obtain ⟨o5, a5, b5⟩ := exists_step (.vec 1) (v := seg v 13) (hu ⟨.vec 1, 17, 13⟩ ((mem _).2 (by simp)))
  let out : ℕ → ℝ := fun k => if k < 7 then o1 k else if k < 9 then o2 (k - 7) else if k < 13 then o3 (k - 9)
    else if k < 17 then o4 (k - 13) else o5 (k - 17)
  have e1 : Same 7 o1 (seg out 0) := fun k hk => by simp only [seg, out]; rw [if_pos (by omega), Nat.zero_add]
  have e2 : Same 2 o2 (seg out 7) := fun k hk => by
    simp only [seg, out]; rw [if_neg (by omega), if_pos (by omega), Nat.add_sub_cancel_left]
  have e3 : Same 4 o3 (seg out 9) := fun k hk => by
    simp only [seg, out]; rw [if_neg (by omega), if_neg (by omega), if_pos (by omega), Nat.add_sub_cancel_left]
  have e4 : Same 4 o4 (seg out 13) := fun k hk => by
    simp only [seg, out]
    rw [if_neg (by omega), if_neg (by omega), if_neg (by omega), if_pos (by omega), Nat.add_sub_cancel_left]
  have e5 : Same 1 o5 (seg out 17) := fun k hk => by
    simp only [seg, out]
    rw [if_neg (by omega), if_neg (by omega), if_neg (by omega), if_neg (by omega), Nat.add_sub_cancel_left]
  refine ⟨out, slot_cases (isStep_congr _ e1 Same.rfl a1) (isStep_congr _ e2 Same.rfl a2) (isStep_congr _ e3 Same.rfl a3)
    (isStep_congr _ e4 Same.rfl a4) (isStep_congr _ e5 Same.rfl a5), slot_cases ?_ ?_ ?_ ?_ trivial⟩
  · show LG.sqn _ 3 4 = 1; rw [← sqn_congr e1 (by norm_num)]; exact b1
  · show LG.sqn _ 0 2 = 1; rw [← sqn_congr e2 (by norm_num)]; exact b2
  · show LG.sqn _ 2 2 = 1; rw [← sqn_congr e3 (by norm_num)]; exact b3
  · show LG.sqn _ 0 4 = 1; rw [← sqn_congr e4 (by norm_num)]; exact b4

theorem bodyVel_const (M : SE3 ℝ) (t : ℝ) {ν : Motion ℝ} (h : ν = 0) : BodyVel (fun _ => M) ν t := by
  subst h
  refine ⟨?_, ?_⟩
  · show MDeriv (fun _ => M.rot) (M.rot * M3.skew 0) t
    have : M.rot * M3.skew 0 = 0 := by ext <;> m3simp <;> simp
    rw [this]
    exact MDeriv.const _
  · show VDeriv (fun _ => M.trans) (M.rot.mulVec 0) t
    rw [M3.mulVec_zero]
    exact ⟨hasDerivAt_const _ _, hasDerivAt_const _ _, hasDerivAt_const _ _⟩

/-- a configuration at rest -/
theorem rest (q : ℕ → ℝ) (t : ℝ) : ModelVel modL (fun _ => q) (fun _ => 0) t :=
  slot_cases (bodyVel_const _ _ rfl) (bodyVel_const _ _ rfl) (bodyVel_const _ _ rfl) (bodyVel_const _ _ rfl)
    (fun _ _ => hasDerivAt_const _ _)

theorem velT_zero : velT 0 = vel := by funext k; simp [velT]

theorem velT_deriv (k : ℕ) : HasDerivAt (fun s => velT s k) (vel k / 2) 0 := by
  have := (((hasDerivAt_sin (0 : ℝ)).div_const 2).const_add 1).mul_const (vel k)
  refine this.congr_deriv ?_
  rw [cos_zero]; ring

theorem zero_off : OffZero modL fun _ _ => 0 := fun _ _ _ _ _ _ => rfl

theorem vel_ok : ∀ s ∈ slotsOf modL, StepOk (1 / 2 ^ 52) s.g (seg vel s.iv) := by
  have c1 : cos (1 : ℝ) ≠ 1 := by have := cos_one_le; intro h; linarith
  have p1 : prec (1 / 2 ^ 52) 3 ≤ 1 := prec_le_one (by positivity) (by norm_num) 3
  have e1 : vecAt (seg vel 0) 3 = ⟨0, 0, 1⟩ := by simp [vecAt, seg, vel]
  have e4 : vecAt (seg vel 10) 0 = ⟨0, 0, 1⟩ := by simp [vecAt, seg, vel]
  have e3 : seg vel 7 2 = 1 := by simp [seg, vel]
  refine slot_cases ?_ trivial ?_ ?_ trivial
  · show prec _ 3 ≤ norm3 (vecAt (seg vel 0) 3) ∧ cos (norm3 (vecAt (seg vel 0) 3)) ≠ 1
    rw [e1, norm3_z, abs_one]; exact ⟨p1, c1⟩
  · show _ < |seg vel 7 2| ∧ prec _ 3 ≤ |seg vel 7 2| ∧ cos (seg vel 7 2) ≠ 1
    rw [e3, abs_one]; exact ⟨by norm_num, p1, c1⟩
  · show prec _ 3 ≤ norm3 (vecAt (seg vel 10) 0)
    rw [e4, norm3_z, abs_one]; exact p1

theorem vel_diffOk : ∀ s ∈ slotsOf modL, DiffOk (1 / 2 ^ 52) s.g (seg vel s.iv) := by
  have p2 := ex_prec2
  have c1 := cos_one_le
  have c2 := cos_one_pos
  have e1 : vecAt (seg vel 0) 3 = ⟨0, 0, 1⟩ := by simp [vecAt, seg, vel]
  have e4 : vecAt (seg vel 10) 0 = ⟨0, 0, 1⟩ := by simp [vecAt, seg, vel]
  have e3 : seg vel 7 2 = 1 := by simp [seg, vel]
  refine slot_cases ?_ trivial ?_ ?_ trivial
  · show prec _ 2 < 1 + cos (norm3 (vecAt (seg vel 0) 3)) ∧ prec _ 2 < 2 * (1 - cos (norm3 (vecAt (seg vel 0) 3)))
    rw [e1, norm3_z, abs_one]; constructor <;> linarith
  · show _ ≤ |seg vel 7 2|
    rw [e3, abs_one]; norm_num
  · show prec _ 2 < 1 + cos (norm3 (vecAt (seg vel 10) 0)) ∧ prec _ 2 < 2 * (1 - cos (norm3 (vecAt (seg vel 10) 0)))
    rw [e4, norm3_z, abs_one]; constructor <;> linarith

/-- the exact steps from `q0` -/
theorem steps : ∃ out : ℝ → ℕ → ℝ, (∀ s, ModelStep modL q0 (velT s) (out s)) ∧
    ∀ s, ∀ x ∈ slotsOf modL, x.g.Unit (seg (out s) x.iq) := by
  choose out h1 h2 using fun s => exists_modelStep q0 (velT s) q0_unit
  exact ⟨out, h1, h2⟩

/-- `C57_integrate_derivative_partial` applies to the model with every kind of joint -/
example : ∃ (out : ℝ → ℕ → ℝ) (δ : ℕ → ℝ), (∀ s, ModelStep modL q0 (velT s) (out s)) ∧ ModelVel modL out δ 0 := by
  obtain ⟨out, h1, -⟩ := steps
  obtain ⟨A, -, -, -, h⟩ := C57_integrate_derivative_partial (ε := 1 / 2 ^ 52) (by positivity) (by norm_num) modL_reach
    modL_ok (q := fun _ => q0) (v := velT) (t := 0) (by rw [velT_zero]; exact vel_ok) (rest _ _)
    (fun k _ => velT_deriv k) (.of_forall h1) zero_off zero_off
  exact ⟨out, _, h1, h⟩

/-- `C57_difference_derivative_partial` applies to the model with every kind of joint -/
example : ∃ (q1 : ℝ → ℕ → ℝ) (δ1 : ℕ → ℝ), ModelVel modL q1 δ1 0 ∧ (∀ s, ModelDiff modL q0 (q1 s) (velT s)) ∧
    HasDerivAt (fun s => velT s 5) (Spec.apply 14 (dDifference (1 / 2 ^ 52) modL q0 (q1 0) (fun _ _ => 0) .arg0) (fun _ => 0) 5 +
      Spec.apply 14 (dDifference (1 / 2 ^ 52) modL q0 (q1 0) (fun _ _ => 0) .arg1) δ1 5) 0 := by
  obtain ⟨out, h1, h2⟩ := steps
  obtain ⟨A, -, -, -, h⟩ := C57_integrate_derivative_partial (ε := 1 / 2 ^ 52) (by positivity) (by norm_num) modL_reach
    modL_ok (q := fun _ => q0) (v := velT) (t := 0) (by rw [velT_zero]; exact vel_ok) (rest _ _)
    (fun k _ => velT_deriv k) (.of_forall h1) zero_off zero_off
  have hb : ∀ s : ℝ, (1 + sin s / 2) * (1 + sin s / 2) < π ^ 2 := fun s => by
    have := neg_one_le_sin s; have := sin_le_one s; have := two_le_pi; nlinarith
  have hpos : (0 : ℝ) < π ^ 2 := by have := pi_pos; positivity
  have hd : ∀ s, ModelDiff modL q0 (out s) (velT s) := fun s => by
    have k : ∀ x : Slot, x ∈ slotsOf modL → (twistOf x.g (seg (velT s) x.iv)).ang.sqNorm < π ^ 2 := by
      refine slot_cases ?_ ?_ ?_ ?_ ?_ <;>
        simp only [twistOf, vecAt, seg, velT, vel, sqNorm_def] <;> norm_num <;> first | exact hpos | exact hb s
    exact fun x hx => ⟨h1 s x hx, k x hx⟩
  exact ⟨out, _, h, hd, C57_difference_derivative_partial (ε := 1 / 2 ^ 52) (by positivity) (by norm_num) modL_reach modL_ok
    (q0 := fun _ => q0) (d := velT) (t := 0) (by rw [velT_zero]; exact vel_diffOk) (.of_forall fun _ => q0_unit) (.of_forall h2)
    (rest _ _) h (.of_forall hd) zero_off zero_off (by rw [modL_nv]; norm_num)⟩

/-- a planar base with a wheel and a slider -/
noncomputable def modP : Model ℝ LJ := (lRun (empty .mimic) [lArgs 0 (.simple .se2) none "base",
  lArgs 1 (.simple .so2) none "wheel", lArgs 2 (.simple (.vec 1)) none "slider"]).getD (empty .mimic)

theorem modP_joints : modP.joints = [⟨⟨.mimic, 0, 0, 0, none⟩, 0, 0, 0, 0⟩,
    ⟨⟨.simple .se2, 4, 3, 3, none⟩, 1, 0, 0, 0⟩, ⟨⟨.simple .so2, 2, 1, 1, none⟩, 2, 4, 3, 3⟩,
    ⟨⟨.simple (.vec 1), 1, 1, 1, none⟩, 3, 6, 4, 4⟩] := rfl

theorem modP_slots : slotsOf modP = [⟨.se2, 0, 0⟩, ⟨.so2, 4, 3⟩, ⟨.vec 1, 6, 4⟩] := by
  unfold slotsOf
  rw [modP_joints]
  simp [LJ.slots, LJ.nq, LJ.nv, LG.nq, LG.nv]

theorem modP_reach : Reach .mimic modP := lRun_reach [lArgs 0 (.simple .se2) none "base",
  lArgs 1 (.simple .so2) none "wheel", lArgs 2 (.simple (.vec 1)) none "slider"] _ _ .init rfl

theorem modP_ok : PayloadOk modP := by
  intro e he
  rw [modP_joints] at he
  simp only [List.drop_succ_cons, List.drop_zero, List.mem_cons, List.not_mem_nil, or_false] at he
  rcases he with rfl | rfl | rfl
  all_goals
    refine ⟨rfl, rfl, ?_⟩
    simp

theorem slotP_cases {P : Slot → Prop} (h1 : P ⟨.se2, 0, 0⟩) (h2 : P ⟨.so2, 4, 3⟩) (h3 : P ⟨.vec 1, 6, 4⟩) :
    ∀ s ∈ slotsOf modP, P s := by
  intro s hs
  rw [modP_slots] at hs
  simp only [List.mem_cons, List.not_mem_nil, or_false] at hs
  rcases hs with rfl | rfl | rfl <;> assumption

/-- `neutral` of the planar example -/
def qP (k : ℕ) : ℝ := if k = 2 ∨ k = 4 then 1 else 0

theorem qP_unit : ∀ s ∈ slotsOf modP, s.g.Unit (seg qP s.iq) := by
  refine slotP_cases ?_ ?_ trivial
  · show LG.sqn _ 2 2 = 1; simp [LG.sqn, seg, qP, Finset.sum_range_succ]
  · show LG.sqn _ 0 2 = 1; simp [LG.sqn, seg, qP, Finset.sum_range_succ]

/-- all velocities grow with time, `1` at time `1` -/
def vP (s : ℝ) (_ : ℕ) : ℝ := s

theorem vP_ok : ∀ s ∈ slotsOf modP, StepOk (1 / 2 ^ 52) s.g (seg (vP 1) s.iv) := by
  have c1 : cos (1 : ℝ) ≠ 1 := by have := cos_one_le; intro h; linarith
  have p1 : prec (1 / 2 ^ 52) 3 ≤ 1 := prec_le_one (by positivity) (by norm_num) 3
  refine slotP_cases ?_ trivial trivial
  show _ < |(1 : ℝ)| ∧ prec _ 3 ≤ |(1 : ℝ)| ∧ cos (1 : ℝ) ≠ 1
  rw [abs_one]; exact ⟨by norm_num, p1, c1⟩

theorem restP (q : ℕ → ℝ) (t : ℝ) : ModelVel modP (fun _ => q) (fun _ => 0) t :=
  slotP_cases (bodyVel_const _ _ rfl) (bodyVel_const _ _ rfl) (fun _ _ => hasDerivAt_const _ _)

theorem zeroP_off : OffZero modP fun _ _ => 0 := fun _ _ _ _ _ _ => rfl

/-- `C57_integrate_step_partial` applies to the planar example -/
example : ModelStep modP qP (vP 1) (integrate (1 / 2 ^ 52) modP qP (vP 1) fun _ => 0) :=
  C57_integrate_step_partial modP_reach modP_ok (slotP_cases (Or.inr (by
    show 1 / 10 ^ 14 < |(1 : ℝ)|; rw [abs_one]; norm_num)) (qP_unit ⟨.so2, 4, 3⟩ (by rw [modP_slots]; simp)) trivial)

/-- `C57_planar_integrate_derivative_partial` applies to the planar example -/
example : ModelVel modP (fun τ => integrate (1 / 2 ^ 52) modP qP (vP τ) fun _ => 0) (fun i =>
    Spec.apply modP.nv (dIntegrate (1 / 2 ^ 52) modP qP (vP 1) (fun _ _ => 0) .arg0 .setto) (fun _ => 0) i +
    Spec.apply modP.nv (dIntegrate (1 / 2 ^ 52) modP qP (vP 1) (fun _ _ => 0) .arg1 .setto) (fun _ => 1) i) 1 :=
  C57_planar_integrate_derivative_partial (q := fun _ => qP) (v := vP) (by positivity) (by norm_num) modP_reach modP_ok
    (slotP_cases ⟨nofun, nofun⟩ ⟨nofun, nofun⟩ ⟨nofun, nofun⟩) (.of_forall fun _ => qP_unit) vP_ok (restP _ _)
    (fun _ _ => hasDerivAt_id (1 : ℝ)) zeroP_off zeroP_off

/-- one unit of translation and a quarter of a turn apart from `qP` -/
def qP' (k : ℕ) : ℝ := if k = 0 ∨ k = 3 ∨ k = 4 ∨ k = 6 then 1 else 0

theorem log_quarter : so2Log 0 (-1) 1 0 = π / 2 := by
  unfold so2Log
  norm_num [Real.arccos_zero]

theorem log_zero : so2Log 1 0 0 1 = 0 := by
  unfold so2Log
  norm_num [Real.arccos_one]

theorem qP_exact : ∀ s ∈ slotsOf modP, ExactDiff s.g (fun j => qP (s.iq + j)) (fun j => qP' (s.iq + j)) := by
  have a1 : se2Angle (seg qP 0) (seg qP' 0) = π / 2 := by
    rw [← log_quarter]; simp [se2Angle, seg, qP, qP']
  have a2 : so2Diff (seg qP 4) (seg qP' 4) = 0 := by
    rw [← log_zero]; simp [so2Diff, seg, qP, qP']
  have hpi := two_le_pi
  refine slotP_cases ⟨?_, ?_, ?_, ?_⟩ ⟨?_, ?_, ?_⟩ trivial
  · show LG.sqn _ 2 2 = 1; simp [LG.sqn, qP, Finset.sum_range_succ]
  · show LG.sqn _ 2 2 = 1; simp [LG.sqn, qP', Finset.sum_range_succ]
  · show se2Angle (seg qP 0) (seg qP' 0) = 0 ∨ _ ≤ |se2Angle (seg qP 0) (seg qP' 0)|
    rw [a1, abs_of_pos (by linarith)]
    right
    have : (1 : ℝ) / 10 ^ 4 ≤ 1 := by norm_num
    linarith
  · show se2Angle (seg qP 0) (seg qP' 0) ≠ π
    rw [a1]; intro h; linarith
  · show LG.sqn _ 0 2 = 1; simp [LG.sqn, qP, Finset.sum_range_succ]
  · show LG.sqn _ 0 2 = 1; simp [LG.sqn, qP', Finset.sum_range_succ]
  · show so2Diff (seg qP 4) (seg qP' 4) ≠ π
    rw [a2]; intro h; linarith

/-- `C57_difference_diff_partial` applies to the planar example -/
example : ModelDiff modP qP qP' (difference (1 / 2 ^ 52) modP qP qP' fun _ => 0) :=
  C57_difference_diff_partial modP_reach modP_ok qP_exact

/-- `C57_planar_difference_derivative_partial` applies to the planar example at rest -/
example : HasDerivAt (fun _ : ℝ => difference (1 / 2 ^ 52) modP qP qP' (fun _ => 0) 2)
    (Spec.apply modP.nv (dDifference (1 / 2 ^ 52) modP qP qP' (fun _ _ => 0) .arg0) (fun _ => 0) 2 +
      Spec.apply modP.nv (dDifference (1 / 2 ^ 52) modP qP qP' (fun _ _ => 0) .arg1) (fun _ => 0) 2) 0 :=
  C57_planar_difference_derivative_partial (q0 := fun _ => qP) (q1 := fun _ => qP') (by positivity) (by norm_num)
    modP_reach modP_ok (.of_forall fun _ => qP_exact)
    (slotP_cases (by
      show _ ≤ |difference (1 / 2 ^ 52) modP qP qP' (fun _ => 0) (0 + 2)|
      have e := (difference_spec (ε := 1 / 2 ^ 52) modP_reach.inv modP_ok qP qP' (fun _ => 0)).1 ⟨.se2, 0, 0⟩
        (by rw [modP_slots]; simp) 2 (by simp [LG.nv])
      have a1 : se2Angle (seg qP 0) (seg qP' 0) = π / 2 := by
        rw [← log_quarter]; simp [se2Angle, seg, qP, qP']
      have e2 : LG.difference (1 / 2 ^ 52) .se2 (seg qP 0) (seg qP' 0) 2 = π / 2 := by
        show se2Diff _ _ 2 = _
        rw [← a1, se2Diff_eq]
        rfl
      have hpi := two_le_pi
      have e3 : difference (1 / 2 ^ 52) modP qP qP' (fun _ => 0) (0 + 2) = π / 2 := e.trans e2
      rw [e3, abs_of_pos (by linarith)]
      have : (1 : ℝ) / 10 ^ 4 ≤ 1 := by norm_num
      linarith) trivial trivial) (restP _ _) (restP _ _) zeroP_off zeroP_off (by show 2 < 5; norm_num)

end Ex

end Pin
