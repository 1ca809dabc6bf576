import Verif.LieGroup.CodeStep

/-! # Witnesses for the derivatives of the exponential maps -/

namespace Pin
namespace Lie
open Real Spec

theorem skew_inj' {a b : V3 ℝ} (h : M3.skew a = M3.skew b) : a = b := by
  have h1 := congrArg M3.m21 h
  have h2 := congrArg M3.m02 h
  have h3 := congrArg M3.m10 h
  simp only [M3.skew] at h1 h2 h3
  exact V3.ext h1 h2 h3

theorem angVel_unique {R : ℝ → M3 ℝ} {a b : V3 ℝ} {t : ℝ} (hr : (R t).IsRot) (ha : AngVel R a t) (hb : AngVel R b t) :
    a = b := by
  have h := congrArg ((R t).tr * ·) (MDeriv.unique ha hb)
  simp only [← M3.mul_assoc', hr.tr_mul, M3.one_mul'] at h
  exact skew_inj' h

theorem vd_line (a b : V3 ℝ) (t : ℝ) : VDeriv (fun s => a + s • b) b t := by
  have k : ∀ x y : ℝ, HasDerivAt (fun s => x + s * y) y t := fun x y => by
    simpa using ((hasDerivAt_id t).mul_const y).const_add x
  exact ⟨k _ _, k _ _, k _ _⟩

theorem prec_eq {x : ℝ} (hx : 0 ≤ x) (d : ℕ) : prec (x ^ (d + 1)) d = x := by
  unfold prec
  rw [← rpow_natCast x (d + 1), ← rpow_mul hx]
  have : ((d + 1 : ℕ) : ℝ) * (1 / ((d : ℝ) + 1)) = 1 := by push_cast; field_simp
  rw [this, rpow_one]

theorem prec_mono {a b : ℝ} (ha : 0 ≤ a) (h : a ≤ b) (d : ℕ) : prec a d ≤ prec b d :=
  rpow_le_rpow ha h (by positivity)

/-! ## the expansion of `Jexp3` -/

theorem small_Jexp3 {ε x : ℝ} (hx : 0 < x) (hp : x < prec ε 3) :
    x ^ 3 / 24 ≤ ((Jexp3 ε ⟨0, 0, x⟩).mulVec ⟨0, 1, 0⟩).x - ((Jr ⟨0, 0, x⟩).mulVec ⟨0, 1, 0⟩).x := by
  have hn : norm3 ⟨0, 0, x⟩ = x := by rw [norm3_z, abs_of_pos hx]
  have hs : (⟨0, 0, x⟩ : V3 ℝ).sqNorm = x * x := by rw [sqNorm_def]; ring
  have hA : cA ⟨0, 0, x⟩ * x ≤ x / 2 := by
    unfold cA; rw [hn, hs]
    have := one_sub_sq_div_two_le_cos (x := x)
    rw [div_mul_eq_mul_div, div_le_iff₀ (by positivity)]
    nlinarith
  have e1 : ((Jexp3 ε ⟨0, 0, x⟩).mulVec ⟨0, 1, 0⟩).x = x / 2 + x ^ 3 / 24 := by
    have hb : jexp3B ε ⟨0, 0, x⟩ = -1 / 2 - x * x / 24 := by
      unfold jexp3B; rw [hn, hs]; simp only [if_pos hp]
    unfold Jexp3 Jexp3Op
    simp only [hb]
    m3simp
    simp [outer]
    ring
  have e2 : ((Jr ⟨0, 0, x⟩).mulVec ⟨0, 1, 0⟩).x = cA ⟨0, 0, x⟩ * x := by
    unfold Jr
    m3simp
    simp [outer]
  rw [e1, e2]
  linarith

theorem small_Jexp3_line {ε x : ℝ} (hx : 0 < x) (hp : x < prec ε 3) {R : ℝ → M3 ℝ} {ω : V3 ℝ}
    (hR : ∀ s, IsExp3 ⟨0, s, x⟩ (R s)) (hω : AngVel R ω 0) :
    x ^ 3 / 24 ≤ |((Jexp3 ε ⟨0, 0, x⟩).mulVec ⟨0, 1, 0⟩).x - ω.x| := by
  have e : R = fun s => Rot ⟨0, s, x⟩ := funext fun s => (isExp3_iff _ _).1 (hR s)
  subst e
  have hv : VDeriv (fun s : ℝ => (⟨0, s, x⟩ : V3 ℝ)) ⟨0, 1, 0⟩ 0 :=
    ⟨hasDerivAt_const _ _, hasDerivAt_id _, hasDerivAt_const _ _⟩
  have hne : norm3 ⟨0, 0, x⟩ ≠ 0 := by rw [norm3_z, abs_of_pos hx]; exact hx.ne'
  have h1 : AngVel (fun s => Rot ⟨0, s, x⟩) ((Jr ⟨0, 0, x⟩).mulVec ⟨0, 1, 0⟩) 0 := d_Rot hv hne
  have h2 : ω = (Jr ⟨0, 0, x⟩).mulVec ⟨0, 1, 0⟩ := angVel_unique (R := fun s => Rot ⟨0, s, x⟩) (Rot_isRot ⟨0, 0, x⟩) hω h1
  rw [h2]
  exact le_trans (small_Jexp3 hx hp) (le_abs_self _)

/-! ## the expansion of `Jexp3CoeffWise` -/

theorem small_coeff {ε x : ℝ} (hx : 0 < x) (h1 : x ^ 2 ≤ 4 / 5) (hp : x ^ 2 ≤ sqrt ε) :
    x ^ 2 / 25 ≤ 1 / 2 * cos (x / 2) - (Jexp3CoeffWise ε ⟨x, 0, 0⟩).1.m00 := by
  have hs : (⟨x, 0, 0⟩ : V3 ℝ).sqNorm = x * x := by rw [sqNorm_def]; ring
  have e : (Jexp3CoeffWise ε ⟨x, 0, 0⟩).1.m00 = (-1 / 12 + x * x / 480) * x * x + 1 / 2 * (1 - 1 / 4 * (x * x) / 6) := by
    unfold Jexp3CoeffWise
    simp only [hs]
    rw [if_neg (not_lt.2 (by rw [← sq]; exact hp))]
    simp [addDiag, outer]
  rw [e]
  have := one_sub_sq_div_two_le_cos (x := x / 2)
  nlinarith [sq_nonneg x]

theorem qexp_line {x s : ℝ} (h : 0 < x + s) : (qexp ⟨x + s, 0, 0⟩).x = sin ((x + s) / 2) := by
  have hn : norm3 ⟨x + s, 0, 0⟩ = x + s := by
    unfold norm3; rw [sqNorm_def]
    simp only [mul_zero, add_zero]
    exact sqrt_mul_self h.le
  unfold qexp qmk
  rw [hn]
  show sin ((x + s) / 2) / (x + s) * (x + s) = _
  field_simp

theorem d_qexp_line {x : ℝ} (h : 0 < x) : HasDerivAt (fun s => (qexp ⟨x + s, 0, 0⟩).x) (1 / 2 * cos (x / 2)) 0 := by
  have k : HasDerivAt (fun s => sin ((x + s) / 2)) (cos ((x + 0) / 2) * (1 / 2)) 0 :=
    (((hasDerivAt_id (0 : ℝ)).const_add x).div_const 2).sin
  rw [add_zero, mul_comm] at k
  refine k.congr_of_eventuallyEq ?_
  filter_upwards [lt_mem_nhds (show -x < 0 by linarith)] with s hs
  exact qexp_line (by linarith)

/-! ## `Jexp6` at a full turn -/

theorem norm_2pi : norm3 ⟨2 * π, 0, 0⟩ = 2 * π := by
  unfold norm3; rw [sqNorm_def]
  simp only [mul_zero, add_zero]
  exact sqrt_mul_self (by have := pi_pos; linarith)

theorem cD_2pi : cD ⟨2 * π, 0, 0⟩ * ((2 * π) * (2 * π)) = 1 := by
  have := pi_ne_zero
  unfold cD cB; rw [norm_2pi, sin_two_pi, sqNorm_def]
  simp only [mul_zero, add_zero, zero_div, sub_zero]
  field_simp

theorem Jr_2pi : Jr ⟨2 * π, 0, 0⟩ = ⟨1, 0, 0, 0, 0, 0, 0, 0, 0⟩ := by
  have hA : cA ⟨2 * π, 0, 0⟩ = 0 := by unfold cA; rw [norm_2pi, cos_two_pi, sub_self, zero_div]
  have hs : (⟨2 * π, 0, 0⟩ : V3 ℝ).sqNorm = (2 * π) * (2 * π) := by rw [sqNorm_def]; ring
  unfold Jr
  rw [hA, hs, cD_2pi]
  ext <;> m3simp <;> simp [outer]
  linear_combination cD_2pi

theorem Rot_2pi : Rot ⟨2 * π, 0, 0⟩ = 1 := by
  have hA : cA ⟨2 * π, 0, 0⟩ = 0 := by unfold cA; rw [norm_2pi, cos_two_pi, sub_self, zero_div]
  have hB : cB ⟨2 * π, 0, 0⟩ = 0 := by unfold cB; rw [norm_2pi, sin_two_pi, zero_div]
  unfold Rot
  rw [hA, hB, norm_2pi, cos_two_pi]
  ext <;> m3simp <;> simp

/-- the second component of the translation, along `w = (2π, s, 0)` with the linear velocity `(1, 0, 0)` -/
theorem d_full_turn : HasDerivAt (fun s => (Pose ⟨⟨1, 0, 0⟩, ⟨2 * π, s, 0⟩⟩).trans.y) (1 / (2 * π)) 0 := by
  have hpi := pi_ne_zero
  have hw : VDeriv (fun s : ℝ => (⟨2 * π, s, 0⟩ : V3 ℝ)) ⟨0, 1, 0⟩ 0 :=
    ⟨hasDerivAt_const _ _, hasDerivAt_id _, hasDerivAt_const _ _⟩
  have hd := (d_cD hw (by show norm3 ⟨2 * π, 0, 0⟩ ≠ 0; rw [norm_2pi]; exact mul_ne_zero two_ne_zero hpi)).mul
    ((hasDerivAt_id (0 : ℝ)).const_mul (2 * π))
  have e : (fun s => (Pose ⟨⟨1, 0, 0⟩, ⟨2 * π, s, 0⟩⟩).trans.y) =
      (fun s : ℝ => cD ⟨2 * π, s, 0⟩) * fun s => 2 * π * id s := by
    funext s
    show ((Jl ⟨2 * π, s, 0⟩).mulVec ⟨1, 0, 0⟩).y = cD ⟨2 * π, s, 0⟩ * (2 * π * s)
    unfold Jl
    m3simp
    simp only [mul_zero, mul_one, add_zero, zero_add]
    ring
  rw [e]
  refine hd.congr_deriv ?_
  have h := cD_2pi
  simp only [id, mul_zero, add_zero, mul_one]
  field_simp
  linear_combination h

theorem Jexp6_full_turn {ε : ℝ} (he : 0 < ε) (h1 : ε ≤ 1) (x : ℝ) (v v' : V3 ℝ) (w' : V3 ℝ) :
    ((Jexp6OpWith x .setto ε ⟨v, ⟨2 * π, 0, 0⟩⟩ 0).mulMM ⟨v', w'⟩).lin.y = 0 := by
  have hp : prec ε 3 ≤ norm3 ⟨2 * π, 0, 0⟩ := by
    rw [norm_2pi]
    have a : prec ε 3 ≤ 1 := prec_le_one he h1 3
    have := two_le_pi; linarith
  have hJ : Jexp3Op .setto ε ⟨2 * π, 0, 0⟩ 0 = ⟨1, 0, 0, 0, 0, 0, 0, 0, 0⟩ := by
    rw [← Jr_2pi, ← Jexp3_eq he hp]; rfl
  unfold Jexp6OpWith
  dsimp only
  show ((Jexp3Op .setto ε ⟨2 * π, 0, 0⟩ 0).mulVec v' + (-Jexp3Op .setto ε ⟨2 * π, 0, 0⟩ 0 * _).mulVec w').y = 0
  rw [hJ]
  m3simp
  ring

/-! ## exact steps exist -/

theorem qexp_unit {v : V3 ℝ} (h : norm3 v ≠ 0) : (qexp v).sqNorm = 1 := by
  have hs := norm3_sq v
  have e : (qexp v).sqNorm = (sin (norm3 v / 2) / norm3 v) ^ 2 * v.sqNorm + cos (norm3 v / 2) ^ 2 := by
    simp only [qexp, qmk, Quat.sqNorm, sqNorm_def]
    show (_ * v.x) * (_ * v.x) + (_ * v.y) * (_ * v.y) + (_ * v.z) * (_ * v.z) + _ = _
    ring
  rw [e, ← hs]
  have := sin_sq_add_cos_sq (norm3 v / 2)
  field_simp
  linear_combination this

theorem exists_step (g : LG) {q v : ℕ → ℝ} (hu : g.Unit q) : ∃ out, IsStep g q v out ∧ g.Unit out := by
  have quat : ∀ (r : Quat ℝ) (w : V3 ℝ), r.sqNorm = 1 → ∃ r' : Quat ℝ, r'.sqNorm = 1 ∧ r'.toMat = r.toMat * Rot w := by
    intro r w hr
    by_cases hw : w = 0
    · exact ⟨r, hr, by rw [hw, Rot_zero, M3.mul_one']⟩
    · have hn := norm3_ne hw
      refine ⟨r * qexp w, by rw [Quat.sqNorm_mul, hr, qexp_unit hn, one_mul], ?_⟩
      rw [Quat.toMat_mul hr (qexp_unit hn), qexp_toMat hn]
  cases g with
  | vec n => exact ⟨fun k => q k + v k, fun _ _ => rfl, trivial⟩
  | so2 =>
    refine ⟨LG.integrate 0 .so2 q v, integrate_isStep _ hu, ?_⟩
    have hu : LG.sqn q 0 2 = 1 := hu
    rw [sqn_so2] at hu
    show LG.sqn _ 0 2 = 1
    rw [sqn_so2]
    show (so2Int q (v 0)).1 * (so2Int q (v 0)).1 + (so2Int q (v 0)).2 * (so2Int q (v 0)).2 = 1
    rw [so2Int_norm, hu]; norm_num
  | so3 =>
    have hu : LG.sqn q 0 4 = 1 := hu
    rw [sqn_so3] at hu
    obtain ⟨r, hr, e⟩ := quat _ (vecAt v 0) hu
    refine ⟨qcoef r, ⟨_, (isExp6_iff _ _).2 rfl, ?_⟩, ?_⟩
    · refine SE3.ext ?_ ?_
      · show (quatAt (qcoef r) 0).toMat = _
        rw [quatAt_qcoef, e]; rfl
      · show (0 : V3 ℝ) = 0 + (quatAt q 0).toMat.mulVec ((Jl _).mulVec 0)
        rw [M3.mulVec_zero, M3.mulVec_zero, add_zero]
    · show LG.sqn _ 0 4 = 1
      rw [sqn_so3, quatAt_qcoef, hr]
  | se2 =>
    have hu : LG.sqn q 2 2 = 1 := hu
    rw [sqn_se2] at hu
    have hP : ∃ a b, Pose (twistOf .se2 v) = planar (cos (v 2)) (sin (v 2)) a b := by
      obtain ⟨a, b, h⟩ := Jl_z' (v 2) (v 0) (v 1)
      exact ⟨a, b, SE3.ext (Rot_z _) h⟩
    obtain ⟨a, b, hP⟩ := hP
    refine ⟨fun k => if k = 0 then q 2 * a - q 3 * b + q 0 else if k = 1 then q 3 * a + q 2 * b + q 1
      else if k = 2 then q 2 * cos (v 2) - q 3 * sin (v 2) else q 3 * cos (v 2) + q 2 * sin (v 2),
      ⟨_, (isExp6_iff _ _).2 rfl, ?_⟩, ?_⟩
    · rw [hP]
      show _ = planar _ _ _ _ * planar _ _ _ _
      rw [planar_mul]
      rfl
    · show LG.sqn _ 2 2 = 1
      rw [sqn_se2]
      simp only [if_neg (show (2 : ℕ) ≠ 0 by omega),
        if_neg (show (2 : ℕ) ≠ 1 by omega), if_true, if_neg (show (3 : ℕ) ≠ 0 by omega),
        if_neg (show (3 : ℕ) ≠ 1 by omega), if_neg (show (3 : ℕ) ≠ 2 by omega)]
      linear_combination hu + (q 2 * q 2 + q 3 * q 3) * sin_sq_add_cos_sq (v 2)
  | se3 =>
    have hu : LG.sqn q 3 4 = 1 := hu
    rw [sqn_se3] at hu
    obtain ⟨r, hr, e⟩ := quat _ (vecAt v 3) hu
    have e1 : ∀ (p : V3 ℝ), quatAt (fun k => if k < 3 then vcoef p k else qcoef r (k - 3)) 3 = r := fun p => by
      simp [quatAt, qcoef]
    refine ⟨fun k => if k < 3 then vcoef (poseOf .se3 q * Pose (twistOf .se3 v)).trans k else qcoef r (k - 3),
      ⟨_, (isExp6_iff _ _).2 rfl, ?_⟩, ?_⟩
    · refine SE3.ext ?_ ?_
      · show (quatAt _ 3).toMat = _
        rw [e1, e]; rfl
      · show vecAt (fun k => if k < 3 then vcoef (poseOf .se3 q * Pose (twistOf .se3 v)).trans k else qcoef r (k - 3)) 0 = _
        generalize (poseOf .se3 q * Pose (twistOf .se3 v)).trans = p
        simp [vecAt, vcoef]
    · show LG.sqn _ 3 4 = 1
      rw [sqn_se3, e1, hr]

end Lie
end Pin
