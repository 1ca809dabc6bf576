import Verif.LieGroup.ExpDeriv
import Verif.LieGroup.SpaceLemmas
import Verif.Spec.ExpRegime
import Mathlib.Analysis.SpecialFunctions.Trigonometric.Bounds
import Mathlib.Analysis.SpecialFunctions.Trigonometric.InverseDeriv

/-! # The code's exponentials, logarithms and Jacobians, in terms of the exact ones (helpers) -/

namespace Pin
namespace Lie
open Real Spec

/-! ## Jacobians of the exponentials -/

theorem prec_ne {ε n : ℝ} (he : 0 < ε) {d : ℕ} (h : prec ε d ≤ n) : n ≠ 0 :=
  (lt_of_lt_of_le (prec_pos he d) h).ne'

theorem Jexp3_eq {ε : ℝ} (he : 0 < ε) {r : V3 ℝ} (h : prec ε 3 ≤ norm3 r) : Jexp3 ε r = Jr r := by
  have hn := prec_ne he h
  have hs := sqNorm_ne hn
  have ha : jexp3A ε r = cB r := by
    unfold jexp3A cB; simp only [if_neg (not_lt.2 h)]; field_simp
  have hb : jexp3B ε r = -cA r := by
    unfold jexp3B cA; simp only [if_neg (not_lt.2 h)]; rw [← norm3_sq]; field_simp
  have hc : jexp3C ε r = cD r := by
    unfold jexp3C cD; simp only [if_neg (not_lt.2 h), ha]; rw [← norm3_sq]; field_simp
  unfold Jexp3 Jexp3Op
  simp only [ha, hb, hc, (coef_rel hn).2.1]
  unfold Jr
  m3ring

theorem Jexp3_zero {ε : ℝ} (he : 0 < ε) : Jexp3 ε 0 = 1 := by
  have hp := prec_pos he 3
  ext <;> simp [Jexp3, Jexp3Op, jexp3A, norm3_zero, hp, V3.sqNorm, outer]

theorem Jexp3Op_add (ε : ℝ) (r : V3 ℝ) (J : M3 ℝ) : Jexp3Op .addto ε r J = J + Jexp3 ε r := by
  unfold Jexp3 Jexp3Op
  m3ring

theorem Jexp3Op_rm (ε : ℝ) (r : V3 ℝ) (J : M3 ℝ) : Jexp3Op .rmto ε r J = J - Jexp3 ε r := by
  unfold Jexp3 Jexp3Op
  m3ring

theorem Jexp3Op_set (ε : ℝ) (r : V3 ℝ) (J : M3 ℝ) : Jexp3Op .setto ε r J = Jexp3 ε r := rfl

theorem beta_eq {ε : ℝ} (he : 0 < ε) {w : V3 ℝ} (h : prec ε 3 ≤ norm3 w) :
    beta ε (norm3 w) (inv22ct (norm3 w)) = cE w := by
  have hn := prec_ne he h
  unfold beta inv22ct cE cB
  rw [if_neg (not_lt.2 h), ← norm3_sq]
  field_simp

theorem betaDot_eq {ε : ℝ} (he : 0 < ε) {w : V3 ℝ} (h : prec ε 3 ≤ norm3 w) :
    betaDot ε (norm3 w) (inv22ct (norm3 w)) = cF w := by
  have hn := prec_ne he h
  unfold betaDot inv22ct cF cB
  rw [if_neg (not_lt.2 h), ← norm3_sq]
  field_simp

theorem Jexp6_eq {ε : ℝ} (he : 0 < ε) {ν : Motion ℝ} (h : prec ε 3 ≤ norm3 ν.ang) : Jexp6 ε ν = J6 ν := by
  have hb := beta_eq he h
  have hd := betaDot_eq he h
  unfold Jexp6 Jexp6Op Jexp6OpWith J6
  show (⟨Jexp3 ε ν.ang, -Jexp3 ε ν.ang * jexp6J (beta ε (norm3 ν.ang) (inv22ct (norm3 ν.ang)))
    (betaDot ε (norm3 ν.ang) (inv22ct (norm3 ν.ang))) ν.ang.sqNorm ν.ang ((Jexp3 ε ν.ang).tr.mulVec ν.lin), 0,
    Jexp3 ε ν.ang⟩ : M6 ℝ) = _
  rw [hb, hd, Jexp3_eq he h, Jr_tr]

/-! ## logarithm of a rotation -/

theorem norm3_smul (c : ℝ) (v : V3 ℝ) : norm3 (c • v) = |c| * norm3 v := by
  unfold norm3
  rw [sqNorm_smul, sqrt_mul (mul_self_nonneg c), sqrt_mul_self_eq_abs]

theorem adj_eq (R : M3 ℝ) : R.adj = R * R - (R.m00 + R.m11 + R.m22) • R +
    (R.adj.m00 + R.adj.m11 + R.adj.m22) • (1 : M3 ℝ) := by
  ext <;> simp only [M3.adj] <;> m3simp <;> ring

/-- a rotation in terms of its antisymmetric part and its trace -/
theorem rot_anti {R : M3 ℝ} (h : R.IsRot) :
    (4 : ℝ) • (M3.skew (M3.unSkew R) * M3.skew (M3.unSkew R)) =
      (R.m00 + R.m11 + R.m22 + 1) • (R + R.tr - (2 : ℝ) • (1 : M3 ℝ)) := by
  have h1 : R * R = R.tr + (R.m00 + R.m11 + R.m22) • R - (R.m00 + R.m11 + R.m22) • (1 : M3 ℝ) := by
    have := adj_eq R
    rw [← h.tr_eq_adj] at this
    rw [this]
    m3ring
  have h2 : (4 : ℝ) • (M3.skew (M3.unSkew R) * M3.skew (M3.unSkew R)) =
      R * R + (R * R).tr - R * R.tr - R.tr * R := by
    ext <;> simp only [M3.unSkew] <;> m3simp <;> ring
  rw [h2, h.mul_tr, h.tr_mul, h1]
  m3ring

theorem rot_form {R : M3 ℝ} (h : R.IsRot) (ht : R.m00 + R.m11 + R.m22 + 1 ≠ 0) :
    R = pw 1 (2 / (R.m00 + R.m11 + R.m22 + 1)) (M3.unSkew R) := by
  have h1 := rot_anti h
  set T := R.m00 + R.m11 + R.m22 + 1
  have h2 : (2 / T) • (M3.skew (M3.unSkew R) * M3.skew (M3.unSkew R)) =
      (1 / 2 : ℝ) • (R + R.tr - (2 : ℝ) • (1 : M3 ℝ)) := by
    have := congrArg (fun M => (1 / (2 * T)) • M) h1
    calc _ = (1 / (2 * T)) • ((4 : ℝ) • (M3.skew (M3.unSkew R) * M3.skew (M3.unSkew R))) := by
          ext <;> m3simp <;> field_simp <;> ring
      _ = (1 / (2 * T)) • (T • (R + R.tr - (2 : ℝ) • (1 : M3 ℝ))) := this
      _ = _ := by ext <;> m3simp <;> field_simp
  unfold pw
  rw [h2]
  ext <;> simp only [M3.unSkew] <;> m3simp <;> ring

theorem unSkew_sq {R : M3 ℝ} (h : R.IsRot) :
    4 * (M3.unSkew R).sqNorm = (3 - (R.m00 + R.m11 + R.m22)) * (R.m00 + R.m11 + R.m22 + 1) := by
  have h1 := rot_anti h
  have e0 := congrArg M3.m00 h1
  have e1 := congrArg M3.m11 h1
  have e2 := congrArg M3.m22 h1
  simp only [M3.unSkew, sqNorm_def] at *
  revert e0 e1 e2
  m3simp
  intro e0 e1 e2
  linear_combination (-1 / 2 : ℝ) * (e0 + e1 + e2)

theorem renormalize_rot {R : M3 ℝ} (h : R.IsRot) : renormalize R = R := by
  have ha := h.tr_eq_adj
  have ht := h.tr_mul
  have n0 : norm3 R.col0 = 1 := by
    have e := congrArg M3.m00 ht
    revert e; m3simp; intro e
    unfold norm3
    rw [show R.col0.sqNorm = 1 from e, sqrt_one]
  have n1 : norm3 R.col1 = 1 := by
    have e := congrArg M3.m11 ht
    revert e; m3simp; intro e
    unfold norm3
    rw [show R.col1.sqNorm = 1 from e, sqrt_one]
  unfold renormalize
  rw [n0, n1]
  have e00 := congrArg M3.m00 ha; have e01 := congrArg M3.m01 ha; have e02 := congrArg M3.m02 ha
  have e20 := congrArg M3.m20 ha; have e21 := congrArg M3.m21 ha; have e22 := congrArg M3.m22 ha
  simp only [M3.adj] at e00 e01 e02 e20 e21 e22
  revert e00 e01 e02 e20 e21 e22
  m3simp
  intro e00 e01 e02 e20 e21 e22
  have c2 : R.col0.cross R.col1 = R.col2 := by
    ext <;> simp only [V3.cross_x, V3.cross_y, V3.cross_z, M3.col0, M3.col1, M3.col2] <;> linarith
  have c0 : R.col1.cross R.col2 = R.col0 := by
    ext <;> simp only [V3.cross_x, V3.cross_y, V3.cross_z, M3.col0, M3.col1, M3.col2] <;> linarith
  simp only [inv_one, one_smul, c2, c0]
  rfl

theorem prec_le_one {ε : ℝ} (he : 0 < ε) (h1 : ε ≤ 1) (d : ℕ) : prec ε d ≤ 1 :=
  rpow_le_one he.le h1 (by positivity)

theorem prec3_sq_le {ε : ℝ} (he : 0 < ε) (h1 : ε ≤ 1) : prec ε 3 ^ 2 ≤ prec ε 2 := by
  have a := prec_pos he 2
  have b := prec_pos he 3
  have c := prec_pow he 2
  have d := prec_pow he 3
  have e := prec_le_one he h1 2
  by_contra hc
  have hc := lt_of_not_ge hc
  have h4 : prec ε 2 ^ 2 < (prec ε 3 ^ 2) ^ 2 := by gcongr
  have h5 : prec ε 2 ^ 3 ≤ prec ε 2 ^ 2 := by nlinarith [sq_nonneg (prec ε 2)]
  have : (prec ε 3 ^ 2) ^ 2 = prec ε 3 ^ (3 + 1) := by ring
  rw [this, d] at h4
  have : prec ε 2 ^ (2 + 1) = prec ε 2 ^ 3 := by ring
  linarith

/-- the angle of a rotation -/
noncomputable def angle (R : M3 ℝ) : ℝ := arccos ((trace R - 1) / 2)

section
variable {ε : ℝ} (he : 0 < ε) (h1 : ε ≤ 1) {R : M3 ℝ} (h : Nominal ε R)
include he h1 h

theorem Nominal.cos_angle : cos (angle R) = (trace R - 1) / 2 := by
  have := h.lo; have := h.hi; have := prec_pos he 2
  exact cos_arccos (by linarith) (by linarith)

theorem Nominal.sin_pos : 0 < sin (angle R) ∧ 0 < angle R ∧ angle R < π := by
  have := h.lo; have := h.hi; have := prec_pos he 2
  have h0 : 0 < angle R := arccos_pos.2 (by linarith)
  have h2 : angle R < π := by
    refine lt_of_le_of_ne (arccos_le_pi _) fun e => ?_
    have := arccos_eq_pi.1 e
    linarith
  exact ⟨sin_pos_of_pos_of_lt_pi h0 h2, h0, h2⟩

theorem Nominal.angle_sq : prec ε 2 ≤ angle R ^ 2 := by
  have a := h.cos_angle he h1
  have := one_sub_sq_div_two_le_cos (x := angle R)
  have := h.hi
  linarith

theorem Nominal.angle_ge : prec ε 2 ≤ angle R ∧ prec ε 3 ≤ angle R := by
  have a := h.angle_sq he h1
  have b := (h.sin_pos he h1).2.1
  have c := prec_pos he 2
  constructor
  · have := prec_le_one he h1 2
    by_contra hc
    nlinarith
  · have := prec3_sq_le he h1
    exact le_of_sq_le_sq (this.trans a) b.le

theorem Nominal.mlog3 : mlog3 ε R = ((angle R / sin (angle R)) • M3.unSkew R, angle R) := by
  have := h.lo; have := h.hi; have hp := prec_pos he 2
  have hg := (h.angle_ge he h1).1
  unfold Lie.mlog3
  rw [renormalize_rot h.rot]
  have e1 : R.m00 + R.m11 + R.m22 ≤ 3 - prec ε 2 := h.hi
  have e2 : R.m00 + R.m11 + R.m22 ≥ -1 + prec ε 2 := by
    have : R.m00 + R.m11 + R.m22 = trace R := rfl
    linarith
  have e3 : (R.m00 + R.m11 + R.m22 - 1) / 2 ≥ -1 + prec ε 2 := by
    have : R.m00 + R.m11 + R.m22 = trace R := rfl
    linarith
  have e4 : arccos ((R.m00 + R.m11 + R.m22 - 1) / 2) = angle R := rfl
  simp only [if_pos e1, if_pos e2, if_pos e3, e4]
  rw [if_pos (show angle R ≥ prec ε 2 from hg)]

theorem Nominal.norm : norm3 (Lie.mlog3 ε R).1 = angle R := by
  obtain ⟨hs, h0, -⟩ := h.sin_pos he h1
  have hc := h.cos_angle he h1
  have hq := unSkew_sq h.rot
  have h2 := sin_sq_add_cos_sq (angle R)
  have hT : R.m00 + R.m11 + R.m22 = trace R := rfl
  rw [hT] at hq
  have e : (M3.unSkew R).sqNorm = sin (angle R) * sin (angle R) := by
    rw [hc] at h2
    linear_combination (1 / 4 : ℝ) * hq - h2
  rw [h.mlog3 he h1, norm3_smul, norm3, e, sqrt_mul_self hs.le, abs_of_pos (by positivity)]
  field_simp

/-- the code's matrix logarithm is a logarithm -/
theorem Nominal.Rot_mlog3 : Rot (Lie.mlog3 ε R).1 = R := by
  obtain ⟨hs, h0, -⟩ := h.sin_pos he h1
  have hc := h.cos_angle he h1
  have hn := h.norm he h1
  have h2 := sin_sq_add_cos_sq (angle R)
  have hlo := h.lo; have hp := prec_pos he 2
  have hT : R.m00 + R.m11 + R.m22 = trace R := rfl
  have hT1 : trace R + 1 ≠ 0 := by linarith
  have e := rot_form h.rot (by rw [hT]; exact hT1)
  rw [hT] at e
  have hB : cB (Lie.mlog3 ε R).1 = sin (angle R) / angle R := by unfold cB; rw [hn]
  have hA : cA (Lie.mlog3 ε R).1 = (1 - cos (angle R)) / (angle R * angle R) := by
    unfold cA; rw [← norm3_sq, hn]
  rw [Rot_pw, hB, hA]
  conv_rhs => rw [e]
  rw [h.mlog3 he h1]
  have key : ∀ b c k : ℝ, ∀ a : V3 ℝ, pw b c (k • a) = pw (b * k) (c * k * k) a := by
    intro b c k a; unfold pw; m3ring
  rw [key]
  congr 1
  · field_simp
  · rw [hc] at h2 ⊢
    field_simp
    linear_combination (-4 : ℝ) * h2

theorem Nominal.cos_ne : cos (norm3 (Lie.mlog3 ε R).1) ≠ 1 := by
  rw [h.norm he h1, h.cos_angle he h1]
  have := h.hi; have hp := prec_pos he 2
  intro e; linarith

theorem Nominal.Jlog3R : Jlog3R ε R = Jri (Lie.mlog3 ε R).1 := by
  have hn := h.norm he h1
  have hc := h.cos_ne he h1
  have hg := (h.angle_ge he h1).2
  have h2 : (Lie.mlog3 ε R).2 = norm3 (Lie.mlog3 ε R).1 := by rw [hn, h.mlog3 he h1]
  unfold Lie.Jlog3R
  rw [h2]
  rw [← hn] at hg
  generalize (Lie.mlog3 ε R).1 = w at *
  have hn0 := prec_ne he hg
  have hc' : 1 - cos (norm3 w) ≠ 0 := sub_ne_zero.2 (Ne.symm hc)
  have e1 : 1 / (norm3 w * norm3 w) - sin (norm3 w) / (1 - cos (norm3 w)) / (2 * norm3 w) = cE w := by
    unfold cE cB; rw [← norm3_sq]; field_simp
  have e2 : 1 / 2 * (norm3 w * (sin (norm3 w) / (1 - cos (norm3 w)))) = 1 - cE w * w.sqNorm := by
    unfold cE cB; rw [← norm3_sq]; field_simp; ring
  unfold Jlog3
  simp only [if_neg (not_lt.2 hg), e1, e2]
  rw [sqNorm_def]
  unfold Jri pw
  m3ring

end

theorem trace_Rot (w : V3 ℝ) : trace (Rot w) = 1 + 2 * cos (norm3 w) := by
  by_cases hw : w = 0
  · subst hw; simp [trace, norm3_zero]; norm_num
  · obtain ⟨h, -⟩ := coef_rel (norm3_ne hw)
    rw [Rot_pw, h, sqNorm_def]
    unfold trace pw
    m3simp
    ring

theorem unSkew_Rot (w : V3 ℝ) : M3.unSkew (Rot w) = cB w • w := by
  rw [Rot_pw]
  unfold pw M3.unSkew
  m3ring

theorem NomVec.nominal {ε : ℝ} {w : V3 ℝ} (h : NomVec ε w) : Nominal ε (Rot w) where
  rot := Rot_isRot w
  lo := by rw [trace_Rot]; have := h.lo; linarith
  hi := by rw [trace_Rot]; have := h.hi; linarith

theorem NomVec.mlog3 {ε : ℝ} (he : 0 < ε) (h1 : ε ≤ 1) {w : V3 ℝ} (h : NomVec ε w) :
    mlog3 ε (Rot w) = (w, norm3 w) := by
  have ha : angle (Rot w) = norm3 w := by
    unfold angle
    rw [trace_Rot, show (1 + 2 * cos (norm3 w) - 1) / 2 = cos (norm3 w) by ring]
    exact arccos_cos (norm3_nn w) h.lt.le
  obtain ⟨hs, h0, -⟩ := h.nominal.sin_pos he h1
  rw [h.nominal.mlog3 he h1, ha, unSkew_Rot, ← mul_smul]
  rw [ha] at hs h0
  congr 1
  have : norm3 w / sin (norm3 w) * cB w = 1 := by unfold cB; field_simp
  rw [this, one_smul]

/-! ## derivative of the logarithm -/

theorem skew_inj {R : M3 ℝ} (h : R.IsRot) {a b : V3 ℝ} (e : R * M3.skew a = R * M3.skew b) : a = b := by
  have : M3.skew a = M3.skew b := by
    have := congrArg (fun M => R.tr * M) e
    simpa only [← M3.mul_assoc', h.tr_mul, M3.one_mul'] using this
  simp only [M3.skew, M3.mk.injEq] at this
  obtain ⟨-, -, e1, e2, -, -, -, e3, -⟩ := this
  exact V3.ext e3 e1 e2

theorem Interior.nominal {ε : ℝ} {R : M3 ℝ} (h : Interior ε R) (hr : R.IsRot) : Nominal ε R := ⟨hr, h.lo.le, h.hi.le⟩

theorem md_eventually {f g : ℝ → M3 ℝ} {a : M3 ℝ} {t : ℝ} (h : MDeriv f a t) (e : ∀ᶠ s in nhds t, g s = f s) :
    MDeriv g a t :=
  ⟨h.m00.congr_of_eventuallyEq (e.mono fun s hs => by simp only [hs]),
   h.m01.congr_of_eventuallyEq (e.mono fun s hs => by simp only [hs]),
   h.m02.congr_of_eventuallyEq (e.mono fun s hs => by simp only [hs]),
   h.m10.congr_of_eventuallyEq (e.mono fun s hs => by simp only [hs]),
   h.m11.congr_of_eventuallyEq (e.mono fun s hs => by simp only [hs]),
   h.m12.congr_of_eventuallyEq (e.mono fun s hs => by simp only [hs]),
   h.m20.congr_of_eventuallyEq (e.mono fun s hs => by simp only [hs]),
   h.m21.congr_of_eventuallyEq (e.mono fun s hs => by simp only [hs]),
   h.m22.congr_of_eventuallyEq (e.mono fun s hs => by simp only [hs])⟩

theorem d_mlog3 {ε : ℝ} (he : 0 < ε) (h1 : ε ≤ 1) {R : ℝ → M3 ℝ} {ω : V3 ℝ} {t : ℝ} (hr : ∀ s, (R s).IsRot)
    (hv : AngVel R ω t) (hi : Interior ε (R t)) :
    VDeriv (fun s => (mlog3 ε (R s)).1) ((Jri (mlog3 ε (R t)).1).mulVec ω) t := by
  have hN := hi.nominal (hr t)
  have hp := prec_pos he 2
  have hT : HasDerivAt (fun s => (trace (R s) - 1) / 2) _ t := (((hv.m00.add hv.m11).add hv.m22).sub_const 1).div_const 2
  have hTc : ContinuousAt (fun s => trace (R s)) t := ((hv.m00.add hv.m11).add hv.m22).continuousAt
  have hang : HasDerivAt (fun s => angle (R s)) _ t :=
    (hasDerivAt_arccos (x := (trace (R t) - 1) / 2) (by have := hi.lo; intro e; linarith)
      (by have := hi.hi; intro e; linarith)).comp t hT
  have hsin := (hN.sin_pos he h1).1.ne'
  have hq := hang.div hang.sin hsin
  have hu : VDeriv (fun s => M3.unSkew (R s)) (M3.unSkew (R t * M3.skew ω)) t :=
    ⟨(hv.m21.sub hv.m12).const_mul _, (hv.m02.sub hv.m20).const_mul _, (hv.m10.sub hv.m01).const_mul _⟩
  have hw := VDeriv.smul hq hu
  have hev : ∀ᶠ s in nhds t, Nominal ε (R s) := by
    filter_upwards [hTc.eventually (lt_mem_nhds hi.lo), hTc.eventually (gt_mem_nhds hi.hi)] with s a b
    exact ⟨hr s, a.le, b.le⟩
  obtain ⟨w', hw2⟩ : ∃ w', VDeriv (fun s => (mlog3 ε (R s)).1) w' t :=
    ⟨_, vd_eventually hw (hev.mono fun s hs => by rw [hs.mlog3 he h1]; rfl)⟩
  have hn0 : norm3 (mlog3 ε (R t)).1 ≠ 0 := (cos_ne_A (hN.cos_ne he h1)).1
  have hR := d_Rot hw2 hn0
  have hR2 := md_eventually hR (hev.mono fun s hs => (hs.Rot_mlog3 he h1).symm)
  have e := MDeriv.unique hv hR2
  dsimp only at e
  rw [hN.Rot_mlog3 he h1] at e
  have e2 := skew_inj (hr t) e
  refine VDeriv.congr hw2 ?_
  rw [e2, ← M3.mulVec_mulVec, Jri_mul (hN.cos_ne he h1), M3.one_mulVec]

/-! ## logarithm of a pose -/

theorem Nominal.mlog6 {ε : ℝ} (he : 0 < ε) (h1 : ε ≤ 1) {M : SE3 ℝ} (h : Nominal ε M.rot)
    (hs : trace M.rot < 3 - prec ε 2) :
    mlog6 ε M = ⟨(Jli (Lie.mlog3 ε M.rot).1).mulVec M.trans, (Lie.mlog3 ε M.rot).1⟩ := by
  have hn := h.norm he h1
  have hc := h.cos_ne he h1
  have h2 : (Lie.mlog3 ε M.rot).2 = norm3 (Lie.mlog3 ε M.rot).1 := by rw [hn, h.mlog3 he h1]
  have hn0 := (cos_ne_A hc).1
  have hT : ¬ (M.rot.m00 + M.rot.m11 + M.rot.m22 ≥ 3 - prec ε 2) := not_le.2 hs
  unfold Lie.mlog6
  simp only [if_neg hT, h2]
  generalize (Lie.mlog3 ε M.rot).1 = w at *
  have hc' : 1 - cos (norm3 w) ≠ 0 := sub_ne_zero.2 (Ne.symm hc)
  have e1 : 1 / (norm3 w * norm3 w) - sin (norm3 w) / (2 * norm3 w * (1 - cos (norm3 w))) = cE w := by
    unfold cE cB; rw [← norm3_sq]; field_simp
  have e2 : norm3 w * sin (norm3 w) / (2 * (1 - cos (norm3 w))) = 1 - cE w * w.sqNorm := by
    unfold cE cB; rw [← norm3_sq]; field_simp; ring
  rw [e1, e2, sqNorm_def]
  unfold Jli pw
  apply Motion.ext
  · m3ring
  · rfl

theorem Jri_Rot {w : V3 ℝ} (hc : cos (norm3 w) ≠ 1) : Jli w * Rot w = Jri w := by
  calc Jli w * Rot w = Jli w * Rot w * (Jr w * Jri w) := by rw [Jr_mul_inv hc, M3.mul_one']
    _ = Jli w * (Rot w * Jr w) * Jri w := by simp only [M3.mul_assoc']
    _ = Jri w := by rw [Rot_Jr, Jli_mul hc, M3.one_mul']

/-- the exact Jacobian of the logarithm of SE(3) -/
noncomputable def J6i (w p : V3 ℝ) : M6 ℝ :=
  ⟨Jri w, jexp6J (cE w) (cF w) w.sqNorm w p * Jri w, 0, Jri w⟩

theorem Nominal.Jlog6 {ε : ℝ} (he : 0 < ε) (h1 : ε ≤ 1) {M : SE3 ℝ} (h : Nominal ε M.rot) :
    Jlog6 ε M = J6i (Lie.mlog3 ε M.rot).1 M.trans := by
  have hn := h.norm he h1
  have hg := (h.angle_ge he h1).2
  have h2 : (Lie.mlog3 ε M.rot).2 = norm3 (Lie.mlog3 ε M.rot).1 := by rw [hn, h.mlog3 he h1]
  have hJ : Jlog3 ε (norm3 (Lie.mlog3 ε M.rot).1) (Lie.mlog3 ε M.rot).1 = Jri (Lie.mlog3 ε M.rot).1 := by
    rw [← h2]; exact h.Jlog3R he h1
  unfold Lie.Jlog6 J6i
  simp only [h2]
  rw [← hn] at hg
  rw [hJ, beta_eq he hg, betaDot_eq he hg]
  congr 2
  rw [norm3_sq]
  unfold jexp6J
  m3ring

theorem d_mlog6 {ε : ℝ} (he : 0 < ε) (h1 : ε ≤ 1) {M : ℝ → SE3 ℝ} {ν : Motion ℝ} {t : ℝ}
    (hr : ∀ s, (M s).rot.IsRot) (hv : BodyVel M ν t) (hi : Interior ε (M t).rot) :
    VDeriv (fun s => (mlog6 ε (M s)).lin) ((J6i (mlog3 ε (M t).rot).1 (M t).trans).mulMM ν).lin t ∧
      VDeriv (fun s => (mlog6 ε (M s)).ang) ((J6i (mlog3 ε (M t).rot).1 (M t).trans).mulMM ν).ang t := by
  have hN := hi.nominal (hr t)
  have hp := prec_pos he 2
  have hang := hv.ang
  have hTc : ContinuousAt (fun s => trace (M s).rot) t := ((hang.m00.add hang.m11).add hang.m22).continuousAt
  have hw := d_mlog3 he h1 hr hang hi
  have hc := hN.cos_ne he h1
  have hl := d_Jli_mulVec hv.lin hw hc
  have hev : ∀ᶠ s in nhds t, mlog6 ε (M s) =
      ⟨(Jli (mlog3 ε (M s).rot).1).mulVec (M s).trans, (mlog3 ε (M s).rot).1⟩ := by
    filter_upwards [hTc.eventually (lt_mem_nhds hi.lo), hTc.eventually (gt_mem_nhds hi.hi)] with s a b
    exact Nominal.mlog6 he h1 ⟨hr s, a.le, b.le⟩ b
  constructor
  · refine VDeriv.congr (vd_eventually hl (hev.mono fun s hs => by rw [hs])) ?_
    show _ = (Jri _).mulVec ν.lin + (_ * Jri _).mulVec ν.ang
    have e : Jli (mlog3 ε (M t).rot).1 * (M t).rot = Jri (mlog3 ε (M t).rot).1 := by
      rw [← Jri_Rot hc, hN.Rot_mlog3 he h1]
    rw [← M3.mulVec_mulVec, e, M3.mulVec_mulVec]
  · refine VDeriv.congr (vd_eventually hw (hev.mono fun s hs => by rw [hs])) ?_
    show _ = (0 : M3 ℝ).mulVec ν.lin + (Jri _).mulVec ν.ang
    rw [M3.zero_mulVec, zero_add]

end Lie
end Pin
