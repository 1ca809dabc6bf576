import Verif.LieGroup.ExpMap

/-! # The derivatives of the exponentials (helpers) -/

namespace Pin
namespace Lie
open Real Spec

/-- `1/n² - sin n/(2 n (1 - cos n))` -/
noncomputable def cE (w : V3 ℝ) : ℝ := 1 / w.sqNorm - cB w / (2 * (1 - cos (norm3 w)))
/-- `(dβ/dn)/n` for `β = cE` -/
noncomputable def cF (w : V3 ℝ) : ℝ := -2 / (w.sqNorm * w.sqNorm) + (1 + cB w) / (w.sqNorm * (2 * (1 - cos (norm3 w))))

theorem cos_ne_A {w : V3 ℝ} (hc : cos (norm3 w) ≠ 1) : norm3 w ≠ 0 ∧ cA w ≠ 0 := by
  have hn : norm3 w ≠ 0 := fun h => hc (by rw [h, cos_zero])
  refine ⟨hn, fun h => hc ?_⟩
  obtain ⟨h1, -⟩ := coef_rel hn
  rw [h1, h]; ring

theorem cE_eq {w : V3 ℝ} (hc : cos (norm3 w) ≠ 1) :
    2 * cA w * w.sqNorm * cE w = 2 * cA w - 1 + cD w * w.sqNorm := by
  obtain ⟨hn, hA⟩ := cos_ne_A hc
  have hs := sqNorm_ne hn
  obtain ⟨h1, h2, h3⟩ := coef_rel hn
  unfold cE
  rw [h1, h2]
  field_simp
  ring

theorem cE_eq2 {w : V3 ℝ} (hc : cos (norm3 w) ≠ 1) :
    cE w * (1 - cD w * w.sqNorm) = cA w / 2 - cD w := by
  obtain ⟨hn, hA⟩ := cos_ne_A hc
  have hs := sqNorm_ne hn
  obtain ⟨h1, h2, h3⟩ := coef_rel hn
  have := cE_eq hc
  apply mul_left_cancel₀ (mul_ne_zero (mul_ne_zero two_ne_zero hA) hs)
  linear_combination (1 - cD w * w.sqNorm) * this - h3

/-- the inverse of the left Jacobian -/
noncomputable def Jli (w : V3 ℝ) : M3 ℝ := pw (-1 / 2) (cE w) w
/-- the inverse of the right Jacobian -/
noncomputable def Jri (w : V3 ℝ) : M3 ℝ := pw (1 / 2) (cE w) w

theorem Jli_mul {w : V3 ℝ} (hc : cos (norm3 w) ≠ 1) : Jli w * Jl w = 1 := by
  rw [Jli, Jl_pw, pw_mul, ← pw_zero w]
  congr 1
  · linear_combination (-1 / 2 : ℝ) * cE_eq hc
  · linear_combination cE_eq2 hc

theorem Jl_mul_inv {w : V3 ℝ} (hc : cos (norm3 w) ≠ 1) : Jl w * Jli w = 1 := by
  rw [Jli, Jl_pw, pw_mul, ← pw_zero w]
  congr 1
  · linear_combination (-1 / 2 : ℝ) * cE_eq hc
  · linear_combination cE_eq2 hc

theorem Jri_mul {w : V3 ℝ} (hc : cos (norm3 w) ≠ 1) : Jri w * Jr w = 1 := by
  rw [Jri, Jr_pw, pw_mul, ← pw_zero w]
  congr 1
  · linear_combination (1 / 2 : ℝ) * cE_eq hc
  · linear_combination cE_eq2 hc

theorem Jr_mul_inv {w : V3 ℝ} (hc : cos (norm3 w) ≠ 1) : Jr w * Jri w = 1 := by
  rw [Jri, Jr_pw, pw_mul, ← pw_zero w]
  congr 1
  · linear_combination (1 / 2 : ℝ) * cE_eq hc
  · linear_combination cE_eq2 hc

theorem Rot_Jr (w : V3 ℝ) : Rot w * Jr w = Jl w := by
  by_cases hw : w = 0
  · subst hw; ext <;> simp [Jr, Jl, M3.skew, outer, V3.sqNorm]
  · obtain ⟨h1, h2, h3⟩ := coef_rel (norm3_ne hw)
    rw [Rot_pw, Jr_pw, Jl_pw, pw_mul]
    congr 1
    · rw [h2]; linear_combination h3
    · rw [h2]; ring

theorem Jr_tr (w : V3 ℝ) : (Jr w).tr = Jl w := by
  rw [Jr_pw, Jl_pw, pw_tr, neg_neg]

theorem d_cE {w : ℝ → V3 ℝ} {w' : V3 ℝ} {t : ℝ} (h : VDeriv w w' t) (hc : cos (norm3 (w t)) ≠ 1) :
    HasDerivAt (fun s => cE (w s)) ((w t).dot w' * cF (w t)) t := by
  obtain ⟨hn, hA⟩ := cos_ne_A hc
  have hs := sqNorm_ne hn
  have hc' : 2 * (1 - cos (norm3 (w t))) ≠ 0 := mul_ne_zero two_ne_zero (sub_ne_zero.2 (Ne.symm hc))
  refine HasDerivAt.congr_deriv (((hasDerivAt_const t (1 : ℝ)).div (d_sqNorm h) hs).sub
    ((d_cB h hn).div (((d_cos h hn).const_sub 1).const_mul 2) hc')) ?_
  unfold cF
  obtain ⟨h1, h2, h3⟩ := coef_rel hn
  rw [h2, h1]
  field_simp
  linear_combination (w t).sqNorm ^ 2 * (w t).dot w' * h3

theorem vd_eventually {f g : ℝ → V3 ℝ} {a : V3 ℝ} {t : ℝ} (h : VDeriv f a t) (e : ∀ᶠ s in nhds t, g s = f s) :
    VDeriv g a t :=
  ⟨h.x.congr_of_eventuallyEq (e.mono fun s hs => by simp only [hs]),
   h.y.congr_of_eventuallyEq (e.mono fun s hs => by simp only [hs]),
   h.z.congr_of_eventuallyEq (e.mono fun s hs => by simp only [hs])⟩

theorem d_Jl {w : ℝ → V3 ℝ} {w' : V3 ℝ} {t : ℝ} (h : VDeriv w w' t) (hn : norm3 (w t) ≠ 0) :
    ∃ M, MDeriv (fun s => Jl (w s)) M t :=
  ⟨_, ((MDeriv.smul ((((d_cD h hn).mul (d_sqNorm h)).const_sub 1)) (MDeriv.const 1)).add
    (MDeriv.smul (d_cA h hn) h.skew)).add (MDeriv.smul (d_cD h hn) (h.outer h))⟩

/-- the exact Jacobian of the exponential of SE(3) -/
noncomputable def J6 (ν : Motion ℝ) : M6 ℝ :=
  ⟨Jr ν.ang, -Jr ν.ang * jexp6J (cE ν.ang) (cF ν.ang) ν.ang.sqNorm ν.ang ((Jl ν.ang).mulVec ν.lin), 0, Jr ν.ang⟩

theorem cross_skew (a b : V3 ℝ) : (M3.skew a).mulVec b = a.cross b := by m3ring

theorem neg_mulVec (A : M3 ℝ) (v : V3 ℝ) : (-A).mulVec v = -(A.mulVec v) := by m3ring
theorem mulVec_sub (A : M3 ℝ) (v w : V3 ℝ) : A.mulVec (v - w) = A.mulVec v - A.mulVec w := by m3ring

/-- the derivative of `v = Jli(w) p`: what `p` and `w` contribute -/
theorem d_Jli_mulVec {p w : ℝ → V3 ℝ} {p' w' : V3 ℝ} {t : ℝ} (hp : VDeriv p p' t) (h : VDeriv w w' t)
    (hc : cos (norm3 (w t)) ≠ 1) : VDeriv (fun s => (Jli (w s)).mulVec (p s))
      ((Jli (w t)).mulVec p' + (jexp6J (cE (w t)) (cF (w t)) (w t).sqNorm (w t) (p t)).mulVec w') t := by
  have e : (fun s => (Jli (w s)).mulVec (p s)) = fun s => p s + (-1 / 2 : ℝ) • (w s).cross (p s) +
      cE (w s) • (w s).cross ((w s).cross (p s)) := by
    funext s
    unfold Jli pw
    m3ring
  rw [e]
  refine VDeriv.congr ((hp.add (VDeriv.smul (hasDerivAt_const t (-1 / 2 : ℝ)) (h.cross hp))).add
    (VDeriv.smul (d_cE h hc) (h.cross (h.cross hp)))) ?_
  rw [sqNorm_def]
  unfold Jli pw jexp6J
  m3ring

/-- the body velocity of `Pose` along a curve -/
theorem d_Pose {v w : ℝ → V3 ℝ} {v' w' : V3 ℝ} {t : ℝ} (hv : VDeriv v v' t) (hw : VDeriv w w' t)
    (hc : cos (norm3 (w t)) ≠ 1) :
    BodyVel (fun s => Pose ⟨v s, w s⟩) ((J6 ⟨v t, w t⟩).mulMM ⟨v', w'⟩) t := by
  obtain ⟨hn, hA⟩ := cos_ne_A hc
  refine ⟨?_, ?_⟩
  · refine MDeriv.congr (d_Rot hw hn) ?_
    congr 2
    show _ = (0 : M3 ℝ).mulVec v' + (Jr (w t)).mulVec w'
    rw [M3.zero_mulVec, zero_add]
  · obtain ⟨D, hD⟩ := d_Jl hw hn
    have hp := hD.mulVec hv
    have hev : ∀ᶠ s in nhds t, v s = (Jli (w s)).mulVec ((Jl (w s)).mulVec (v s)) := by
      filter_upwards [(d_cos hw hn).continuousAt.eventually_ne hc] with s hs
      rw [← M3.mulVec_mulVec, Jli_mul hs, M3.one_mulVec]
    have h1 := VDeriv.unique hv (vd_eventually (d_Jli_mulVec hp hw hc) hev)
    refine VDeriv.congr hp ?_
    show _ = (Rot (w t)).mulVec ((Jr (w t)).mulVec v' + (-Jr (w t) * _).mulVec w')
    rw [M3.mulVec_add, ← M3.mulVec_mulVec, ← M3.mulVec_mulVec, Rot_Jr]
    have h2 := congrArg (Jl (w t)).mulVec h1
    rw [M3.mulVec_add, ← M3.mulVec_mulVec (Jl (w t)), Jl_mul_inv hc, M3.one_mulVec] at h2
    have e : Rot (w t) * (-Jr (w t) * jexp6J (cE (w t)) (cF (w t)) (w t).sqNorm (w t) ((Jl (w t)).mulVec (v t))) =
        -(Jl (w t) * jexp6J (cE (w t)) (cF (w t)) (w t).sqNorm (w t) ((Jl (w t)).mulVec (v t))) := by
      rw [← Rot_Jr]; m3ring
    rw [e, neg_mulVec, M3.mulVec_mulVec (Jl (w t)), ← sub_eq_add_neg]
    exact (sub_eq_of_eq_add h2).symm

end Lie
end Pin
