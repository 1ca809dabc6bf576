import Verif.LieGroup.ExpLog
import Verif.Spec.ExpMap
import Mathlib.Analysis.Calculus.MeanValue

/-! # Derivatives of curves of vectors and matrices (helpers) -/

namespace Pin
namespace Lie

/-- unfold the entries of a vector or matrix expression -/
macro "m3simp" : tactic => `(tactic| simp only [outer, M3.skew, V3.dot, addDiag, addSkew, M3.alphaSkew,
    M3.zero_m00, M3.zero_m01, M3.zero_m02, M3.zero_m10, M3.zero_m11, M3.zero_m12, M3.zero_m20, M3.zero_m21,
    M3.zero_m22, M3.one_m00, M3.one_m01, M3.one_m02, M3.one_m10, M3.one_m11, M3.one_m12, M3.one_m20,
    M3.one_m21, M3.one_m22, M3.add_m00, M3.add_m01, M3.add_m02, M3.add_m10, M3.add_m11, M3.add_m12,
    M3.add_m20, M3.add_m21, M3.add_m22, M3.sub_m00, M3.sub_m01, M3.sub_m02, M3.sub_m10, M3.sub_m11,
    M3.sub_m12, M3.sub_m20, M3.sub_m21, M3.sub_m22, M3.neg_m00, M3.neg_m01, M3.neg_m02, M3.neg_m10,
    M3.neg_m11, M3.neg_m12, M3.neg_m20, M3.neg_m21, M3.neg_m22, M3.smul_m00, M3.smul_m01, M3.smul_m02,
    M3.smul_m10, M3.smul_m11, M3.smul_m12, M3.smul_m20, M3.smul_m21, M3.smul_m22, M3.mul_m00, M3.mul_m01,
    M3.mul_m02, M3.mul_m10, M3.mul_m11, M3.mul_m12, M3.mul_m20, M3.mul_m21, M3.mul_m22, M3.tr_m00, M3.tr_m01,
    M3.tr_m02, M3.tr_m10, M3.tr_m11, M3.tr_m12, M3.tr_m20, M3.tr_m21, M3.tr_m22, M3.mulVec_x, V3.zero_x,
    V3.add_x, V3.sub_x, V3.neg_x, V3.smul_x, V3.cross_x, M3.mulVec_y, V3.zero_y, V3.add_y, V3.sub_y, V3.neg_y,
    V3.smul_y, V3.cross_y, M3.mulVec_z, V3.zero_z, V3.add_z, V3.sub_z, V3.neg_z, V3.smul_z, V3.cross_z])

/-- prove an identity of vectors or matrices entry by entry -/
macro "m3ring" : tactic => `(tactic| (ext <;> m3simp <;> ring))

end Lie

namespace Spec
open Lie

variable {t : ℝ}

theorem VDeriv.congr {f : ℝ → V3 ℝ} {a b : V3 ℝ} (h : VDeriv f a t) (e : a = b) : VDeriv f b t := e ▸ h
theorem MDeriv.congr {f : ℝ → M3 ℝ} {a b : M3 ℝ} (h : MDeriv f a t) (e : a = b) : MDeriv f b t := e ▸ h

theorem VDeriv.const (a : V3 ℝ) : VDeriv (fun _ => a) 0 t :=
  ⟨hasDerivAt_const _ _, hasDerivAt_const _ _, hasDerivAt_const _ _⟩

theorem MDeriv.const (a : M3 ℝ) : MDeriv (fun _ => a) 0 t :=
  ⟨hasDerivAt_const _ _, hasDerivAt_const _ _, hasDerivAt_const _ _, hasDerivAt_const _ _, hasDerivAt_const _ _,
    hasDerivAt_const _ _, hasDerivAt_const _ _, hasDerivAt_const _ _, hasDerivAt_const _ _⟩

theorem VDeriv.add {f g : ℝ → V3 ℝ} {a b : V3 ℝ} (hf : VDeriv f a t) (hg : VDeriv g b t) :
    VDeriv (fun s => f s + g s) (a + b) t := ⟨hf.x.add hg.x, hf.y.add hg.y, hf.z.add hg.z⟩

theorem VDeriv.sub {f g : ℝ → V3 ℝ} {a b : V3 ℝ} (hf : VDeriv f a t) (hg : VDeriv g b t) :
    VDeriv (fun s => f s - g s) (a - b) t := ⟨hf.x.sub hg.x, hf.y.sub hg.y, hf.z.sub hg.z⟩

theorem VDeriv.neg {f : ℝ → V3 ℝ} {a : V3 ℝ} (hf : VDeriv f a t) :
    VDeriv (fun s => -f s) (-a) t := ⟨hf.x.neg, hf.y.neg, hf.z.neg⟩

theorem VDeriv.smul {k : ℝ → ℝ} {k' : ℝ} {f : ℝ → V3 ℝ} {a : V3 ℝ} (hk : HasDerivAt k k' t) (hf : VDeriv f a t) :
    VDeriv (fun s => k s • f s) (k' • f t + k t • a) t := ⟨hk.mul hf.x, hk.mul hf.y, hk.mul hf.z⟩

theorem VDeriv.dot {f g : ℝ → V3 ℝ} {a b : V3 ℝ} (hf : VDeriv f a t) (hg : VDeriv g b t) :
    HasDerivAt (fun s => (f s).dot (g s)) (a.dot (g t) + (f t).dot b) t := by
  refine HasDerivAt.congr_deriv (((hf.x.mul hg.x).add (hf.y.mul hg.y)).add (hf.z.mul hg.z)) ?_
  simp only [V3.dot]; ring

theorem VDeriv.cross {f g : ℝ → V3 ℝ} {a b : V3 ℝ} (hf : VDeriv f a t) (hg : VDeriv g b t) :
    VDeriv (fun s => (f s).cross (g s)) (a.cross (g t) + (f t).cross b) t :=
  ⟨((hf.y.mul hg.z).sub (hf.z.mul hg.y)).congr_deriv (by simp only [V3.add_x, V3.cross_x]; ring),
   ((hf.z.mul hg.x).sub (hf.x.mul hg.z)).congr_deriv (by simp only [V3.add_y, V3.cross_y]; ring),
   ((hf.x.mul hg.y).sub (hf.y.mul hg.x)).congr_deriv (by simp only [V3.add_z, V3.cross_z]; ring)⟩

theorem MDeriv.add {f g : ℝ → M3 ℝ} {a b : M3 ℝ} (hf : MDeriv f a t) (hg : MDeriv g b t) :
    MDeriv (fun s => f s + g s) (a + b) t :=
  ⟨hf.m00.add hg.m00, hf.m01.add hg.m01, hf.m02.add hg.m02, hf.m10.add hg.m10, hf.m11.add hg.m11,
    hf.m12.add hg.m12, hf.m20.add hg.m20, hf.m21.add hg.m21, hf.m22.add hg.m22⟩

theorem MDeriv.sub {f g : ℝ → M3 ℝ} {a b : M3 ℝ} (hf : MDeriv f a t) (hg : MDeriv g b t) :
    MDeriv (fun s => f s - g s) (a - b) t :=
  ⟨hf.m00.sub hg.m00, hf.m01.sub hg.m01, hf.m02.sub hg.m02, hf.m10.sub hg.m10, hf.m11.sub hg.m11,
    hf.m12.sub hg.m12, hf.m20.sub hg.m20, hf.m21.sub hg.m21, hf.m22.sub hg.m22⟩

theorem MDeriv.smul {k : ℝ → ℝ} {k' : ℝ} {f : ℝ → M3 ℝ} {a : M3 ℝ} (hk : HasDerivAt k k' t) (hf : MDeriv f a t) :
    MDeriv (fun s => k s • f s) (k' • f t + k t • a) t :=
  ⟨hk.mul hf.m00, hk.mul hf.m01, hk.mul hf.m02, hk.mul hf.m10, hk.mul hf.m11, hk.mul hf.m12, hk.mul hf.m20,
    hk.mul hf.m21, hk.mul hf.m22⟩

theorem MDeriv.tr {f : ℝ → M3 ℝ} {a : M3 ℝ} (hf : MDeriv f a t) : MDeriv (fun s => (f s).tr) a.tr t :=
  ⟨hf.m00, hf.m10, hf.m20, hf.m01, hf.m11, hf.m21, hf.m02, hf.m12, hf.m22⟩

theorem dmul3 {a0 a1 a2 b0 b1 b2 : ℝ → ℝ} {x0 x1 x2 y0 y1 y2 : ℝ} (h0 : HasDerivAt a0 x0 t) (h1 : HasDerivAt a1 x1 t)
    (h2 : HasDerivAt a2 x2 t) (k0 : HasDerivAt b0 y0 t) (k1 : HasDerivAt b1 y1 t) (k2 : HasDerivAt b2 y2 t) :
    HasDerivAt (fun s => a0 s * b0 s + a1 s * b1 s + a2 s * b2 s)
      (x0 * b0 t + x1 * b1 t + x2 * b2 t + (a0 t * y0 + a1 t * y1 + a2 t * y2)) t :=
  (((h0.mul k0).add (h1.mul k1)).add (h2.mul k2)).congr_deriv (by ring)

theorem MDeriv.mul {f g : ℝ → M3 ℝ} {a b : M3 ℝ} (hf : MDeriv f a t) (hg : MDeriv g b t) :
    MDeriv (fun s => f s * g s) (a * g t + f t * b) t :=
  ⟨dmul3 hf.m00 hf.m01 hf.m02 hg.m00 hg.m10 hg.m20, dmul3 hf.m00 hf.m01 hf.m02 hg.m01 hg.m11 hg.m21,
   dmul3 hf.m00 hf.m01 hf.m02 hg.m02 hg.m12 hg.m22, dmul3 hf.m10 hf.m11 hf.m12 hg.m00 hg.m10 hg.m20,
   dmul3 hf.m10 hf.m11 hf.m12 hg.m01 hg.m11 hg.m21, dmul3 hf.m10 hf.m11 hf.m12 hg.m02 hg.m12 hg.m22,
   dmul3 hf.m20 hf.m21 hf.m22 hg.m00 hg.m10 hg.m20, dmul3 hf.m20 hf.m21 hf.m22 hg.m01 hg.m11 hg.m21,
   dmul3 hf.m20 hf.m21 hf.m22 hg.m02 hg.m12 hg.m22⟩

theorem MDeriv.mulVec {f : ℝ → M3 ℝ} {g : ℝ → V3 ℝ} {a : M3 ℝ} {b : V3 ℝ} (hf : MDeriv f a t) (hg : VDeriv g b t) :
    VDeriv (fun s => (f s).mulVec (g s)) (a.mulVec (g t) + (f t).mulVec b) t :=
  ⟨dmul3 hf.m00 hf.m01 hf.m02 hg.x hg.y hg.z, dmul3 hf.m10 hf.m11 hf.m12 hg.x hg.y hg.z,
   dmul3 hf.m20 hf.m21 hf.m22 hg.x hg.y hg.z⟩

theorem VDeriv.skew {f : ℝ → V3 ℝ} {a : V3 ℝ} (hf : VDeriv f a t) :
    MDeriv (fun s => M3.skew (f s)) (M3.skew a) t :=
  ⟨hasDerivAt_const _ _, hf.z.neg, hf.y, hf.z, hasDerivAt_const _ _, hf.x.neg, hf.y.neg, hf.x, hasDerivAt_const _ _⟩

theorem VDeriv.outer {f g : ℝ → V3 ℝ} {a b : V3 ℝ} (hf : VDeriv f a t) (hg : VDeriv g b t) :
    MDeriv (fun s => outer (f s) (g s)) (Lie.outer a (g t) + Lie.outer (f t) b) t :=
  ⟨hf.x.mul hg.x, hf.x.mul hg.y, hf.x.mul hg.z, hf.y.mul hg.x, hf.y.mul hg.y, hf.y.mul hg.z, hf.z.mul hg.x,
    hf.z.mul hg.y, hf.z.mul hg.z⟩

theorem VDeriv.unique {f : ℝ → V3 ℝ} {a b : V3 ℝ} (h : VDeriv f a t) (k : VDeriv f b t) : a = b :=
  V3.ext (h.x.unique k.x) (h.y.unique k.y) (h.z.unique k.z)

theorem MDeriv.unique {f : ℝ → M3 ℝ} {a b : M3 ℝ} (h : MDeriv f a t) (k : MDeriv f b t) : a = b :=
  M3.ext (h.m00.unique k.m00) (h.m01.unique k.m01) (h.m02.unique k.m02) (h.m10.unique k.m10) (h.m11.unique k.m11)
    (h.m12.unique k.m12) (h.m20.unique k.m20) (h.m21.unique k.m21) (h.m22.unique k.m22)

theorem const_of_zero {f : ℝ → ℝ} (h : ∀ t, HasDerivAt f 0 t) (a b : ℝ) : f a = f b :=
  is_const_of_deriv_eq_zero (fun t => (h t).differentiableAt) (fun t => (h t).deriv) a b

theorem mconst_of_zero {f : ℝ → M3 ℝ} (h : ∀ t, MDeriv f 0 t) (a b : ℝ) : f a = f b :=
  M3.ext (const_of_zero (fun t => (h t).m00) a b) (const_of_zero (fun t => (h t).m01) a b)
    (const_of_zero (fun t => (h t).m02) a b) (const_of_zero (fun t => (h t).m10) a b)
    (const_of_zero (fun t => (h t).m11) a b) (const_of_zero (fun t => (h t).m12) a b)
    (const_of_zero (fun t => (h t).m20) a b) (const_of_zero (fun t => (h t).m21) a b)
    (const_of_zero (fun t => (h t).m22) a b)

theorem vconst_of_zero {f : ℝ → V3 ℝ} (h : ∀ t, VDeriv f 0 t) (a b : ℝ) : f a = f b :=
  V3.ext (const_of_zero (fun t => (h t).x) a b) (const_of_zero (fun t => (h t).y) a b)
    (const_of_zero (fun t => (h t).z) a b)

end Spec
end Pin
