import Verif.Spatial.Inertia
import Mathlib.Algebra.Order.Field.Basic
import Mathlib.Tactic.LinearCombination
import Mathlib.Tactic.Linarith

/-! # Lemmas about spatial inertias (helpers; the property theorems are in `Verif/Props`) -/

set_option linter.unusedSectionVars false
set_option linter.unusedSimpArgs false
set_option linter.unusedVariables false

namespace Pin
variable {K : Type*}

section ring
variable [CommRing K]

namespace M3
/-- all 9+9+9 scalar equations of a rotation -/
theorem IsRot.eqs {R : M3 K} (h : R.IsRot) :
    (R.m00 * R.m00 + R.m10 * R.m10 + R.m20 * R.m20 = 1 ∧
     R.m00 * R.m01 + R.m10 * R.m11 + R.m20 * R.m21 = 0 ∧
     R.m00 * R.m02 + R.m10 * R.m12 + R.m20 * R.m22 = 0 ∧
     R.m01 * R.m01 + R.m11 * R.m11 + R.m21 * R.m21 = 1 ∧
     R.m01 * R.m02 + R.m11 * R.m12 + R.m21 * R.m22 = 0 ∧
     R.m02 * R.m02 + R.m12 * R.m12 + R.m22 * R.m22 = 1) ∧
    (R.m00 * R.m00 + R.m01 * R.m01 + R.m02 * R.m02 = 1 ∧
     R.m00 * R.m10 + R.m01 * R.m11 + R.m02 * R.m12 = 0 ∧
     R.m00 * R.m20 + R.m01 * R.m21 + R.m02 * R.m22 = 0 ∧
     R.m10 * R.m10 + R.m11 * R.m11 + R.m12 * R.m12 = 1 ∧
     R.m10 * R.m20 + R.m11 * R.m21 + R.m12 * R.m22 = 0 ∧
     R.m20 * R.m20 + R.m21 * R.m21 + R.m22 * R.m22 = 1) ∧
    (R.m00 = R.m11 * R.m22 - R.m12 * R.m21 ∧ R.m01 = R.m12 * R.m20 - R.m10 * R.m22 ∧
     R.m02 = R.m10 * R.m21 - R.m11 * R.m20 ∧
     R.m10 = R.m02 * R.m21 - R.m01 * R.m22 ∧ R.m11 = R.m00 * R.m22 - R.m02 * R.m20 ∧
     R.m12 = R.m01 * R.m20 - R.m00 * R.m21 ∧
     R.m20 = R.m01 * R.m12 - R.m02 * R.m11 ∧ R.m21 = R.m02 * R.m10 - R.m00 * R.m12 ∧
     R.m22 = R.m00 * R.m11 - R.m01 * R.m10) := by
  have h1 := h.tr_mul
  have h2 := h.mul_tr
  have h3 := h.tr_eq_adj
  simp only [M3.ext_iff, mul_m00, mul_m01, mul_m02, mul_m10, mul_m11, mul_m12, mul_m20, mul_m21,
    mul_m22, tr_m00, tr_m01, tr_m02, tr_m10, tr_m11, tr_m12, tr_m20, tr_m21, tr_m22, one_m00,
    one_m01, one_m02, one_m10, one_m11, one_m12, one_m20, one_m21, one_m22, adj] at h1 h2 h3
  obtain ⟨a0, a1, a2, a3, a4, a5, a6, a7, a8⟩ := h1
  obtain ⟨b0, b1, b2, b3, b4, b5, b6, b7, b8⟩ := h2
  obtain ⟨c0, c1, c2, c3, c4, c5, c6, c7, c8⟩ := h3
  refine ⟨⟨?_, ?_, ?_, ?_, ?_, ?_⟩, ⟨?_, ?_, ?_, ?_, ?_, ?_⟩, ⟨?_, ?_, ?_, ?_, ?_, ?_, ?_, ?_, ?_⟩⟩
  all_goals first
    | linear_combination a0 | linear_combination a1 | linear_combination a2
    | linear_combination a4 | linear_combination a5 | linear_combination a8
    | linear_combination b0 | linear_combination b1 | linear_combination b2
    | linear_combination b4 | linear_combination b5 | linear_combination b8
    | linear_combination c0 | linear_combination c1 | linear_combination c2
    | linear_combination c3 | linear_combination c4 | linear_combination c5
    | linear_combination c6 | linear_combination c7 | linear_combination c8
end M3

namespace Sym3
theorem matrix_mulVec (s : Sym3 K) (v : V3 K) : s.matrix.mulVec v = s.mulVec v := by
  ext <;> simp [matrix, mulVec, M3.mulVec]

theorem vtiv_eq (s : Sym3 K) (v : V3 K) : s.vtiv v = v.dot (s.matrix.mulVec v) := by
  simp [matrix, vtiv, M3.mulVec, V3.dot]; ring

theorem matrix_symm (s : Sym3 K) : s.matrix.tr = s.matrix := by ext <;> simp [matrix]

theorem matrix_injective {s t : Sym3 K} (h : s.matrix = t.matrix) : s = t := by
  simp [matrix] at h
  ext <;> simp [h]

theorem rotate_matrix (s : Sym3 K) {R : M3 K} (h : R.IsRot) :
    (s.rotate R).matrix = R * s.matrix * R.tr := by
  obtain ⟨⟨a00, a01, a02, a11, a12, a22⟩, ⟨b00, b01, b02, b11, b12, b22⟩,
    ⟨c00, c01, c02, c10, c11, c12, c20, c21, c22⟩⟩ := h.eqs
  have e1 : (s.rotate R).xy = (R * s.matrix * R.tr).m01 := by
    simp [rotate, matrix]
    linear_combination -s.zz * b01 + s.xz * c21 - s.yz * c20
  have e2 : (s.rotate R).yy = (R * s.matrix * R.tr).m11 := by
    simp [rotate, matrix]
    linear_combination -s.zz * b11
  have e3 : (s.rotate R).xz = (R * s.matrix * R.tr).m02 := by
    simp [rotate, matrix]
    linear_combination -s.zz * b02 - s.xz * c11 + s.yz * c10
  have e4 : (s.rotate R).yz = (R * s.matrix * R.tr).m12 := by
    simp [rotate, matrix]
    linear_combination -s.zz * b12 + s.xz * c01 - s.yz * c00
  have e5 : (s.rotate R).zz = (R * s.matrix * R.tr).m22 := by
    simp [rotate, matrix]
    linear_combination -s.zz * b22
  have e0 : (s.rotate R).xx = (R * s.matrix * R.tr).m00 := by
    have : (s.rotate R).xx = s.xx + s.yy + s.zz - (s.rotate R).yy - (s.rotate R).zz := by
      simp [rotate]; ring
    rw [this, e2, e5]
    simp [matrix]
    linear_combination -s.xx * a00 - s.yy * a11 - s.zz * a22 - 2 * s.xy * a01 - 2 * s.xz * a02
      - 2 * s.yz * a12
  have hs : (R * s.matrix * R.tr).tr = R * s.matrix * R.tr := by
    ext <;> simp [matrix] <;> ring
  have t0 := congrArg M3.m01 hs
  have t1 := congrArg M3.m02 hs
  have t2 := congrArg M3.m12 hs
  rw [M3.tr_m01] at t0; rw [M3.tr_m02] at t1; rw [M3.tr_m12] at t2
  ext
  · exact e0
  · exact e1
  · exact e3
  · exact e1.trans t0.symm
  · exact e2
  · exact e4
  · exact e3.trans t1.symm
  · exact e4.trans t2.symm
  · exact e5

theorem rotate_mulVec (s : Sym3 K) {R : M3 K} (h : R.IsRot) (v : V3 K) :
    (s.rotate R).mulVec v = R.mulVec (s.mulVec (R.tr.mulVec v)) := by
  rw [← matrix_mulVec, ← matrix_mulVec, rotate_matrix s h, ← M3.mulVec_mulVec, ← M3.mulVec_mulVec]
end Sym3

namespace Inertia
theorem matrix_mulMF (I : Inertia K) (v : Motion K) : I.matrix.mulMF v = I.mul v := by
  ext <;> simp [matrix, mul, M6.mulMF, M3.alphaSkew, Sym3.subAlphaSkewSquare, Sym3.matrix,
    Sym3.mulVec] <;> ring

theorem matrix_symm (I : Inertia K) : I.matrix.IsSymm := by
  ext <;> simp [matrix, M3.alphaSkew, Sym3.subAlphaSkewSquare, Sym3.matrix]

@[simp] theorem matrix_zero : (0 : Inertia K).matrix = 0 := by
  ext <;> simp [matrix, M3.alphaSkew, Sym3.subAlphaSkewSquare, Sym3.matrix]

theorem mul_add (I : Inertia K) (v w : Motion K) : I.mul (v + w) = I.mul v + I.mul w := by
  simp only [← matrix_mulMF, M6.mulMF_add]
theorem mul_sub (I : Inertia K) (v w : Motion K) : I.mul (v - w) = I.mul v - I.mul w := by
  simp only [← matrix_mulMF, M6.mulMF_sub]
theorem mul_smul (I : Inertia K) (k : K) (v : Motion K) : I.mul (k • v) = k • I.mul v := by
  simp only [← matrix_mulMF, M6.mulMF_smul]
@[simp] theorem mul_zero (I : Inertia K) : I.mul 0 = 0 := by
  simp only [← matrix_mulMF, M6.mulMF_zero]
theorem dot_mul_comm (I : Inertia K) (v w : Motion K) : v.dot (I.mul w) = w.dot (I.mul v) := by
  simp only [← matrix_mulMF]; exact I.matrix_symm.dot_comm v w

theorem vtiv_eq (I : Inertia K) (v : Motion K) : I.vtiv v = v.dot (I.mul v) := by
  simp [vtiv, mul, Motion.dot, V3.dot, V3.sqNorm, Sym3.vtiv, Sym3.mulVec]; ring

theorem act_mul {M : SE3 K} (h : M.Valid) (I : Inertia K) (v : Motion K) :
    (I.act M).mul v = M.actF (I.mul (M.actInv v)) := by
  have hR : M.rot.IsRot := h
  have k1 : M.rot.mulVec (M.rot.tr.mulVec v.ang) = v.ang := hR.mulVec_tr_mulVec v.ang
  have k2 : M.rot.mulVec (M.rot.tr.mulVec (v.lin - M.trans.cross v.ang))
      = v.lin - M.trans.cross v.ang := hR.mulVec_tr_mulVec _
  have hl : ((I.act M).mul v).lin = (M.actF (I.mul (M.actInv v))).lin := by
    simp only [act, mul, SE3.actF, SE3.actInv]
    rw [M3.mulVec_smul, M3.mulVec_sub, hR.mulVec_cross, k1, k2]
    ext <;> simp <;> ring
  have ha : ((I.act M).mul v).ang = (M.actF (I.mul (M.actInv v))).ang := by
    have hl2 : M.rot.mulVec (I.mul (M.actInv v)).lin = ((I.act M).mul v).lin := hl.symm
    have e1 : (M.actF (I.mul (M.actInv v))).ang
        = M.rot.mulVec (I.mul (M.actInv v)).ang
          + M.trans.cross (M.rot.mulVec (I.mul (M.actInv v)).lin) := rfl
    have e2 : (I.mul (M.actInv v)).ang = I.rotI.mulVec (M.rot.tr.mulVec v.ang)
        + I.lever.cross (I.mul (M.actInv v)).lin := rfl
    have e3 : ((I.act M).mul v).ang = (I.rotI.rotate M.rot).mulVec v.ang
        + (M.trans + M.rot.mulVec I.lever).cross ((I.act M).mul v).lin := rfl
    rw [e1, e2, M3.mulVec_add, hR.mulVec_cross, hl2, e3, Sym3.rotate_mulVec _ hR]
    ext <;> simp only [V3.add_x, V3.add_y, V3.add_z, V3.cross] <;> ring
  exact Force.ext hl ha

theorem valid_inv {M : SE3 K} (h : M.Valid) : M.inv.Valid := M3.IsRot.tr h

theorem actInv_eq (M : SE3 K) (I : Inertia K) : I.actInv M = I.act M.inv := by
  ext <;> simp [actInv, act, SE3.inv] <;> ring

theorem actInv_mul {M : SE3 K} (h : M.Valid) (I : Inertia K) (v : Motion K) :
    (I.actInv M).mul v = M.actInvF (I.mul (M.act v)) := by
  rw [actInv_eq, act_mul (valid_inv h), SE3.inv_actF h, ← SE3.inv_act (valid_inv h),
    SE3.inv_inv h]

theorem vxiv_eq (I : Inertia K) (v : Motion K) : I.vxiv v = v.crossF (I.mul v) := by
  ext <;> simp [vxiv, mul, Motion.crossF, Sym3.mulVec] <;> ring

theorem vxi_mulMF (I : Inertia K) (v w : Motion K) :
    (vxi v I).mulMF w = v.crossF (I.mul w) := by
  ext <;> simp [vxi, mul, M6.mulMF, Motion.crossF, Sym3.mulVec, M3.alphaSkew, M3.skewSquare,
    Sym3.vxs, Sym3.alphaSkewSquare, V3.dot] <;> ring

theorem ivx_mulMF (I : Inertia K) (v w : Motion K) :
    (ivx v I).mulMF w = I.mul (v.cross w) := by
  ext <;> simp [ivx, mul, M6.mulMF, Motion.cross, Sym3.mulVec, M3.alphaSkew, M3.skewSquare,
    Sym3.svx, M3.crossM, V3.dot, M3.ofCols, M3.col0, M3.col1, M3.col2] <;> ring

theorem variation_mulMF (I : Inertia K) (v w : Motion K) :
    (variation I v).mulMF w = v.crossF (I.mul w) - I.mul (v.cross w) := by
  ext <;> simp [variation, mul, M6.mulMF, Motion.cross, Motion.crossF, Sym3.mulVec, M3.skewSquare,
    M3.crossM, M3.skew, Sym3.subAlphaSkewSquare, Sym3.matrix, V3.dot] <;> ring
end Inertia

/-- nondegeneracy of the motion/force pairing -/
theorem Motion.dot_ext {f g : Force K} (h : ∀ u : Motion K, u.dot f = u.dot g) : f = g := by
  have e1 := h ⟨⟨1, 0, 0⟩, 0⟩
  have e2 := h ⟨⟨0, 1, 0⟩, 0⟩
  have e3 := h ⟨⟨0, 0, 1⟩, 0⟩
  have e4 := h ⟨0, ⟨1, 0, 0⟩⟩
  have e5 := h ⟨0, ⟨0, 1, 0⟩⟩
  have e6 := h ⟨0, ⟨0, 0, 1⟩⟩
  simp [Motion.dot, V3.dot] at e1 e2 e3 e4 e5 e6
  ext <;> assumption

namespace SE3
theorem toActionMatrix_mul (M : SE3 K) (v : Motion K) : M.toActionMatrix.mulMM v = M.act v := by
  ext <;> simp [toActionMatrix, M6.mulMM, act, M3.ofCols, M3.col0, M3.col1, M3.col2] <;> ring
theorem toActionMatrixInverse_mul (M : SE3 K) (v : Motion K) :
    M.toActionMatrixInverse.mulMM v = M.actInv v := by
  ext <;> simp [toActionMatrixInverse, M6.mulMM, actInv, M3.ofCols, axisCross0, axisCross1,
    axisCross2] <;> ring
theorem toDualActionMatrix_mul (M : SE3 K) (f : Force K) :
    M.toDualActionMatrix.mulFF f = M.actF f := by
  ext <;> simp [toDualActionMatrix, M6.mulFF, actF, M3.ofCols, M3.col0, M3.col1, M3.col2] <;> ring

theorem actOn_mulMF (M : SE3 K) {A : M6 K} (hA : A.IsSymm) (v : Motion K) :
    (M.actOn A).mulMF v = M.actF (A.mulMF (M.actInv v)) := by
  have h1 := congrArg M6.ll hA
  have h2 := congrArg M6.la hA
  have h3 := congrArg M6.aa hA
  rw [M6.tr_ll] at h1; rw [M6.tr_la] at h2; rw [M6.tr_aa] at h3
  simp only [M3.ext_iff, M3.tr_m00, M3.tr_m01, M3.tr_m02, M3.tr_m10, M3.tr_m11, M3.tr_m12,
    M3.tr_m20, M3.tr_m21, M3.tr_m22] at h1 h2 h3
  obtain ⟨a00, a01, a02, a10, a11, a12, a20, a21, a22⟩ := h1
  obtain ⟨b00, b01, b02, b10, b11, b12, b20, b21, b22⟩ := h2
  obtain ⟨d00, d01, d02, d10, d11, d12, d20, d21, d22⟩ := h3
  ext <;> simp [actOn, M6.mulMF, actF, actInv, addRows, addCols, M3.ofCols, M3.col0, M3.col1,
    M3.col2, ← a01, ← a02, ← a12, b00, b01, b02, b10, b11, b12, b20, b21, b22, ← d01, ← d02, ← d12]
    <;> ring

theorem actOn_symm (M : SE3 K) {A : M6 K} (hA : A.IsSymm) : (M.actOn A).IsSymm := by
  apply M6.ext_mulMF
  intro v
  have key : ∀ u w : Motion K, u.dot ((M.actOn A).mulMF w) = w.dot ((M.actOn A).mulMF u) := by
    intro u w
    rw [actOn_mulMF M hA, actOn_mulMF M hA, ← dot_actInv, ← dot_actInv, hA.dot_comm]
  have k2 : ∀ u : Motion K, u.dot ((M.actOn A).tr.mulMF v) = u.dot ((M.actOn A).mulMF v) := by
    intro u
    rw [key u v, M6.dot_mulMF]
    rfl
  exact Motion.dot_ext k2

theorem actOn_matrix {M : SE3 K} (h : M.Valid) (I : Inertia K) :
    M.actOn I.matrix = (I.act M).matrix := by
  apply M6.ext_mulMF
  intro v
  rw [actOn_mulMF M I.matrix_symm, Inertia.matrix_mulMF, Inertia.matrix_mulMF, Inertia.act_mul h]
end SE3
end ring

section field
variable [Field K]
theorem Sym3.inverse_mulVec (s : Sym3 K) (hd : s.matrix.det ≠ 0) (w : V3 K) :
    s.inverse.mulVec (s.mulVec w) = w := by
  have hd' : s.xx * (s.zz * s.yy - s.yz * s.yz)
      + s.xy * -(s.zz * s.xy - s.yz * s.xz)
      + s.xz * (s.yz * s.xy - s.yy * s.xz) = s.matrix.det := by
    simp [Sym3.matrix, M3.det]; ring
  simp only [Sym3.inverse, hd']
  generalize s.matrix.det = d at *
  subst hd'
  ext <;> simp only [Sym3.mulVec, M3.mulVec] <;> rw [div_mul_eq_mul_div, div_mul_eq_mul_div,
    div_mul_eq_mul_div, ← add_div, ← add_div, div_eq_iff hd] <;> ring
end field

namespace Inertia
section field
variable [Field K]
theorem inverse_mulFM (I : Inertia K) (hm : I.mass ≠ 0) (hd : I.rotI.matrix.det ≠ 0) (v : Motion K) :
    I.inverse.mulFM (I.mul v) = v := by
  have hA : ∀ w, I.rotI.inverse.mulVec (I.rotI.mulVec w) = w := fun w => Sym3.inverse_mulVec _ hd w
  have hS : I.rotI.inverse.tr = I.rotI.inverse := by ext <;> simp [Sym3.inverse]
  set A := I.rotI.inverse with hAdef
  have s1 := congrArg M3.m01 hS
  have s2 := congrArg M3.m02 hS
  have s3 := congrArg M3.m12 hS
  simp only [M3.tr_m01, M3.tr_m02, M3.tr_m12] at s1 s2 s3
  -- angular part: A (J w + c×l) + alpha l
  have ang : (I.inverse.mulFM (I.mul v)).ang = v.ang := by
    have : (I.inverse.mulFM (I.mul v)).ang = A.mulVec (I.rotI.mulVec v.ang) := by
      ext <;> simp [inverse, M6.mulFM, mul, ← hAdef, M3.ofCols, M3.col0, M3.col1, M3.col2, s1, s2, s3]
        <;> ring
    rw [this, hA]
  have lin : (I.inverse.mulFM (I.mul v)).lin
      = (1 / I.mass) • (I.mul v).lin + I.lever.cross (I.inverse.mulFM (I.mul v)).ang := by
    ext <;> simp [inverse, M6.mulFM, mul, ← hAdef, M3.ofCols, M3.col0, M3.col1, M3.col2, s1, s2, s3]
        <;> ring
  apply Motion.ext
  · rw [lin, ang]
    ext <;> simp [mul] <;> field_simp <;> ring
  · exact ang

/-- masses for which the code's regularised division is exact -/
def MassOk [LinearOrder K] [HasEps K] (m : K) : Prop := m = 0 ∨ HasEps.eps ≤ m
end field

section ordered
variable [Field K] [LinearOrder K] [IsStrictOrderedRing K] [HasEps K]

theorem add_def (a b : Inertia K) : a + b = Inertia.add a b := rfl
theorem sub_def (a b : Inertia K) : a - b = Inertia.sub a b := rfl

theorem addAssign_eq (a b : Inertia K) : addAssign a b = a + b := by
  rw [add_def]
  ext <;> simp [addAssign, add] <;> ring

theorem subAssign_eq (a b : Inertia K) : subAssign a b = a - b := by
  rw [sub_def]
  have : (a.mass * (1 / max (a.mass - b.mass) (HasEps.eps : K))) • a.lever
      - (b.mass * (1 / max (a.mass - b.mass) (HasEps.eps : K))) • b.lever
      = (1 / max (a.mass - b.mass) (HasEps.eps : K)) • (a.mass • a.lever - b.mass • b.lever) := by
    ext <;> simp <;> ring
  simp only [subAssign, sub, this]

set_option maxHeartbeats 2000000 in
theorem matrix_add (a b : Inertia K) (ha : 0 ≤ a.mass) (hb : 0 ≤ b.mass)
    (hab : MassOk (a.mass + b.mass)) : (a + b).matrix = a.matrix + b.matrix := by
  rw [add_def]
  rcases hab with h0 | h1
  · have ha0 : a.mass = 0 := by linarith
    have hb0 : b.mass = 0 := by linarith
    ext <;> simp [matrix, add, ha0, hb0, M3.alphaSkew, Sym3.subAlphaSkewSquare, Sym3.matrix]
  · have hp : 0 < a.mass + b.mass := lt_of_lt_of_le HasEps.eps_pos h1
    have hne : a.mass + b.mass ≠ 0 := ne_of_gt hp
    have hmax : max (a.mass + b.mass) (HasEps.eps : K) = a.mass + b.mass := max_eq_left h1
    ext <;> simp [matrix, add, hmax, M3.alphaSkew, Sym3.subAlphaSkewSquare, Sym3.matrix]
      <;> field_simp <;> ring

set_option maxHeartbeats 2000000 in
theorem matrix_sub (a b : Inertia K) (hb : 0 ≤ b.mass)
    (hab : HasEps.eps ≤ a.mass - b.mass) : (a - b).matrix = a.matrix - b.matrix := by
  rw [sub_def]
  have hp : 0 < a.mass - b.mass := lt_of_lt_of_le HasEps.eps_pos hab
  have hne : a.mass - b.mass ≠ 0 := ne_of_gt hp
  have hma : a.mass ≠ 0 := by
    have : 0 < a.mass := by linarith
    exact ne_of_gt this
  have hmax : max (a.mass - b.mass) (HasEps.eps : K) = a.mass - b.mass := max_eq_left hab
  ext <;> simp [matrix, sub, hmax, M3.alphaSkew, Sym3.subAlphaSkewSquare, Sym3.alphaSkewSquare,
    Sym3.matrix] <;> field_simp <;> ring

theorem add_mul (a b : Inertia K) (ha : 0 ≤ a.mass) (hb : 0 ≤ b.mass)
    (hab : MassOk (a.mass + b.mass)) (v : Motion K) : (a + b).mul v = a.mul v + b.mul v := by
  rw [← matrix_mulMF, matrix_add a b ha hb hab, M6.add_mulMF, matrix_mulMF, matrix_mulMF]

/-- physically consistent enough for kinetic energy: nonnegative mass and positive semidefinite
rotational inertia -/
def Psd (I : Inertia K) : Prop := 0 ≤ I.mass ∧ ∀ w : V3 K, 0 ≤ I.rotI.vtiv w

omit [HasEps K] in
theorem vtiv_split (I : Inertia K) (v : Motion K) :
    I.vtiv v = I.mass * (v.lin - I.lever.cross v.ang).sqNorm + I.rotI.vtiv v.ang := by
  simp [vtiv, V3.sqNorm, V3.dot, Sym3.vtiv]; ring

omit [HasEps K] in
theorem sqNorm_nonneg (v : V3 K) : 0 ≤ v.sqNorm := by
  have := mul_self_nonneg v.x; have := mul_self_nonneg v.y; have := mul_self_nonneg v.z
  simp only [V3.sqNorm, V3.dot]; linarith

omit [HasEps K] in
theorem Psd.vtiv_nonneg {I : Inertia K} (h : I.Psd) (v : Motion K) : 0 ≤ I.vtiv v := by
  rw [vtiv_split]
  exact add_nonneg (mul_nonneg h.1 (sqNorm_nonneg _)) (h.2 _)

omit [HasEps K] in
theorem eq_zero_of_sqNorm {v : V3 K} (h : v.sqNorm = 0) : v = 0 := by
  simp only [V3.sqNorm, V3.dot] at h
  have hx := mul_self_nonneg v.x; have hy := mul_self_nonneg v.y; have hz := mul_self_nonneg v.z
  ext
  · exact mul_self_eq_zero.1 (by linarith)
  · exact mul_self_eq_zero.1 (by linarith)
  · exact mul_self_eq_zero.1 (by linarith)

theorem vtiv_eq_zero {I : Inertia K} (hm : 0 < I.mass) (hI : ∀ w : V3 K, w ≠ 0 → 0 < I.rotI.vtiv w) {v : Motion K}
    (h : I.vtiv v = 0) : v = 0 := by
  have hn : ∀ w : V3 K, 0 ≤ I.rotI.vtiv w := fun w => by
    by_cases e : w = 0
    · subst e; simp [Sym3.vtiv]
    · exact (hI w e).le
  have hs := vtiv_split I v
  rw [h] at hs
  have h1 := mul_nonneg hm.le (sqNorm_nonneg (v.lin - I.lever.cross v.ang))
  have h2 := hn v.ang
  have ha : v.ang = 0 := by
    by_contra e
    have := hI v.ang e
    linarith
  have hl : (v.lin - I.lever.cross v.ang).sqNorm = 0 := by
    have : I.mass * (v.lin - I.lever.cross v.ang).sqNorm = 0 := by linarith
    exact (mul_eq_zero.1 this).resolve_left hm.ne'
  have hl := eq_zero_of_sqNorm hl
  rw [ha] at hl
  have hl : v.lin = 0 := by
    have e := hl
    rw [V3.ext_iff] at e
    ext
    · simpa using e.1
    · simpa using e.2.1
    · simpa using e.2.2
  ext <;> simp [ha, hl]
end ordered
end Inertia
end Pin
