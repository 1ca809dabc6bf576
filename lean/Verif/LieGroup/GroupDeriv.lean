import Verif.LieGroup.ExpAccuracy
import Verif.LieGroup.GroupLemmas
import Verif.Spec.ConfVel

/-! # Derivatives of the operations of the groups -/

namespace Pin
namespace Spec
open Lie Real

variable {t : ℝ}

theorem skew_conj {R : M3 ℝ} (h : R.IsRot) (w : V3 ℝ) : M3.skew (R.tr.mulVec w) = R.tr * M3.skew w * R := by
  conv_lhs => rw [M3.IsRot.tr_eq_adj h]
  unfold M3.adj
  ext <;> m3simp <;> ring

/-- velocity of a product of poses -/
theorem BodyVel.mul {A B : ℝ → SE3 ℝ} {a b : Motion ℝ} (hA : BodyVel A a t) (hB : BodyVel B b t)
    (hr : (B t).rot.IsRot) : BodyVel (fun s => A s * B s) ((B t).actInv a + b) t := by
  have h1 := hr.mul_tr
  refine ⟨?_, ?_⟩
  · refine MDeriv.congr (hA.ang.mul hB.ang) ?_
    show (A t).rot * M3.skew a.ang * (B t).rot + (A t).rot * ((B t).rot * M3.skew b.ang) =
      (A t).rot * (B t).rot * M3.skew ((B t).rot.tr.mulVec a.ang + b.ang)
    have : M3.skew ((B t).rot.tr.mulVec a.ang + b.ang) = M3.skew ((B t).rot.tr.mulVec a.ang) + M3.skew b.ang := by m3ring
    rw [this, skew_conj hr, show ∀ a b c : M3 ℝ, a * (b + c) = a * b + a * c from fun a b c => by m3ring]
    simp only [M3.mul_assoc']
    rw [← M3.mul_assoc' (B t).rot (B t).rot.tr, h1, M3.one_mul']
  · refine VDeriv.congr (hA.lin.add (hA.ang.mulVec hB.lin)) ?_
    show (A t).rot.mulVec a.lin + (((A t).rot * M3.skew a.ang).mulVec (B t).trans +
      (A t).rot.mulVec ((B t).rot.mulVec b.lin)) =
      ((A t).rot * (B t).rot).mulVec ((B t).rot.tr.mulVec (a.lin - (B t).trans.cross a.ang) + b.lin)
    rw [M3.mulVec_add, M3.mulVec_mulVec, M3.mulVec_mulVec, ← M3.mulVec_mulVec (B t).rot (B t).rot.tr, h1, M3.one_mulVec]
    m3ring

theorem BodyVel.congr {A : ℝ → SE3 ℝ} {a b : Motion ℝ} (h : BodyVel A a t) (e : a = b) : BodyVel A b t := e ▸ h

theorem BodyVel.fcongr {A B : ℝ → SE3 ℝ} {a : Motion ℝ} (h : BodyVel A a t) (e : ∀ s, B s = A s) : BodyVel B a t := by
  have : B = A := funext e
  rw [this]; exact h

end Spec

namespace Lie
open Real Spec

theorem mulVec_ent (M : M3 ℝ) (x : ℕ → ℝ) : vecAt (Spec.apply 3 (m3e M) x) 0 = M.mulVec (vecAt x 0) := by
  unfold Spec.apply vecAt m3e
  ext <;> simp [Finset.sum_range_succ]

theorem mulMM_ent (M : M6 ℝ) (x : ℕ → ℝ) : twistOf .se3 (Spec.apply 6 (m6e M) x) = M.mulMM (twistOf .se3 x) := by
  unfold Spec.apply twistOf vecAt m6e m3e M6.mulMM
  ext <;> simp [Finset.sum_range_succ] <;> ring

theorem twistOf_add (g : LG) (a b : ℕ → ℝ) : twistOf g (fun i => a i + b i) = twistOf g a + twistOf g b := by
  cases g <;> unfold twistOf <;> (try unfold vecAt) <;> ext <;> simp


/-! ## planar motions -/

theorem norm3_z (x : ℝ) : norm3 ⟨0, 0, x⟩ = |x| := by
  unfold norm3; rw [sqNorm_def]; simp only [mul_zero, zero_add]; exact sqrt_mul_self_eq_abs x

theorem cos_z (x : ℝ) : cos (norm3 ⟨0, 0, x⟩) = cos x := by rw [norm3_z, cos_abs]

theorem cB_z (x : ℝ) : cB ⟨0, 0, x⟩ = sin x / x := by
  unfold cB; rw [norm3_z]
  rcases abs_choice x with e | e <;> rw [e]
  rw [sin_neg, neg_div_neg_eq]

theorem Rot_z (x : ℝ) : Rot ⟨0, 0, x⟩ = ⟨cos x, -sin x, 0, sin x, cos x, 0, 0, 0, 1⟩ := by
  by_cases h : x = 0
  · subst h
    have : (⟨0, 0, 0⟩ : V3 ℝ) = 0 := rfl
    rw [this, Rot_zero]; ext <;> simp
  · have hx : cA ⟨0, 0, x⟩ * (x * x) = 1 - cos x := by
      unfold cA; rw [cos_z, sqNorm_def]; simp only [mul_zero, zero_add]; field_simp
    have hs : cB ⟨0, 0, x⟩ * x = sin x := by rw [cB_z]; field_simp
    unfold Rot
    rw [cos_z]
    ext <;> m3simp <;> first | ring1 | linear_combination hs | linear_combination -hs | linear_combination hx

/-- translation of a planar motion -/
theorem Jl_z {x : ℝ} (h : x ≠ 0) (a b : ℝ) : (Jl ⟨0, 0, x⟩).mulVec ⟨a, b, 0⟩ =
    ⟨sin x / x * a - (1 - cos x) / x * b, sin x / x * b + (1 - cos x) / x * a, 0⟩ := by
  have hA : cA ⟨0, 0, x⟩ = (1 - cos x) / (x * x) := by
    unfold cA; rw [cos_z, sqNorm_def]; simp only [mul_zero, zero_add]
  have hD : 1 - cD ⟨0, 0, x⟩ * (⟨0, 0, x⟩ : V3 ℝ).sqNorm = sin x / x := by
    unfold cD; rw [cB_z, sqNorm_def]; simp only [mul_zero, zero_add]; field_simp; ring
  unfold Jl
  rw [hD, hA]
  ext <;> m3simp <;> field_simp <;> ring


theorem Pose_z0 (x : ℝ) : Pose ⟨0, ⟨0, 0, x⟩⟩ = planar (cos x) (sin x) 0 0 := by
  unfold Pose planar
  refine SE3.ext (Rot_z x) ?_
  show (Jl _).mulVec 0 = _
  rw [M3.mulVec_zero]; rfl

theorem se2Exp_pose {v : ℕ → ℝ} (h : 1 / 10 ^ 14 < |v 2|) :
    Pose (twistOf .se2 v) = planar (se2Exp v).1 (se2Exp v).2.1 (se2Exp v).2.2.1 (se2Exp v).2.2.2 := by
  have h0 : v 2 ≠ 0 := by intro e; rw [e, abs_zero] at h; norm_num at h
  unfold Pose planar twistOf se2Exp
  refine SE3.ext (Rot_z _) ?_
  dsimp only
  rw [Jl_z h0, if_pos h, if_pos h]
  ext <;> dsimp only <;> field_simp <;> ring

/-- the exact inverse adjoint action of the exponential -/
noncomputable def adInv (ε : ℝ) (g : LG) (v : ℕ → ℝ) : ℕ → ℕ → ℝ := match g with
  | .so3 => m3e (Rot (vecAt v 0)).tr
  | .se3 => m6e (Pose (twistOf .se3 v)).toDualActionMatrix.tr
  | g => g.dInt ε .arg0 v

theorem so3_pose_vel {R : ℝ → SE3 ℝ} {w : V3 ℝ} {t : ℝ} (h : ∀ s, (R s).trans = 0)
    (ha : AngVel (fun s => (R s).rot) w t) : BodyVel R ⟨0, w⟩ t := by
  refine ⟨ha, ?_⟩
  have : (fun s => (R s).trans) = fun _ => 0 := funext h
  show VDeriv (fun s => (R s).trans) ((R t).rot.mulVec 0) t
  rw [this, M3.mulVec_zero]
  exact VDeriv.const 0

theorem vecAt_add (a b : ℕ → ℝ) (k : ℕ) : vecAt (fun i => a i + b i) k = vecAt a k + vecAt b k := rfl

theorem dual_tr_act (M : SE3 ℝ) (v : Motion ℝ) : M.toDualActionMatrix.tr.mulMM v = M.actInv v := by
  unfold SE3.toDualActionMatrix M6.tr M6.mulMM SE3.actInv
  ext <;> simp [M3.ofCols, M3.col0, M3.col1, M3.col2] <;> ring

/-- the 6×6 matrix maps planar motions to planar motions -/
structure Planar (M : M6 ℝ) : Prop where
  l20 : M.ll.m20 = 0
  l21 : M.ll.m21 = 0
  l22 : M.la.m22 = 0
  a00 : M.al.m00 = 0
  a01 : M.al.m01 = 0
  a10 : M.al.m10 = 0
  a11 : M.al.m11 = 0
  a02 : M.aa.m02 = 0
  a12 : M.aa.m12 = 0

theorem corner {M : M6 ℝ} (h : Planar M) (x : ℕ → ℝ) : M.mulMM (twistOf .se2 x) =
    twistOf .se2 (Spec.apply 3 (fun i j => m6e M (se2Idx i) (se2Idx j)) x) := by
  obtain ⟨h1, h2, h3, h4, h5, h6, h7, h8, h9⟩ := h
  unfold M6.mulMM twistOf Spec.apply se2Idx m6e m3e
  ext <;> simp [Finset.sum_range_succ, h1, h2, h3, h4, h5, h6, h7, h8, h9]

theorem Jr_z (x : ℝ) : ∃ a b, Jr ⟨0, 0, x⟩ = ⟨a, -b, 0, b, a, 0, 0, 0, 1⟩ := by
  by_cases h : x = 0
  · subst h
    refine ⟨1, 0, ?_⟩
    unfold Jr
    rw [sqNorm_def]
    ext <;> m3simp <;> ring
  · refine ⟨1 - cD ⟨0, 0, x⟩ * (x * x), -cA ⟨0, 0, x⟩ * x, ?_⟩
    unfold Jr
    rw [sqNorm_def]
    ext <;> m3simp <;> ring

theorem Jl_z' (x a b : ℝ) : ∃ c d, (Jl ⟨0, 0, x⟩).mulVec ⟨a, b, 0⟩ = ⟨c, d, 0⟩ := by
  obtain ⟨c, d, e⟩ := Jr_z x
  refine ⟨c * a + d * b, -d * a + c * b, ?_⟩
  rw [← Jr_tr, e]
  ext <;> m3simp <;> ring

theorem planar_J6 (v : ℕ → ℝ) : Planar (J6 (se2Nu v)) := by
  obtain ⟨c, d, e⟩ := Jl_z' (v 2) (v 0) (v 1)
  obtain ⟨a, b, e'⟩ := Jr_z (v 2)
  unfold J6 se2Nu jexp6J
  rw [e, e']
  constructor <;> m3simp <;> ring

theorem d_step {ε : ℝ} (he : 0 < ε) (g : LG) {q v out : ℝ → ℕ → ℝ} {δ v' : ℕ → ℝ} {t : ℝ} (hok : StepOk ε g (v t))
    (hq : ConfVel g q δ t) (hv : ∀ k, k < g.nv → HasDerivAt (fun s => v s k) (v' k) t)
    (hs : ∀ s, IsStep g (q s) (v s) (out s)) :
    ConfVel g out (fun i => Spec.apply g.nv (adInv ε g (v t)) δ i + Spec.apply g.nv (g.dInt ε .arg1 (v t)) v' i) t := by
  cases g with
  | vec n =>
    intro k hk
    have e : (fun s => out s k) = fun s => q s k + v s k := funext fun s => hs s k hk
    rw [e]
    refine ((hq k hk).add (hv k hk)).congr_deriv ?_
    unfold Spec.apply adInv LG.dInt
    simp only [ite_mul, one_mul, zero_mul]
    rw [Finset.sum_ite_eq, Finset.sum_ite_eq, if_pos (Finset.mem_range.2 (show k < (LG.vec n).nv from hk)), if_pos (Finset.mem_range.2 (show k < (LG.vec n).nv from hk))]
  | so2 =>
    have hv0 := hv 0 (by simp [LG.nv])
    have hE : BodyVel (fun s => planar (cos (v s 0)) (sin (v s 0)) 0 0) ⟨0, ⟨0, 0, v' 0⟩⟩ t := by
      refine so3_pose_vel (fun _ => rfl) ?_
      have hc := hv0.cos
      have hsn := hv0.sin
      unfold planar
      refine MDeriv.congr ⟨hc, hsn.neg, hasDerivAt_const _ _, hsn, hc, hasDerivAt_const _ _, hasDerivAt_const _ _,
        hasDerivAt_const _ _, hasDerivAt_const _ _⟩ (b := _) (a := ⟨_, _, _, _, _, _, _, _, _⟩) ?_
      m3ring
    have := BodyVel.mul hq hE (by
      have := Rot_isRot ⟨0, 0, v t 0⟩
      rw [Rot_z] at this; exact this)
    have e : ∀ s, poseOf .so2 (out s) = poseOf .so2 (q s) * planar (cos (v s 0)) (sin (v s 0)) 0 0 := fun s => by
      obtain ⟨E, hE, h⟩ := hs s
      rw [isExp6_iff] at hE
      rw [h, hE]
      congr 1
      exact Pose_z0 _
    refine (this.fcongr e).congr ?_
    unfold twistOf planar SE3.actInv Spec.apply adInv LG.dInt
    ext <;> simp [LG.nv]
  | so3 =>
    have hw : VDeriv (fun s => vecAt (v s) 0) (vecAt v' 0) t :=
      ⟨hv 0 (by simp [LG.nv]), hv 1 (by simp [LG.nv]), hv 2 (by simp [LG.nv])⟩
    have hn : norm3 (vecAt (v t) 0) ≠ 0 := prec_ne he hok
    have hE : BodyVel (fun s => (⟨Rot (vecAt (v s) 0), 0⟩ : SE3 ℝ)) ⟨0, (Jr (vecAt (v t) 0)).mulVec (vecAt v' 0)⟩ t :=
      so3_pose_vel (fun _ => rfl) (d_Rot hw hn)
    have := BodyVel.mul hq hE (Rot_isRot _)
    have e : ∀ s, poseOf .so3 (out s) = poseOf .so3 (q s) * ⟨Rot (vecAt (v s) 0), 0⟩ := fun s => by
      obtain ⟨E, hE, h⟩ := hs s
      rw [isExp6_iff] at hE
      rw [h, hE]
      congr 1
      unfold Pose twistOf
      refine SE3.ext rfl (M3.mulVec_zero _)
    refine (this.fcongr e).congr ?_
    unfold twistOf SE3.actInv
    rw [vecAt_add]
    unfold LG.dInt adInv
    show _ = (⟨0, vecAt (Spec.apply 3 (m3e (Rot (vecAt (v t) 0)).tr) δ) 0 +
      vecAt (Spec.apply 3 (m3e (Jexp3 ε (vecAt (v t) 0))) v') 0⟩ : Motion ℝ)
    rw [mulVec_ent, mulVec_ent, Jexp3_eq he hok]
    refine Motion.ext ?_ rfl
    show (Rot _).tr.mulVec (0 - V3.cross 0 _) + 0 = 0
    m3ring
  | se2 =>
    obtain ⟨h1, h2, h3⟩ := hok
    have hw : VDeriv (fun s => (twistOf .se2 (v s)).ang) (twistOf .se2 v').ang t :=
      ⟨hasDerivAt_const _ _, hasDerivAt_const _ _, hv 2 (by simp [LG.nv])⟩
    have hl : VDeriv (fun s => (twistOf .se2 (v s)).lin) (twistOf .se2 v').lin t :=
      ⟨hv 0 (by simp [LG.nv]), hv 1 (by simp [LG.nv]), hasDerivAt_const _ _⟩
    have hE := d_Pose hl hw (by show cos (norm3 ⟨0, 0, v t 2⟩) ≠ 1; rw [cos_z]; exact h3)
    have := BodyVel.mul hq hE (Rot_isRot _)
    have e : ∀ s, poseOf .se2 (out s) = poseOf .se2 (q s) * Pose ⟨(twistOf .se2 (v s)).lin, (twistOf .se2 (v s)).ang⟩ := fun s => by
      obtain ⟨E, hE, h⟩ := hs s
      rw [isExp6_iff] at hE
      rw [h, hE]
    refine (this.fcongr e).congr ?_
    rw [twistOf_add]
    congr 1
    · show (Pose (twistOf .se2 (v t))).actInv (twistOf .se2 δ) = _
      rw [se2Exp_pose h1]
      unfold adInv LG.dInt SE3.actInv planar twistOf Spec.apply se2InvAct
      ext <;> simp [LG.nv, Finset.sum_range_succ] <;> ring
    · show (J6 (twistOf .se2 (v t))).mulMM (twistOf .se2 v') = _
      rw [← Jexp6_eq he (by show _ ≤ norm3 ⟨0, 0, v t 2⟩; rw [norm3_z]; exact h2)]
      show (Jexp6 ε (se2Nu (v t))).mulMM (twistOf .se2 v') = twistOf .se2 (Spec.apply 3 (fun i j => m6e (Jexp6 ε (se2Nu (v t))) (se2Idx i) (se2Idx j)) v')
      rw [Jexp6_eq he (by show _ ≤ norm3 ⟨0, 0, v t 2⟩; rw [norm3_z]; exact h2)]
      refine corner ?_ v'
      exact planar_J6 _
  | se3 =>
    obtain ⟨h2, h3⟩ := hok
    have hw : VDeriv (fun s => vecAt (v s) 3) (vecAt v' 3) t :=
      ⟨hv 3 (by simp [LG.nv]), hv 4 (by simp [LG.nv]), hv 5 (by simp [LG.nv])⟩
    have hl : VDeriv (fun s => vecAt (v s) 0) (vecAt v' 0) t :=
      ⟨hv 0 (by simp [LG.nv]), hv 1 (by simp [LG.nv]), hv 2 (by simp [LG.nv])⟩
    have hE := d_Pose hl hw h3
    have := BodyVel.mul hq hE (Rot_isRot _)
    have e : ∀ s, poseOf .se3 (out s) = poseOf .se3 (q s) * Pose ⟨vecAt (v s) 0, vecAt (v s) 3⟩ := fun s => by
      obtain ⟨E, hE, h⟩ := hs s
      rw [isExp6_iff] at hE
      rw [h, hE]
      rfl
    refine (this.fcongr e).congr ?_
    rw [twistOf_add]
    congr 1
    · show (Pose (twistOf .se3 (v t))).actInv (twistOf .se3 δ) = twistOf .se3 (Spec.apply 6 (m6e _) δ)
      rw [mulMM_ent, dual_tr_act]
    · show (J6 (twistOf .se3 (v t))).mulMM (twistOf .se3 v') = twistOf .se3 (Spec.apply 6 (m6e (Jexp6 ε _)) v')
      rw [mulMM_ent, Jexp6_eq he h2]
      rfl


/-! ## accuracy of the blocks with respect to the configuration -/

theorem comp_le (v : V3 ℝ) : |v.x| ≤ norm3 v ∧ |v.y| ≤ norm3 v ∧ |v.z| ≤ norm3 v := by
  have hn := norm3_sq v
  have hn0 := norm3_nn v
  refine ⟨abs_le_of_sq_le_sq ?_ hn0, abs_le_of_sq_le_sq ?_ hn0, abs_le_of_sq_le_sq ?_ hn0⟩ <;>
    rw [pow_two, pow_two, hn, sqNorm_def] <;> nlinarith [sq_nonneg v.x, sq_nonneg v.y, sq_nonneg v.z]

theorem dot_le (v w : V3 ℝ) : |v.dot w| ≤ norm3 v * norm3 w := by
  have h1 := norm3_sq v
  have h2 := norm3_sq w
  refine abs_le_of_sq_le_sq ?_ (mul_nonneg (norm3_nn v) (norm3_nn w))
  rw [mul_pow, pow_two (norm3 v), pow_two (norm3 w), h1, h2, sqNorm_def, sqNorm_def]
  unfold V3.dot
  nlinarith [sq_nonneg (v.x * w.y - v.y * w.x), sq_nonneg (v.y * w.z - v.z * w.y), sq_nonneg (v.x * w.z - v.z * w.x)]

theorem cross_le (v w : V3 ℝ) : norm3 (v.cross w) ≤ norm3 v * norm3 w := by
  have h1 := norm3_sq v
  have h2 := norm3_sq w
  have h3 := norm3_sq (v.cross w)
  refine abs_le_of_sq_le_sq' ?_ (mul_nonneg (norm3_nn v) (norm3_nn w)) |>.2
  rw [mul_pow, pow_two, pow_two (norm3 v), pow_two (norm3 w), h1, h2, h3, sqNorm_def, sqNorm_def, sqNorm_def]
  simp only [V3.cross_x, V3.cross_y, V3.cross_z]
  nlinarith [sq_nonneg (v.x * w.x + v.y * w.y + v.z * w.z)]

/-- a combination of `v`, `w` and `w × v` -/
theorem comb_le {a b c x y z : ℝ} (v w : V3 ℝ) (hx : |a| ≤ x) (hy : |b| * w.sqNorm ≤ y) (hz : |c| * norm3 w ≤ z) :
    |(a • v + (b * w.dot v) • w + c • w.cross v).x| ≤ (x + y + z) * norm3 v ∧
    |(a • v + (b * w.dot v) • w + c • w.cross v).y| ≤ (x + y + z) * norm3 v ∧
    |(a • v + (b * w.dot v) • w + c • w.cross v).z| ≤ (x + y + z) * norm3 v := by
  have n0 := norm3_nn v
  have n1 := norm3_nn w
  have hd := dot_le w v
  have hc := cross_le w v
  have key : ∀ p q r : ℝ, |p| ≤ norm3 v → |q| ≤ norm3 w → |r| ≤ norm3 (w.cross v) →
      |a * p + b * w.dot v * q + c * r| ≤ (x + y + z) * norm3 v := fun p q r hp hq hr => by
    refine (abs_add_three _ _ _).trans ?_
    have e1 : |a * p| ≤ x * norm3 v := by rw [abs_mul]; gcongr; exact (abs_nonneg _).trans hx
    have e2 : |b * w.dot v * q| ≤ y * norm3 v := by
      rw [abs_mul, abs_mul]
      calc |b| * |w.dot v| * |q| ≤ |b| * (norm3 w * norm3 v) * norm3 w := by gcongr
        _ = |b| * w.sqNorm * norm3 v := by rw [← norm3_sq w]; ring
        _ ≤ y * norm3 v := by gcongr
    have e3 : |c * r| ≤ z * norm3 v := by
      rw [abs_mul]
      calc |c| * |r| ≤ |c| * (norm3 w * norm3 v) := by gcongr; exact hr.trans hc
        _ = |c| * norm3 w * norm3 v := by ring
        _ ≤ z * norm3 v := by gcongr
    linarith
  obtain ⟨a1, a2, a3⟩ := comp_le v
  obtain ⟨b1, b2, b3⟩ := comp_le w
  obtain ⟨c1, c2, c3⟩ := comp_le (w.cross v)
  exact ⟨key _ _ _ a1 b1 c1, key _ _ _ a2 b2 c2, key _ _ _ a3 b3 c3⟩

theorem Jl_comb (w v : V3 ℝ) : (Jl w).mulVec v = (1 - cD w * w.sqNorm) • v + (cD w * w.dot v) • w + cA w • w.cross v := by
  unfold Jl
  m3ring

theorem sqn_t {ε : ℝ} (he : 0 < ε) (h1 : ε ≤ 1) {w : V3 ℝ} (h : prec ε 3 ≤ norm3 w) :
    prec ε 3 < sqrt (w.sqNorm + ε * ε) ∧ sqrt (w.sqNorm + ε * ε) - norm3 w ≤ ε * norm3 w ∧
      norm3 w < sqrt (w.sqNorm + ε * ε) ∧ ε * ε ≤ ε * w.sqNorm := by
  have hn := norm3_sq w
  have hn0 := norm3_nn w
  have hp := prec_pos he 3
  have hp4 := prec_pow he 3
  have hpos : 0 < norm3 w := lt_of_lt_of_le hp h
  have ht : norm3 w < sqrt (w.sqNorm + ε * ε) := by
    rw [lt_sqrt hn0, pow_two, hn]; nlinarith
  have h4 : ε ≤ norm3 w ^ 4 := by rw [← hp4]; gcongr
  have h2 : ε ≤ w.sqNorm := by
    rw [← hn]
    by_contra hc
    have hc := not_lt.2 (le_of_lt (not_le.1 hc))
    nlinarith [mul_pos hpos hpos]
  have h3 : ε * ε ≤ ε * w.sqNorm := by gcongr
  refine ⟨lt_of_le_of_lt h ht, ?_, ht, h3⟩
  rw [sub_le_iff_le_add, sqrt_le_left (by positivity)]
  nlinarith [mul_pos he hpos]

theorem mexp6_near {ε : ℝ} (he : 0 < ε) (h1 : ε ≤ 1) {ν : Motion ℝ} (h : prec ε 3 ≤ norm3 ν.ang) :
    (mexp6 ε ν).rot = mexp3 ε ν.ang ∧
    |((mexp6 ε ν).trans - (Pose ν).trans).x| ≤ 8 * ε * norm3 ν.lin ∧
    |((mexp6 ε ν).trans - (Pose ν).trans).y| ≤ 8 * ε * norm3 ν.lin ∧
    |((mexp6 ε ν).trans - (Pose ν).trans).z| ≤ 8 * ε * norm3 ν.lin := by
  obtain ⟨hp, hd, ht, hs⟩ := sqn_t he h1 h
  obtain ⟨v, w⟩ := ν
  dsimp only at *
  have hn := norm3_sq w
  have hpos : 0 < norm3 w := lt_of_lt_of_le (prec_pos he 3) h
  have hs0 : 0 < w.sqNorm := by rw [← hn]; positivity
  have htt : sqrt (w.sqNorm + ε * ε) * sqrt (w.sqNorm + ε * ε) = w.sqNorm + ε * ε := mul_self_sqrt (by positivity)
  refine ⟨?_, ?_⟩
  · unfold mexp6
    rw [mexp3_form]
    dsimp only
    rw [if_neg (not_lt.2 hp.le), if_neg (not_lt.2 hp.le), if_neg (not_lt.2 hp.le), if_pos hp, if_pos hp, if_pos hp]
    m3ring
  · unfold mexp6 Pose
    dsimp only
    rw [if_neg (not_lt.2 hp.le), if_neg (not_lt.2 hp.le), if_neg (not_lt.2 hp.le), Jl_comb]
    generalize hT : sqrt (w.sqNorm + ε * ε) = T at *
    have hT0 : 0 < T := hpos.trans ht
    have hdt : |T - norm3 w| ≤ ε * norm3 w := by rw [abs_of_pos (by linarith)]; exact hd
    have hc := (abs_cos_sub_cos_le T (norm3 w)).trans hdt
    have hsn := (abs_sin_sub_sin_le T (norm3 w)).trans hdt
    have sT : |sin T / T| ≤ 1 := by
      rw [abs_div, abs_of_pos hT0, div_le_one hT0]; exact abs_sin_le_abs.trans (abs_of_pos hT0).le
    have hcB : 1 - cD w * w.sqNorm = cB w := by unfold cD; field_simp; ring
    have A : |sin T / T - cB w| ≤ 2 * ε := by
      have e : sin T / T - cB w = (sin T - sin (norm3 w)) / norm3 w - sin T / T * ((T - norm3 w) / norm3 w) := by
        unfold cB; field_simp; ring
      rw [e]
      refine (abs_sub _ _).trans ?_
      have e1 : |(sin T - sin (norm3 w)) / norm3 w| ≤ ε := by
        rw [abs_div, abs_of_pos hpos, div_le_iff₀ hpos]; exact hsn
      have e2 : |(T - norm3 w) / norm3 w| ≤ ε := by
        rw [abs_div, abs_of_pos hpos, div_le_iff₀ hpos]; exact hdt
      have e3 : |sin T / T * ((T - norm3 w) / norm3 w)| ≤ ε := by
        rw [abs_mul]
        calc _ ≤ 1 * ε := by gcongr
          _ = ε := one_mul _
      linarith
    have C : |(1 - cos T) * (1 / (w.sqNorm + ε * ε)) - cA w| * norm3 w ≤ 2 * ε := by
      have e : ((1 - cos T) * (1 / (w.sqNorm + ε * ε)) - cA w) * norm3 w =
          -((1 - cos T) / T * (ε * ε / (T * norm3 w))) - (cos T - cos (norm3 w)) / norm3 w := by
        unfold cA; rw [← htt, ← hn]
        have : ε * ε = T * T - norm3 w * norm3 w := by rw [htt, hn]; ring
        rw [this]; field_simp; ring
      rw [absmul hpos.le, e]
      refine (abs_sub _ _).trans ?_
      rw [abs_neg]
      have e1 : |(cos T - cos (norm3 w)) / norm3 w| ≤ ε := by
        rw [abs_div, abs_of_pos hpos, div_le_iff₀ hpos]; exact hc
      have e2 : |(1 - cos T) / T| ≤ 1 := by
        have := cos_le_one T
        rw [abs_of_nonneg (div_nonneg (by linarith) hT0.le), div_le_one hT0]
        have h2 := one_sub_sq_div_two_le_cos (x := T)
        have h3 := neg_one_le_cos T
        by_cases hc : T ≤ 2
        · nlinarith
        · linarith
      have e3 : |ε * ε / (T * norm3 w)| ≤ ε := by
        rw [abs_of_pos (by positivity), div_le_iff₀ (by positivity)]
        calc ε * ε ≤ ε * w.sqNorm := hs
          _ = ε * (norm3 w * norm3 w) := by rw [hn]
          _ ≤ ε * (T * norm3 w) := by gcongr
      have e4 : |(1 - cos T) / T * (ε * ε / (T * norm3 w))| ≤ ε := by
        rw [abs_mul]
        calc _ ≤ 1 * ε := by gcongr
          _ = ε := one_mul _
      linarith
    have B : |(1 - sin T / T) * (1 / (w.sqNorm + ε * ε)) - cD w| * w.sqNorm ≤ 4 * ε := by
      have e : ((1 - sin T / T) * (1 / (w.sqNorm + ε * ε)) - cD w) * w.sqNorm =
          -(sin T / T - cB w) - (1 - sin T / T) * (ε * ε / (w.sqNorm + ε * ε)) := by
        unfold cD
        have : w.sqNorm + ε * ε ≠ 0 := by positivity
        field_simp
        ring
      rw [absmul hs0.le, e]
      refine (abs_sub _ _).trans ?_
      rw [abs_neg]
      have e1 : |1 - sin T / T| ≤ 2 := by
        refine (abs_sub _ _).trans ?_
        rw [abs_one]; linarith
      have e2 : |ε * ε / (w.sqNorm + ε * ε)| ≤ ε := by
        rw [abs_of_pos (by positivity), div_le_iff₀ (by positivity)]
        nlinarith
      have e3 : |(1 - sin T / T) * (ε * ε / (w.sqNorm + ε * ε))| ≤ 2 * ε := by
        rw [abs_mul]; gcongr
      linarith
    have key := comb_le v w A B C
    rw [show (2 * ε + 4 * ε + 2 * ε) = 8 * ε by ring] at key
    rw [hcB]
    have e : (sin T / T) • v + ((1 - sin T / T) * (1 / (w.sqNorm + ε * ε)) * w.dot v) • w +
        ((1 - cos T) * (1 / (w.sqNorm + ε * ε))) • w.cross v - (cB w • v + (cD w * w.dot v) • w + cA w • w.cross v) =
        (sin T / T - cB w) • v + (((1 - sin T / T) * (1 / (w.sqNorm + ε * ε)) - cD w) * w.dot v) • w +
        ((1 - cos T) * (1 / (w.sqNorm + ε * ε)) - cA w) • w.cross v := by
      ext <;> simp <;> ring
    rw [e]
    exact key


theorem Rot_neg (w : V3 ℝ) : Rot (-w) = (Rot w).tr := by
  have hs : (-w).sqNorm = w.sqNorm := by rw [sqNorm_def, sqNorm_def]; simp
  have hn : norm3 (-w) = norm3 w := by unfold norm3; rw [hs]
  unfold Rot cA cB
  rw [hs, hn]
  m3ring

theorem Near.m3e {a b : M3 ℝ} {d : ℝ} (h : Near a b d) (i j : ℕ) : |m3e a i j - m3e b i j| ≤ d := by
  unfold Lie.m3e
  split
  · split
    · exact h.m00
    · split
      exacts [h.m01, h.m02]
  · split
    · split
      · exact h.m10
      · split
        exacts [h.m11, h.m12]
    · split
      · exact h.m20
      · split
        exacts [h.m21, h.m22]

theorem Near.tr {a b : M3 ℝ} {d : ℝ} (h : Near a b d) : Near a.tr b.tr d :=
  ⟨h.m00, h.m10, h.m20, h.m01, h.m11, h.m21, h.m02, h.m12, h.m22⟩

theorem Near.mono {a b : M3 ℝ} {d d' : ℝ} (h : Near a b d) (hd : d ≤ d') : Near a b d' :=
  ⟨h.m00.trans hd, h.m01.trans hd, h.m02.trans hd, h.m10.trans hd, h.m11.trans hd, h.m12.trans hd, h.m20.trans hd,
    h.m21.trans hd, h.m22.trans hd⟩

theorem rot_ent {R : M3 ℝ} (h : R.IsRot) : Near R 0 1 := by
  have e := h.mul_tr
  have e0 := congrArg M3.m00 e
  have e1 := congrArg M3.m11 e
  have e2 := congrArg M3.m22 e
  simp only [M3.mul_m00, M3.mul_m11, M3.mul_m22, M3.tr_m00, M3.tr_m01, M3.tr_m02, M3.tr_m10, M3.tr_m11, M3.tr_m12,
    M3.tr_m20, M3.tr_m21, M3.tr_m22, M3.one_m00, M3.one_m11, M3.one_m22] at e0 e1 e2
  constructor <;> simp only [M3.zero_m00, M3.zero_m01, M3.zero_m02, M3.zero_m10, M3.zero_m11, M3.zero_m12,
    M3.zero_m20, M3.zero_m21, M3.zero_m22, sub_zero] <;> rw [← sq_le_one_iff_abs_le_one] <;>
    nlinarith [sq_nonneg R.m00, sq_nonneg R.m01, sq_nonneg R.m02, sq_nonneg R.m10, sq_nonneg R.m11, sq_nonneg R.m12,
      sq_nonneg R.m20, sq_nonneg R.m21, sq_nonneg R.m22]

/-- entries of `p × column` -/
theorem crossb {p p' c c' d e k l : ℝ} (hp : |p - p'| ≤ d) (hc : |c - c'| ≤ e) (hc' : |c'| ≤ k) (hp' : |p'| ≤ l)
    (he : e ≤ 5) (hk : k = 1) : |p * c - p' * c'| ≤ 6 * d + l * e := by
  have d0 := (abs_nonneg _).trans hp
  have e0 := (abs_nonneg _).trans hc
  have hcc : |c| ≤ 6 := by
    have : c = (c - c') + c' := by ring
    rw [this]; refine (abs_add_le _ _).trans ?_; linarith
  rw [show p * c - p' * c' = (p - p') * c + p' * (c - c') by ring]
  refine (abs_add_le _ _).trans ?_
  rw [abs_mul, abs_mul]
  have h1 : |p - p'| * |c| ≤ d * 6 := by gcongr
  have h2 : |p'| * |c - c'| ≤ l * e := by gcongr; exact (abs_nonneg _).trans hp'
  linarith

theorem Pose_trans_le {ν : Motion ℝ} (hn : norm3 ν.ang ≠ 0) : |(Pose ν).trans.x| ≤ 4 * norm3 ν.lin ∧
    |(Pose ν).trans.y| ≤ 4 * norm3 ν.lin ∧ |(Pose ν).trans.z| ≤ 4 * norm3 ν.lin := by
  have h0 := norm3_nn ν.ang
  have hpos : 0 < norm3 ν.ang := lt_of_le_of_ne h0 (Ne.symm hn)
  have hs := norm3_sq ν.ang
  have hs0 := sqNorm_ne hn
  have hsp : 0 < ν.ang.sqNorm := by rw [← hs]; positivity
  have hb : |cB ν.ang| ≤ 1 := by
    unfold cB; rw [abs_div, abs_of_pos hpos, div_le_one hpos]; exact abs_sin_le_abs.trans (abs_of_pos hpos).le
  have a : |1 - cD ν.ang * ν.ang.sqNorm| ≤ 1 := by
    have : 1 - cD ν.ang * ν.ang.sqNorm = cB ν.ang := by unfold cD; field_simp; ring
    rw [this]; exact hb
  have b : |cD ν.ang| * ν.ang.sqNorm ≤ 2 := by
    rw [absmul hsp.le]
    have : cD ν.ang * ν.ang.sqNorm = 1 - cB ν.ang := by unfold cD; field_simp
    rw [this]; refine (abs_sub _ _).trans ?_; rw [abs_one]; linarith
  have c : |cA ν.ang| * norm3 ν.ang ≤ 1 := by
    rw [absmul h0]
    have : cA ν.ang * norm3 ν.ang = (1 - cos (norm3 ν.ang)) / norm3 ν.ang := by
      unfold cA; rw [← hs]; field_simp
    have h1 := cos_le_one (norm3 ν.ang)
    rw [this, abs_of_nonneg (div_nonneg (by linarith) h0), div_le_one hpos]
    have h2 := one_sub_sq_div_two_le_cos (x := norm3 ν.ang)
    have h3 := neg_one_le_cos (norm3 ν.ang)
    by_cases hc : norm3 ν.ang ≤ 2
    · nlinarith
    · linarith
  have := comb_le ν.lin ν.ang a b c
  rw [show (1 : ℝ) + 2 + 1 = 4 by norm_num, ← Jl_comb] at this
  exact this

theorem dInt_near {ε : ℝ} (he : 0 < ε) (h1 : ε ≤ 1) (g : LG) {v : ℕ → ℝ} (hok : StepOk ε g v) (i j : ℕ) :
    |g.dInt ε .arg0 v i j - adInv ε g v i j| ≤ stepTol ε g v := by
  cases g with
  | vec n => simp [adInv, stepTol]
  | so2 => simp [adInv, stepTol]
  | se2 => simp [adInv, stepTol]
  | so3 =>
    have := (mexp3_near he h1 (-(vecAt v 0))).m3e i j
    rw [Rot_neg] at this
    exact this
  | se3 =>
    obtain ⟨h2, h3⟩ := hok
    obtain ⟨hr, hx, hy, hz⟩ := mexp6_near he h1 (ν := ⟨vecAt v 0, vecAt v 3⟩) h2
    obtain ⟨gx, gy, gz⟩ := Pose_trans_le (ν := ⟨vecAt v 0, vecAt v 3⟩) (prec_ne he h2)
    have hR := mexp3_near he h1 (vecAt v 3)
    rw [← hr] at hR
    have hb := rot_ent (Rot_isRot (vecAt v 3))
    have hn0 := norm3_nn (vecAt v 0)
    have ha : Near (mexp6 ε ⟨vecAt v 0, vecAt v 3⟩).toDualActionMatrix.al
        (Pose ⟨vecAt v 0, vecAt v 3⟩).toDualActionMatrix.al ((5 + 136 * norm3 (vecAt v 0)) * ε) := by
      change Near (mexp6 ε ⟨vecAt v 0, vecAt v 3⟩).rot (Pose ⟨vecAt v 0, vecAt v 3⟩).rot _ at hR
      change Near (Pose ⟨vecAt v 0, vecAt v 3⟩).rot 0 1 at hb
      generalize mexp6 ε ⟨vecAt v 0, vecAt v 3⟩ = M at *
      generalize Pose ⟨vecAt v 0, vecAt v 3⟩ = P at *
      dsimp only at hx hy hz gx gy gz
      have key : ∀ p p' q q' c c' d d' : ℝ, |p - p'| ≤ 8 * ε * norm3 (vecAt v 0) →
          |q - q'| ≤ 8 * ε * norm3 (vecAt v 0) → |p'| ≤ 4 * norm3 (vecAt v 0) → |q'| ≤ 4 * norm3 (vecAt v 0) →
          |c - c'| ≤ 5 * ε → |d - d'| ≤ 5 * ε → |c' - 0| ≤ 1 → |d' - 0| ≤ 1 →
          |p * c - q * d - (p' * c' - q' * d')| ≤ (5 + 136 * norm3 (vecAt v 0)) * ε := by
        intro p p' q q' c c' d d' h1' h2' h3' h4' h5' h6' h7' h8'
        rw [sub_zero] at h7' h8'
        have k1 := crossb h1' h5' h7' h3' (by linarith) rfl
        have k2 := crossb h2' h6' h8' h4' (by linarith) rfl
        rw [show p * c - q * d - (p' * c' - q' * d') = (p * c - p' * c') - (q * d - q' * d') by ring]
        refine (abs_sub _ _).trans ?_
        nlinarith [mul_nonneg hn0 he.le]
      unfold SE3.toDualActionMatrix
      constructor <;> exact key _ _ _ _ _ _ _ _ (by assumption) (by assumption) (by assumption) (by assumption)
        (by first | exact hR.m00 | exact hR.m01 | exact hR.m02 | exact hR.m10 | exact hR.m11 | exact hR.m12 | exact hR.m20 | exact hR.m21 | exact hR.m22)
        (by first | exact hR.m00 | exact hR.m01 | exact hR.m02 | exact hR.m10 | exact hR.m11 | exact hR.m12 | exact hR.m20 | exact hR.m21 | exact hR.m22)
        (by first | exact hb.m00 | exact hb.m01 | exact hb.m02 | exact hb.m10 | exact hb.m11 | exact hb.m12 | exact hb.m20 | exact hb.m21 | exact hb.m22)
        (by first | exact hb.m00 | exact hb.m01 | exact hb.m02 | exact hb.m10 | exact hb.m11 | exact hb.m12 | exact hb.m20 | exact hb.m21 | exact hb.m22)
    have hle : 5 * ε ≤ (5 + 136 * norm3 (vecAt v 0)) * ε := by nlinarith [mul_nonneg hn0 he.le]
    have hd := (hR.mono hle).tr
    show |m6e _ i j - m6e _ i j| ≤ (5 + 136 * norm3 (vecAt v 0)) * ε
    unfold m6e
    split
    · split
      · exact hd.m3e _ _
      · exact ha.tr.m3e _ _
    · split
      · show |m3e 0 _ _ - m3e 0 _ _| ≤ _
        rw [sub_self, abs_zero]; positivity
      · exact hd.m3e _ _

end Lie
end Pin
