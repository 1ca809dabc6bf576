import Verif.LieGroup.ModelDeriv

/-! # `integrate` and `difference` of the vector spaces, SO(2) and SE(2) are the exact operations -/

namespace Pin
namespace Lie
open Real Spec

theorem planar_mul (c s x y c' s' x' y' : ℝ) : planar c s x y * planar c' s' x' y' =
    planar (c * c' - s * s') (s * c' + c * s') (c * x' - s * y' + x) (s * x' + c * y' + y) := by
  refine SE3.ext ?_ ?_
  · show (planar c s x y).rot * (planar c' s' x' y').rot = _
    unfold planar; ext <;> m3simp <;> ring
  · show (planar c s x y).trans + (planar c s x y).rot.mulVec (planar c' s' x' y').trans = _
    unfold planar; ext <;> m3simp <;> ring

theorem Jl_z_zero : Jl ⟨0, 0, 0⟩ = 1 := by
  ext <;> simp [Jl, M3.skew, outer, V3.sqNorm]

theorem se2Exp_pose' {v : ℕ → ℝ} (h : v 2 = 0 ∨ 1 / 10 ^ 14 < |v 2|) :
    Pose (twistOf .se2 v) = planar (se2Exp v).1 (se2Exp v).2.1 (se2Exp v).2.2.1 (se2Exp v).2.2.2 := by
  rcases h with h | h
  · have hn : ¬ (|(0 : ℝ)| > 1 / 10 ^ 14) := by norm_num
    unfold Pose planar twistOf se2Exp
    refine SE3.ext (Rot_z _) ?_
    dsimp only
    simp only [h, if_neg hn]
    rw [Jl_z_zero, M3.one_mulVec]
  · exact se2Exp_pose h

theorem integrate_isStep {ε : ℝ} (g : LG) {q v : ℕ → ℝ} (h : ExactStep g q v) : IsStep g q v (g.integrate ε q v) := by
  cases g with
  | vec n => exact fun k _ => rfl
  | so2 =>
    have hu : LG.sqn q 0 2 = 1 := h
    rw [sqn_so2] at hu
    refine ⟨_, (isExp6_iff _ _).2 rfl, ?_⟩
    show planar _ _ 0 0 = planar _ _ 0 0 * Pose ⟨0, ⟨0, 0, v 0⟩⟩
    rw [Pose_z0, planar_mul]
    show planar (so2Int q (v 0)).1 (so2Int q (v 0)).2 0 0 = _
    rw [so2Int_unit hu]
    congr 1 <;> ring
  | so3 => exact h.elim
  | se2 =>
    refine ⟨_, (isExp6_iff _ _).2 rfl, ?_⟩
    rw [se2Exp_pose' h]
    show planar (se2Int q v 2) (se2Int q v 3) (se2Int q v 0) (se2Int q v 1) = planar _ _ _ _ * planar _ _ _ _
    rw [planar_mul]
    simp only [se2Int, if_true, if_neg (show (1 : ℕ) ≠ 0 by omega), if_neg (show (2 : ℕ) ≠ 0 by omega),
      if_neg (show (2 : ℕ) ≠ 1 by omega), if_neg (show (3 : ℕ) ≠ 0 by omega), if_neg (show (3 : ℕ) ≠ 1 by omega),
      if_neg (show (3 : ℕ) ≠ 2 by omega)]
    congr 1 <;> ring
  | se3 => exact h.elim

theorem poseOf_congr (g : LG) {q q' : ℕ → ℝ} (h : Same g.nq q q') : poseOf g q = poseOf g q' := by
  cases g with
  | vec n => rfl
  | so2 => unfold poseOf; rw [h 0 (by simp [LG.nq]), h 1 (by simp [LG.nq])]
  | so3 => unfold poseOf; rw [quatAt_congr h (by simp [LG.nq])]
  | se2 =>
    unfold poseOf
    rw [h 0 (by simp [LG.nq]), h 1 (by simp [LG.nq]), h 2 (by simp [LG.nq]), h 3 (by simp [LG.nq])]
  | se3 =>
    show (⟨(quatAt q 3).toMat, vecAt q 0⟩ : SE3 ℝ) = ⟨(quatAt q' 3).toMat, vecAt q' 0⟩
    rw [quatAt_congr h (by simp [LG.nq]), vecAt_congr h (by simp [LG.nq])]

theorem twistOf_congr (g : LG) {v v' : ℕ → ℝ} (e : Same g.nv v v') : twistOf g v = twistOf g v' := by
  cases g with
  | vec n => rfl
  | so2 => unfold twistOf; rw [e 0 (by simp [LG.nv])]
  | so3 => unfold twistOf; rw [vecAt_congr e (by simp [LG.nv])]
  | se2 => unfold twistOf; rw [e 0 (by simp [LG.nv]), e 1 (by simp [LG.nv]), e 2 (by simp [LG.nv])]
  | se3 => unfold twistOf; rw [vecAt_congr e (by simp [LG.nv]), vecAt_congr e (by simp [LG.nv])]

theorem isStep_congr (g : LG) {q v v' out out' : ℕ → ℝ} (e : Same g.nq out out') (e' : Same g.nv v v')
    (h : IsStep g q v out) : IsStep g q v' out' := by
  have key : ∀ g : LG, Same g.nq out out' → Same g.nv v v' →
      (∃ E, IsExp6 (twistOf g v) E ∧ poseOf g out = poseOf g q * E) →
      ∃ E, IsExp6 (twistOf g v') E ∧ poseOf g out' = poseOf g q * E := by
    rintro g e e' ⟨E, hE, h⟩
    exact ⟨E, twistOf_congr g e' ▸ hE, poseOf_congr g e ▸ h⟩
  cases g with
  | vec n => exact fun k hk => by rw [← e k hk, ← e' k hk]; exact h k hk
  | so2 => exact key _ e e' h
  | so3 => exact key _ e e' h
  | se2 => exact key _ e e' h
  | se3 => exact key _ e e' h

theorem difference_isDiff {ε : ℝ} (g : LG) {q0 q1 : ℕ → ℝ} (h : ExactDiff g q0 q1) :
    IsDiff g q0 q1 (g.difference ε q0 q1) := by
  have hpi := pi_pos
  cases g with
  | vec n =>
    refine ⟨fun k _ => ?_, ?_⟩
    · simp only [LG.difference]; ring
    · show (0 : V3 ℝ).sqNorm < _
      simp only [V3.sqNorm]; simp; positivity
  | so2 =>
    obtain ⟨h0, h1, h2⟩ := h
    have e := LG.int_diff (ε := ε) .so2 (q0 := q0) (q1 := q1) ⟨h0, h1⟩
    refine ⟨isStep_congr .so2 e Same.rfl (integrate_isStep .so2 h0), ?_⟩
    have u0 : LG.sqn q0 0 2 = 1 := h0
    have u1 : LG.sqn q1 0 2 = 1 := h1
    rw [sqn_so2] at u0 u1
    obtain ⟨-, -, hl, hu⟩ := so2Log_spec (so2_unit_rel u0 u1)
    have hu' := lt_of_le_of_ne hu h2
    show V3.sqNorm ⟨0, 0, so2Diff q0 q1⟩ < _
    rw [sqNorm_def]
    change -π < so2Diff q0 q1 at hl
    change so2Diff q0 q1 < π at hu'
    nlinarith
  | so3 => exact h.elim
  | se2 =>
    obtain ⟨h0, h1, h2, h3⟩ := h
    have e := LG.int_diff (ε := ε) .se2 (q0 := q0) (q1 := q1) ⟨h0, h1, h2⟩
    have ha : LG.difference ε .se2 q0 q1 2 = se2Angle q0 q1 := by
      show se2Diff q0 q1 2 = _
      rw [se2Diff_eq]; rfl
    refine ⟨isStep_congr .se2 e Same.rfl (integrate_isStep .se2 ?_), ?_⟩
    · show _ ∨ _
      rw [ha]
      exact h2.imp_right fun h => lt_of_lt_of_le (by norm_num) h
    · have u0 : LG.sqn q0 2 2 = 1 := h0
      have u1 : LG.sqn q1 2 2 = 1 := h1
      rw [sqn_se2] at u0 u1
      obtain ⟨-, -, hl, hu⟩ := so2Log_spec (c := q0 2 * q1 2 + q0 3 * q1 3) (s := q0 2 * q1 3 - q0 3 * q1 2)
        (by linear_combination (q1 2 * q1 2 + q1 3 * q1 3) * u0 + u1)
      show V3.sqNorm ⟨0, 0, LG.difference ε .se2 q0 q1 2⟩ < _
      rw [ha, sqNorm_def]
      change -π < se2Angle q0 q1 at hl
      have hu' : se2Angle q0 q1 < π := lt_of_le_of_ne hu h3
      nlinarith
  | se3 => exact h.elim

end Lie
end Pin
