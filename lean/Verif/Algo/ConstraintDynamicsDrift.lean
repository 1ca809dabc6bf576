import Verif.Algo.ConstraintDynamicsSolve
import Verif.Props.Constraint
import Verif.Props.KinDerivatives
import Verif.Spec.Baumgarte

/-! # Lemmas for `Algo/ConstraintDynamics.lean`: the acceleration that a constraint asks for -/

set_option linter.unusedSectionVars false

namespace Pin
open Finset
universe u
variable {K : Type u}

section
variable [CommRing K] {s : Sys K}

theorem fkA_root (d : Data K) (q v a : ℕ → K) : (forwardKinematicsA s d q v a).v 0 = 0 := by
  unfold forwardKinematicsA
  apply fwd_inv (P := fun (d : Data K) => d.v 0 = 0)
  · exact upd_self d.v 0 0
  · intro i d i1 _ ih
    have : (0 : ℕ) ≠ i := by omega
    unfold fk2Step fk1Step
    dsimp only
    split <;> simp only [upd_ne _ _ this] <;> exact ih

theorem inFrameAt_zero (O P : SE3 K) (rf : RF) : inFrameAt O P 0 rf = 0 := by
  cases rf
  · exact SE3.act_zero _
  · exact SE3.actInv_zero _
  · simp only [inFrameAt]
    ext <;> simp

theorem frameVelocityA_eq (hp : ParOk s.par s.n) (d : Data K) {q : ℕ → K} (hq : s.At q) (v a : ℕ → K) {j : ℕ}
    (hj : j < s.n) {P : SE3 K} (hP : P.Valid) (rf : RF) :
    getFrameVelocity (forwardKinematicsA s d q v a) j P rf = translateLin (s.oM q j * P) rf (s.oV q v j) := by
  unfold getFrameVelocity
  rcases Nat.eq_zero_or_pos j with rfl | h1
  · rw [fkA_root, Sys.oV_zero, map_zero, inFrameAt_zero]
  · obtain ⟨f1, f2, -⟩ := fk2_ok hp d hq v a
    rw [(f1 j h1 hj).2.1, (f2 j h1 hj).1]
    exact (translateCol_act (s.oM_valid hp hq j hj) hP _ rf).symm

theorem frameAcceleration_eq (hp : ParOk s.par s.n) (d : Data K) {q : ℕ → K} (hq : s.At q) (v a : ℕ → K) {j : ℕ}
    (hj : j < s.n) {P : SE3 K} (hP : P.Valid) (rf : RF) :
    getFrameAcceleration (forwardKinematicsA s d q v a) j P rf = translateLin (s.oM q j * P) rf (s.wA 0 q v a j) := by
  unfold getFrameAcceleration
  obtain ⟨f1, -, f3⟩ := fk2_ok hp d hq v a
  rcases Nat.eq_zero_or_pos j with rfl | h1
  · rw [f3 0 hj, s.A_zero, wA_zero', map_zero, inFrameAt_zero]
  · rw [(f1 j h1 hj).2.1, f3 j hj]
    exact (translateCol_act (s.oM_valid hp hq j hj) hP _ rf).symm

theorem Motion.row_lin {a b : Motion K} (h : a.lin = b.lin) {r : ℕ} (hr : r < 3) : a.row r = b.row r := by
  rcases r with _ | _ | _ | r
  · simp [Motion.row, h]
  · simp [Motion.row, h]
  · simp [Motion.row, h]
  · omega

theorem baumgarte_eq (k : Corr K) (e e' : Motion K) : baumgarte k e e' = -diagMul k.Kp e - diagMul k.Kd e' := by
  ext <;> simp [baumgarte, diagMul, sub_eq_add_neg]

theorem diagMul_zero {k : ℕ → K} {m : Motion K} (h : (∀ i < 6, k i = 0) ∨ ((∀ i < 3, k i = 0) ∧ m.ang = 0)) : diagMul k m = 0 := by
  rcases h with h | ⟨h, e⟩
  · ext <;> simp [diagMul, h]
  · ext <;> simp [diagMul, h, e]

variable [DecidableEq K]

/-- the terms of `primal_rhs_contact` for a `CONTACT_3D` -/
theorem rhs_3d (lg : SE3 K → Motion K) {m : RCM K} (hm : m.type = .CONTACT_3D) (k : Corr K) {c : RCD K} (hv1 : c.oMc1.Valid)
    (hv2 : c.oMc2.Valid) (hc : c.c1Mc2 = c.oMc1.actInvSE3 c.oMc2) (d : Data K) (h1 : m.j1 = 0 → d.ov 0 = 0)
    (h2 : m.j2 = 0 → d.ov 0 = 0) :
    (m.rhs lg k c d).lin = -(inAxes m.rf c.oMc1.rot
        ((translateLin c.oMc1 .LOCAL_WORLD_ALIGNED (d.oa m.j1)).lin
            + (d.ov m.j1).ang.cross (translateLin c.oMc1 .LOCAL_WORLD_ALIGNED (d.ov m.j1)).lin
          - ((translateLin c.oMc2 .LOCAL_WORLD_ALIGNED (d.oa m.j2)).lin
            + (d.ov m.j2).ang.cross (translateLin c.oMc2 .LOCAL_WORLD_ALIGNED (d.ov m.j2)).lin)))
      + (toAxes m.rf c.oMc1.rot (baumgarte k ⟨c.oMc1.rot.tr.mulVec (c.oMc1.trans - c.oMc2.trans), 0⟩
          ⟨c.oMc1.rot.tr.mulVec ((translateLin c.oMc1 .LOCAL_WORLD_ALIGNED (d.ov m.j1)).lin
            - (translateLin c.oMc2 .LOCAL_WORLD_ALIGNED (d.ov m.j2)).lin), 0⟩)).lin + k.des.lin := by
  have e1 : (if m.j1 > 0 then c.oMc1.actInv (d.ov m.j1) else 0) = c.oMc1.actInv (d.ov m.j1) := by
    split
    · rfl
    · have : m.j1 = 0 := by omega
      rw [this, h1 this, SE3.actInv_zero]
  have e2 : (if m.j2 > 0 then c.oMc2.actInv (d.ov m.j2) else 0) = c.oMc2.actInv (d.ov m.j2) := by
    split
    · rfl
    · have : m.j2 = 0 := by omega
      rw [this, h2 this, SE3.actInv_zero]
  have ec : ∀ (O : SE3 K) (w : Motion K), w.lin + w.ang.cross O.trans = (translateLin O .LOCAL_WORLD_ALIGNED w).lin := by
    intro O w
    change _ = w.lin - O.trans.cross w.ang
    ext <;> simp <;> ring
  have ea : ∀ (O : SE3 K) (w : Motion K), (O.actInv w).lin = O.rot.tr.mulVec (translateLin O .LOCAL_WORLD_ALIGNED w).lin :=
    fun O w => rfl
  have ep : -c.c1Mc2.trans = c.oMc1.rot.tr.mulVec (c.oMc1.trans - c.oMc2.trans) := by
    rw [hc]
    change -(c.oMc1.rot.tr.mulVec (c.oMc2.trans - c.oMc1.trans)) = _
    rw [← M3.mulVec_neg]; congr 1; abel
  have er : ∀ x, c.c1Mc2.rot.mulVec (c.oMc2.rot.tr.mulVec x) = c.oMc1.rot.tr.mulVec x := by
    intro x
    rw [hc]
    change (c.oMc1.rot.tr * c.oMc2.rot).mulVec _ = _
    rw [M3.mulVec_mulVec, M3.IsRot.mulVec_tr_mulVec hv2]
  set E : Motion K := ⟨c.oMc1.rot.tr.mulVec (c.oMc1.trans - c.oMc2.trans), 0⟩ with hE
  set E' : Motion K := ⟨c.oMc1.rot.tr.mulVec ((translateLin c.oMc1 .LOCAL_WORLD_ALIGNED (d.ov m.j1)).lin
            - (translateLin c.oMc2 .LOCAL_WORLD_ALIGNED (d.ov m.j2)).lin), 0⟩ with hE'
  have eB : (if (∀ i < 3, k.Kp i = 0) ∧ (∀ i < 3, k.Kd i = 0) then (0 : Motion K)
      else ⟨-(diagMul k.Kp E).lin - (diagMul k.Kd E').lin, 0⟩).lin = (baumgarte k E E').lin := by
    split
    · rename_i hz
      rw [baumgarte_eq]
      rw [diagMul_zero (Or.inr ⟨hz.1, rfl⟩), diagMul_zero (Or.inr ⟨hz.2, rfl⟩)]
      ext <;> simp
    · rfl
  have eV : (⟨(c.oMc1.actInv (d.ov m.j1)).lin - c.c1Mc2.rot.mulVec (c.oMc2.actInv (d.ov m.j2)).lin, 0⟩ : Motion K) = E' := by
    rw [ea, ea, er, ← M3.mulVec_sub]
  unfold RCM.rhs RCM.drift
  have hd : CType.CONTACT_3D.dim = 3 := rfl
  simp only [hm, e1, e2, ep, eV, hd, ← hE]
  generalize (if (∀ i < 3, k.Kp i = 0) ∧ (∀ i < 3, k.Kd i = 0) then (0 : Motion K)
      else ⟨-(diagMul k.Kp E).lin - (diagMul k.Kd E').lin, 0⟩) = B at eB ⊢
  rcases hrf : m.rf
  · dsimp only [inAxes, toAxes]
    rw [ec, ec, ea, ea, ← eB]
    have ecr : ((c.oMc1.actInv (d.ov m.j1)).ang).cross (c.oMc1.rot.tr.mulVec (translateLin c.oMc1 .LOCAL_WORLD_ALIGNED (d.ov m.j1)).lin)
        = c.oMc1.rot.tr.mulVec ((d.ov m.j1).ang.cross (translateLin c.oMc1 .LOCAL_WORLD_ALIGNED (d.ov m.j1)).lin) :=
      (M3.IsRot.mulVec_cross (R := c.oMc1.rot.tr) (SE3.Valid.inv hv1) _ _).symm
    change -(_ + ((c.oMc1.actInv (d.ov m.j1)).ang).cross _) + c.oMc1.rot.tr.mulVec _ + B.lin + k.des.lin = _
    rw [ecr, ← M3.mulVec_add, ← M3.mulVec_neg, ← M3.mulVec_neg, ← M3.mulVec_add]
    congr 3
    abel
  · dsimp only [inAxes, toAxes, Motion.rotate]
    rw [if_pos trivial, ec, ec, ec, ec, ← eB]
    simp only [Motion.add_lin, Motion.neg_lin]
    abel

/-- the terms of `primal_rhs_contact` for a `CONTACT_6D` -/
theorem rhs_6d (lg : SE3 K → Motion K) {m : RCM K} (hm : m.type = .CONTACT_6D) (k : Corr K) {c : RCD K} (hv1 : c.oMc1.Valid)
    (hv2 : c.oMc2.Valid) (hc : c.c1Mc2 = c.oMc1.actInvSE3 c.oMc2) (d : Data K) (h1 : m.j1 = 0 → d.ov 0 = 0)
    (h2 : m.j2 = 0 → d.ov 0 = 0) :
    m.rhs lg k c d = -(translateLin c.oMc1 m.rf.rf (d.oa m.j1 - d.oa m.j2) + match m.rf with
          | .LOCAL => (c.oMc1.actInv (d.ov m.j1 - d.ov m.j2)).cross (c.oMc1.actInv (d.ov m.j2))
          | .LOCAL_WORLD_ALIGNED => 0)
      + toAxes m.rf c.oMc1.rot (baumgarte k (-lg c.c1Mc2) (c.oMc1.actInv (d.ov m.j1 - d.ov m.j2))) + k.des := by
  have e1 : (if m.j1 > 0 then c.oMc1.actInv (d.ov m.j1) else 0) = c.oMc1.actInv (d.ov m.j1) := by
    split
    · rfl
    · have : m.j1 = 0 := by omega
      rw [this, h1 this, SE3.actInv_zero]
  have e2 : (if m.j2 > 0 then c.oMc2.actInv (d.ov m.j2) else 0) = c.oMc2.actInv (d.ov m.j2) := by
    split
    · rfl
    · have : m.j2 = 0 := by omega
      rw [this, h2 this, SE3.actInv_zero]
  have er : ∀ x, c.c1Mc2.act (c.oMc2.actInv x) = c.oMc1.actInv x := by
    intro x
    rw [hc, actInvSE3_inv, SE3.mul_act hv1.inv, SE3.act_actInv hv2]
    exact SE3.inv_act hv1 x
  set E' := c.oMc1.actInv (d.ov m.j1 - d.ov m.j2) with hE'
  have eB : (if (∀ i < 6, k.Kp i = 0) ∧ (∀ i < 6, k.Kd i = 0) then (0 : Motion K)
      else -diagMul k.Kp (-lg c.c1Mc2) - diagMul k.Kd E') = baumgarte k (-lg c.c1Mc2) E' := by
    split
    · rename_i hz
      rw [baumgarte_eq]
      rw [diagMul_zero (Or.inl hz.1), diagMul_zero (Or.inl hz.2)]
      ext <;> simp
    · rfl
  unfold RCM.rhs RCM.drift
  have hd : CType.CONTACT_6D.dim = 6 := rfl
  simp only [hm, e1, e2, er, hd, ← SE3.actInv_sub, ← hE', eB]
  rcases hrf : m.rf
  · dsimp only [toAxes, CFrame.rf]
    change _ = -(c.oMc1.actInv (d.oa m.j1 - d.oa m.j2) + _) + _ + _
    rw [SE3.actInv_sub]
    abel
  · dsimp only [toAxes, CFrame.rf]
    rw [if_neg (by decide)]
    change _ = -((⟨(d.oa m.j1 - d.oa m.j2).lin - c.oMc1.trans.cross (d.oa m.j1 - d.oa m.j2).ang, (d.oa m.j1 - d.oa m.j2).ang⟩ : Motion K)
      + 0) + _ + _
    have : -(⟨(d.oa m.j1).lin + (d.oa m.j1).ang.cross c.oMc1.trans, (d.oa m.j1).ang⟩ : Motion K)
        + ⟨(d.oa m.j2).lin + (d.oa m.j2).ang.cross c.oMc1.trans, (d.oa m.j2).ang⟩
        = -((⟨(d.oa m.j1 - d.oa m.j2).lin - c.oMc1.trans.cross (d.oa m.j1 - d.oa m.j2).ang, (d.oa m.j1 - d.oa m.j2).ang⟩ : Motion K) + 0) := by
      ext <;> simp <;> ring
    rw [this]
    rfl

end
end Pin
