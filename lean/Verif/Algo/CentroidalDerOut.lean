import Verif.Algo.CentroidalDerLemmas
import Verif.Spec.CentDer
import Verif.Props.Centroidal
import Verif.Props.KinDerivatives

/-! # Lemmas on the outputs of `centroidal-derivatives.hxx` and `center-of-mass-derivatives.hxx` -/

namespace Pin
open Finset DualNumber TrivSqZeroExt
universe u
variable {K : Type u} [Field K] [LinearOrder K] [IsStrictOrderedRing K] [HasEps K] {s : Sys K} {sε : Sys K[ε]}
  {q w dq : ℕ → K}

theorem sum_translate (n : ℕ) (F F0 : ℕ → Force K) (p : V3 K) (k : ℕ → K) :
    ∑ r ∈ range n, k r • translateForceSet n F p F0 r = (∑ r ∈ range n, k r • F r).atPoint p := by
  rw [← atPoint_sum]
  apply sum_congr rfl
  intro r hr
  unfold translateForceSet
  rw [if_pos (mem_range.1 hr)]; rfl

theorem sum_addCross (n : ℕ) (F A : ℕ → Force K) (x : V3 K) (m : K) (k : ℕ → K) :
    ∑ r ∈ range n, k r • addCrossLin n F x A m r
      = ∑ r ∈ range n, k r • F r - ⟨0, (m⁻¹ • (∑ r ∈ range n, k r • A r).lin).cross x⟩ := by
  have e : ∀ y : V3 K, (⟨0, (m⁻¹ • y).cross x⟩ : Force K) = m⁻¹ • ⟨0, y.cross x⟩ := by
    intro y; ext <;> simp <;> ring
  rw [e, ← Force.sum_cross, smul_sum, ← sum_sub_distrib]
  apply sum_congr rfl
  intro r hr
  unfold addCrossLin
  rw [if_pos (mem_range.1 hr), V3.divS_eq]
  ext <;> simp <;> ring

omit [LinearOrder K] [IsStrictOrderedRing K] [HasEps K] in
theorem subMass_inl (hs : s.Along sε q w dq) : sε.subMass 0 = inl (s.subMass 0) := by
  unfold Sys.subMass
  rw [hs.par, hs.n, ← inlHom_apply, map_sum]
  exact sum_congr rfl fun b _ => by rw [hs.Y]; rfl

theorem CdOut.der (h : s.Packed) (hM : s.subMass 0 ≠ 0) (hal : s.Along sε q w dq) (hc : s.ConstS sε) (hq : s.At q)
    {v a : ℕ → K} {F : ℕ → Force K} {d : Data K} (hd : CdOut s q v a F d) (o : CentDer K) :
    let x := cdOutputs s (cdGlobals d) F o
    IsCentDer s sε q w dq v a x.2.dh_dq x.2.dhdot_dq x.2.dhdot_dv x.2.dhdot_da ∧ x.2.dhdot_da = x.1.Ag ∧
    x.1.hg = (s.hsum q v).atPoint (s.comPos q 0) ∧ x.1.dhg = (s.dhsum q v a).atPoint (s.comPos q 0) ∧
    x.1.com 0 = s.comPos q 0 ∧ x.1.mass 0 = s.subMass 0 ∧
    x.1.Ig = ⟨(d.oYcrb 0).mass, 0, (d.oYcrb 0).rotI⟩ := by
  have hp := h.par
  have hl := lever_com hM hd.Y0
  have hm := (inertia_of_matrix hd.Y0).1
  have eA : ∀ δ : ℕ → K, ∑ r ∈ range s.nv, δ r • d.dFda r = s.hsum q δ := Ag_mul h hq hd.Fa
  have ecv : (s.subMass 0)⁻¹ • (s.hsum q w).lin = s.comVel q w 0 := vcom_eq hp q w
  have e1 : (cdGlobals d).hg = (s.hsum q v).atPoint (s.comPos q 0) := by
    rw [← hd.H0, ← hl, ← Force.about_eq]; rfl
  have e2 : (cdGlobals d).dhg = (s.dhsum q v a).atPoint (s.comPos q 0) := by
    rw [← hd.F0, ← hl, ← Force.about_eq]; rfl
  refine ⟨⟨fun c hcc δv => ?_, fun c hcc δv δa => ?_⟩, rfl, e1, e2, ?_, ?_, rfl⟩
  · obtain ⟨c1, c2⟩ := com_dual hal hp hq hM hcc.eq
    have e3 : (cdOutputs s (cdGlobals d) F o).2.dh_dq = addCrossLin s.nv
      (translateForceSet s.nv d.dHdq (d.oYcrb 0).lever o.dh_dq) (cdGlobals d).hg.lin d.dFda (d.oYcrb 0).mass := rfl
    have e4 : (cdOutputs s (cdGlobals d) F o).2.dhdot_da = translateForceSet s.nv d.dFda (d.oYcrb 0).lever d.Ag := rfl
    rw [e3, e4, sum_add_distrib, sum_addCross, sum_translate, sum_translate, eA, eA, atPoint_snd, c1, c2,
      Sys.hsum_var hal hc hp hq, hsum_fst hal hp hq, hm, ecv, hl, e1]
    have e5 : ∑ j ∈ Ico 1 s.n, ∑ l ∈ range (s.jnv j), (w (s.iv j + l) • s.hQ q v j l + δv (s.iv j + l) • s.fA q j l)
        = ∑ r ∈ range s.nv, w r • d.dHdq r + s.hsum q δv := by
      rw [← eA, ← sum_add_distrib, ← h.sum_seg]
      refine sum_congr rfl fun j hj => sum_congr rfl fun l hl => ?_
      rw [hd.Hq j (mem_Ico.1 hj).1 (mem_Ico.1 hj).2 l (mem_range.1 hl),
        hd.Fa j (mem_Ico.1 hj).1 (mem_Ico.1 hj).2 l (mem_range.1 hl)]
    rw [e5]
    have e6 : ∀ (f g : Force K) (p : V3 K), (f + g).atPoint p = f.atPoint p + g.atPoint p := fun f g p =>
      (aboutLin p).map_add f g
    rw [e6]
    show _ - (⟨0, (s.comVel q w 0).cross (s.hsum q v).lin⟩ : Force K) + _ = _
    abel
  · obtain ⟨c1, c2⟩ := com_dual hal hp hq hM hcc.eq
    have e3 : (cdOutputs s (cdGlobals d) F o).2.dhdot_dq = addCrossLin s.nv
      (translateForceSet s.nv F (d.oYcrb 0).lever o.dhdot_dq) (cdGlobals d).dhg.lin d.dFda (d.oYcrb 0).mass := rfl
    have e3' : (cdOutputs s (cdGlobals d) F o).2.dhdot_dv =
      translateForceSet s.nv d.dFdv (d.oYcrb 0).lever o.dhdot_dv := rfl
    have e4 : (cdOutputs s (cdGlobals d) F o).2.dhdot_da = translateForceSet s.nv d.dFda (d.oYcrb 0).lever d.Ag := rfl
    rw [e3, e3', e4, sum_add_distrib, sum_add_distrib, sum_addCross, sum_translate, sum_translate, sum_translate, eA, eA,
      atPoint_snd, c1, c2, Sys.dhsum_var hal hc hp hq, Sys.dhsum_fst hal hc hp hq, hm, ecv, hl, e2]
    have e5 : ∑ j ∈ Ico 1 s.n, ∑ l ∈ range (s.jnv j), (w (s.iv j + l) • s.noGrav.fQ q v a (fun _ => 0) j l
          + δv (s.iv j + l) • s.fV q v j l + δa (s.iv j + l) • s.fA q j l)
        = ∑ r ∈ range s.nv, w r • F r + ∑ r ∈ range s.nv, δv r • d.dFdv r + s.hsum q δa := by
      rw [← eA, ← sum_add_distrib, ← sum_add_distrib, ← h.sum_seg]
      refine sum_congr rfl fun j hj => sum_congr rfl fun l hl => ?_
      rw [hd.Fq j (mem_Ico.1 hj).1 (mem_Ico.1 hj).2 l (mem_range.1 hl),
        hd.Fa j (mem_Ico.1 hj).1 (mem_Ico.1 hj).2 l (mem_range.1 hl),
        hd.Fv j (mem_Ico.1 hj).1 (mem_Ico.1 hj).2 l (mem_range.1 hl)]
    rw [e5]
    have e6 : ∀ (f g : Force K) (p : V3 K), (f + g).atPoint p = f.atPoint p + g.atPoint p := fun f g p =>
      (aboutLin p).map_add f g
    rw [e6, e6]
    show _ - (⟨0, (s.comVel q w 0).cross (s.dhsum q v a).lin⟩ : Force K) + _ + _ = _
    abel
  · show upd d.com 0 (d.oYcrb 0).lever 0 = _
    rw [upd_self, hl]
  · show upd d.mass 0 (d.oYcrb 0).mass 0 = _
    rw [upd_self, hm]

/-! ## velocity of the centre of mass -/

/-- what `getCenterOfMassVelocityDerivatives` reads -/
structure CvIn (s : Sys K) (q vel : ℕ → K) (d : Data K) : Prop where
  v : ∀ i, 1 ≤ i → i < s.n → d.v i = s.V q vel i
  jv : ∀ i, 1 ≤ i → i < s.n → (d.joints i).v = s.jvel q vel i
  S : ∀ i, 1 ≤ i → i < s.n → (d.joints i).S = s.S q i
  oMi : ∀ i, 1 ≤ i → i < s.n → d.oMi i = s.oM q i
  mass : ∀ i, i < s.n → d.mass i = s.subMass i
  com : ∀ i, 1 ≤ i → i < s.n → s.subMass i • d.com i = s.lcom q i
  vcom : ∀ i, 1 ≤ i → i < s.n → s.subMass i • d.vcom i = s.lvec q (s.wcom q vel) i

theorem oYm_lin' (q : ℕ → K) (i : ℕ) (x : Motion K) :
    ((s.oYm q i).mulMF x).lin = s.subMass i • x.lin + x.ang.cross (s.msum (s.pcom q) i) := by
  rw [oYm_lin]
  unfold Sys.subMass Sys.msum
  rw [sum_smul]
  have hcr : ∀ (t : Finset ℕ) (g : ℕ → V3 K), x.ang.cross (∑ b ∈ t, g b) = ∑ b ∈ t, x.ang.cross (g b) := by
    classical
    intro t g
    induction t using Finset.induction_on with
    | empty => rw [sum_empty, sum_empty]; ext <;> simp
    | insert a t ha ih => rw [sum_insert ha, sum_insert ha, ← ih]; ext <;> simp <;> ring
  rw [hcr, ← sum_add_distrib]
  apply sum_congr rfl
  intro b hb
  ext <;> simp [-mul_eq_mul_left_iff, pointVel] <;> ring

omit [LinearOrder K] [IsStrictOrderedRing K] [HasEps K] in
theorem ohm_lin (hp : ParOk s.par s.n) (hq : s.At q) (v : ℕ → K) (i : ℕ) : (s.ohm q v i).lin = s.msum (s.wcom q v) i := by
  unfold Sys.ohm Sys.msum
  rw [Force.sum_lin]
  apply sum_congr rfl
  intro b hb
  rw [← oh_eq hp hq v (mem_subtree.1 hb).1.2]
  unfold Sys.oh Sys.wcom
  ext <;> simp [-mul_eq_mul_left_iff, Inertia.mul, SE3.actF] <;> ring

omit [LinearOrder K] [IsStrictOrderedRing K] [HasEps K] in
/-- from the frame of joint `i` to the world -/
theorem msum_wcom_eq (hp : ParOk s.par s.n) (hq : s.At q) (v : ℕ → K) {i : ℕ} (hi : i < s.n) :
    s.msum (s.wcom q v) i = (s.oM q i).rot.mulVec (s.lvec q (s.wcom q v) i) := by
  unfold Sys.msum Sys.lvec
  rw [M3.mulVec_sum]
  apply sum_congr rfl
  intro b _
  rw [M3.mulVec_smul', M3.IsRot.mulVec_tr_mulVec (s.oM_valid hp hq i hi)]

omit [LinearOrder K] [IsStrictOrderedRing K] [HasEps K] in
theorem msum_pcom_eq (hp : ParOk s.par s.n) (hq : s.At q) {i : ℕ} (hi : i < s.n) :
    s.msum (s.pcom q) i = (s.oM q i).rot.mulVec (s.lcom q i) + s.subMass i • (s.oM q i).trans := by
  unfold Sys.msum Sys.lcom Sys.subMass
  rw [M3.mulVec_sum, sum_smul, ← sum_add_distrib]
  apply sum_congr rfl
  intro b _
  unfold SE3.actInvP
  rw [M3.mulVec_smul', M3.IsRot.mulVec_tr_mulVec (s.oM_valid hp hq i hi), ← smul_add]
  congr 1
  ext <;> simp

theorem comVelDer_col (h : s.Packed) (hq : s.At q) (hM : s.subMass 0 ≠ 0) {v : ℕ → K} {d : Data K} (hd : CvIn s q v d)
    {i k : ℕ} (h1 : 1 ≤ i) (hi : i < s.n) (hk : k < s.jnv i) (x : ℕ → V3 K) :
    s.subMass 0 • comVelDerStep s d i x (s.iv i + k) = (s.hQ q v i k).lin := by
  have hp := h.par
  have hpi := hp.2 i h1 hi
  have hR := s.oM_valid hp hq i hi
  set y := s.V q v i - s.jvel q v i with hy
  have evp : (if s.par i > 0 then d.v i - (d.joints i).v else 0) = y := by
    split
    · rw [hd.v i h1 hi, hd.jv i h1 hi]
    · rename_i h0
      have : s.par i = 0 := by omega
      rw [hy, s.V_step h1 hpi, this, s.V_zero]
      ext <;> simp [SE3.actInv]
  have eo : s.oV q v (s.par i) = (s.oM q i).act y := by
    have e1 := Sys.oV_step hp hq v h1 hi
    have e2 : (s.oM q i).act y = s.oV q v i - (s.oM q i).act (s.jvel q v i) := by
      rw [hy]; unfold Sys.oV; ext <;> simp [SE3.act] <;> ring
    rw [e2, e1]; abel
  unfold comVelDerStep
  dsimp only
  rw [putSeg_at _ _ hk, evp, hd.S i h1 hi, hd.oMi i h1 hi, hd.mass i hi, hd.mass 0 (by omega), smul_smul,
    mul_div_cancel₀ _ hM]
  unfold Sys.hQ Sys.dVq
  rw [eo]
  have e3 : ((s.oM q i).act y).cross (s.Jc q i k) = (s.oM q i).act (y.cross (s.S q i k)) := (Motion.act_cross hR _ _).symm
  rw [e3]
  have e4 : ∀ f g : Force K, (f + g).lin = f.lin + g.lin := fun _ _ => rfl
  rw [e4, oYm_lin', msum_pcom_eq hp hq hi]
  have e5 : ((s.Jc q i k).crossF (s.ohm q v i)).lin = (s.oM q i).rot.mulVec ((s.S q i k).ang.cross
      (s.lvec q (s.wcom q v) i)) := by
    have : ((s.Jc q i k).crossF (s.ohm q v i)).lin = (s.Jc q i k).ang.cross (s.ohm q v i).lin := rfl
    rw [this, ohm_lin hp hq, msum_wcom_eq hp hq v hi, M3.IsRot.mulVec_cross hR]; rfl
  have e6 : ((s.oM q i).act (y.cross (s.S q i k))).ang = (s.oM q i).rot.mulVec (y.cross (s.S q i k)).ang := rfl
  have e7 : ((s.oM q i).act (y.cross (s.S q i k))).lin = (s.oM q i).rot.mulVec (y.cross (s.S q i k)).lin
      + (s.oM q i).trans.cross ((s.oM q i).rot.mulVec (y.cross (s.S q i k)).ang) := rfl
  have e8 : ((s.oM q i).rot.mulVec (y.cross (s.S q i k)).ang).cross ((s.oM q i).rot.mulVec (s.lcom q i))
      = (s.oM q i).rot.mulVec ((y.cross (s.S q i k)).ang.cross (s.lcom q i)) := (M3.IsRot.mulVec_cross hR _ _).symm
  have e9 : ∀ a b c : V3 K, a.cross (b + c) = a.cross b + a.cross c := by intro a b c; ext <;> simp <;> ring
  rw [e5, e6, e7, e9, e8, ← hd.com i h1 hi, ← hd.vcom i h1 hi]
  generalize (s.oM q i).rot = R
  generalize (s.oM q i).trans = p
  generalize s.S q i k = S
  generalize s.subMass i = m
  generalize d.com i = c
  generalize d.vcom i = vc
  clear_value y
  ext <;> simp [-mul_eq_mul_left_iff, Motion.cross] <;> ring

end Pin
