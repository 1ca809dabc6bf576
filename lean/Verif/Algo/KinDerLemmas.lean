import Verif.Algo.KinDerivatives
import Verif.Algo.VariationLemmas

/-! # What the kinematics derivatives compute, column by column -/

set_option linter.unusedSectionVars false

namespace Pin
open Finset DualNumber TrivSqZeroExt
universe u
variable {K : Type u} [CommRing K] {s : Sys K}

/-! ## the forward pass -/

theorem fkdStep_eq (q v a : ℕ → K) (i : ℕ) (d : Data K) :
    fkdStep s q v a i d =
      (let e := jacobianTvStep s q v i d
       let x := comb (e.joints i).S (s.jnv i) (s.vs a i) + (e.joints i).c + (e.v i).cross (e.joints i).v
       let y := if s.par i > 0 then x + (e.liMi i).actInv ((upd d.a i x) (s.par i)) else x
       { e with a := upd d.a i y, oa := upd d.oa i ((e.oMi i).act y) }) := by
  unfold fkdStep jacobianTvStep
  by_cases h : s.par i > 0
  · simp only [h, if_true, upd_self]
    congr 1
    simp
  · simp only [h, if_false, upd_self]

/-- what the forward pass leaves, joints below `m` -/
structure FkdOk (s : Sys K) (q v a : ℕ → K) (m : ℕ) (d : Data K) : Prop extends TvOk s q v m d where
  acc : ∀ i, 1 ≤ i → i < m → d.a i = s.A 0 q v a i
  oa : ∀ i, 1 ≤ i → i < m → d.oa i = s.wA 0 q v a i

theorem fkd_step (h : s.Packed) {q : ℕ → K} (hq : s.At q) (v a : ℕ → K) {i : ℕ} (h1 : 1 ≤ i) (hi : i < s.n)
    {d : Data K} (ih : FkdOk s q v a i d) : FkdOk s q v a (i + 1) (fkdStep s q v a i d) := by
  have hpi := h.par.2 i h1 hi
  have ht := tv_step h hq v h1 hi ih.toTvOk
  obtain ⟨p1, p2, p3, -⟩ := ht.pl i h1 (by omega)
  obtain ⟨v1, v2, v3⟩ := ht.vel i h1 (by omega)
  rw [fkdStep_eq]
  have ey : (if s.par i > 0 then comb ((jacobianTvStep s q v i d).joints i).S (s.jnv i) (s.vs a i)
        + ((jacobianTvStep s q v i d).joints i).c
        + ((jacobianTvStep s q v i d).v i).cross ((jacobianTvStep s q v i d).joints i).v
        + ((jacobianTvStep s q v i d).liMi i).actInv ((upd d.a i
          (comb ((jacobianTvStep s q v i d).joints i).S (s.jnv i) (s.vs a i)
        + ((jacobianTvStep s q v i d).joints i).c
        + ((jacobianTvStep s q v i d).v i).cross ((jacobianTvStep s q v i d).joints i).v)) (s.par i))
      else comb ((jacobianTvStep s q v i d).joints i).S (s.jnv i) (s.vs a i)
        + ((jacobianTvStep s q v i d).joints i).c
        + ((jacobianTvStep s q v i d).v i).cross ((jacobianTvStep s q v i d).joints i).v) = s.A 0 q v a i := by
    rw [upd_ne _ _ (show s.par i ≠ i by omega), p1, p3, v1, v2, v3, s.A_step h1 hpi]
    split
    · rename_i hz; rw [ih.acc _ hz hpi]; rfl
    · have e0 : s.par i = 0 := by omega
      rw [e0, s.A_zero]
      simp
      rfl
  refine ⟨⟨ht.pl, ht.vel, ht.J, ht.ov, ht.dJ⟩, ?_, ?_⟩
  · intro j j1 hj
    dsimp only
    by_cases e : j = i
    · subst e; rw [upd_self]; exact ey
    · rw [upd_ne _ _ e]; exact ih.acc j j1 (by omega)
  · intro j j1 hj
    dsimp only
    by_cases e : j = i
    · subst e; rw [upd_self, ey, p2]; rfl
    · rw [upd_ne _ _ e]; exact ih.oa j j1 (by omega)

theorem fkd_ok (h : s.Packed) (d : Data K) {q : ℕ → K} (hq : s.At q) (v a : ℕ → K) :
    FkdOk s q v a s.n (computeForwardKinematicsDerivatives s d q v a) := by
  unfold computeForwardKinematicsDerivatives
  apply fwd_ind (P := fun k (d : Data K) => FkdOk s q v a k d) h.par.1
  · refine ⟨?_, ?_, ?_⟩
    · constructor <;> intro i a b <;> omega
    all_goals intro i a b; omega
  · intro i d h1 hi ih
    exact fkd_step h hq v a h1 hi ih

/-! ## walks that write the columns of the joints of a support -/

theorem upLoop_cols {α D : Type*} (h : s.Packed) (col : D → ℕ → α) (y : ℕ → ℕ → α → α) {step : ℕ → D → D}
    (hat : ∀ i, 1 ≤ i → i < s.n → ∀ d k, k < s.jnv i → col (step i d) (s.iv i + k) = y i k (col d (s.iv i + k)))
    (hne : ∀ i, 1 ≤ i → i < s.n → ∀ d c, ¬(s.iv i ≤ c ∧ c < s.iv i + s.jnv i) → col (step i d) c = col d c)
    {fuel : ℕ} :
    ∀ i, i ≤ fuel → i < s.n → ∀ d a k, 1 ≤ a → a < s.n → k < s.jnv a → ∀ [Decidable (anc s.par a i)],
      col (upLoop s.par step fuel i d) (s.iv a + k)
        = if anc s.par a i then y a k (col d (s.iv a + k)) else col d (s.iv a + k) := by
  have hne' : ∀ i, 1 ≤ i → i < s.n → ∀ d a k, 1 ≤ a → a < s.n → k < s.jnv a → a ≠ i →
      col (step i d) (s.iv a + k) = col d (s.iv a + k) := by
    intro i i1 hi d a k a1 ha hk e
    apply hne i i1 hi
    rintro ⟨x, y⟩
    exact e (h.inj a1 ha i1 hi hk (l := s.iv a + k - s.iv i) (by omega) (by omega)).1
  induction fuel with
  | zero =>
    intro i hi _ d a k a1 _ _ _
    have : i = 0 := by omega
    subst this
    rw [if_neg (by rw [anc_zero]; omega)]; rfl
  | succ f ih =>
    intro i hi hin d a k a1 ha hk _
    unfold upLoop
    rcases Nat.eq_zero_or_pos i with rfl | i1
    · rw [if_neg (by omega), if_neg (by rw [anc_zero]; omega)]
    · have hpi := h.par.2 i i1 hin
      classical
      rw [if_pos i1, ih _ (by omega) (by omega) _ a k a1 ha hk]
      have hs := anc_step (i := a) i1 hpi
      by_cases e : a = i
      · subst e
        have hno : ¬ anc s.par a (s.par a) := by
          intro hc; have := anc_le h.par _ (by omega) hc; omega
        rw [if_neg hno, if_pos (hs.2 (Or.inl rfl)), hat a a1 ha _ _ hk]
      · rw [hne' i i1 hin _ a k a1 ha hk e]
        by_cases hc : anc s.par a (s.par i)
        · rw [if_pos hc, if_pos (hs.2 (Or.inr hc))]
        · rw [if_neg hc, if_neg]
          intro h'
          rcases hs.1 h' with h' | h'
          · exact e h'
          · exact hc h'

/-- a matrix whose columns are images of the world columns of the support of `j`, applied to a joint velocity -/
theorem cols_sum {M : Type*} [AddCommGroup M] [Module K M] (h : s.Packed) {q : ℕ → K} {j : ℕ}
    (L : ℕ → Motion K →ₗ[K] M) {X : ℕ → M}
    (hX : ∀ i, 1 ≤ i → i < s.n → ∀ k, k < s.jnv i → ∀ [Decidable (anc s.par i j)],
      X (s.iv i + k) = if anc s.par i j then L i (s.Jc q i k) else 0) (w : ℕ → K) :
    ∑ c ∈ range s.nv, w c • X c = ∑ i ∈ supp s.par s.n j, L i (s.oj q w i) := by
  classical
  rw [← h.sum_seg (fun r => w r • X r)]
  have : supp s.par s.n j = (Ico 1 s.n).filter (fun i => anc s.par i j) := by
    ext i; rw [mem_supp, mem_filter, mem_Ico]
  rw [this, sum_filter]
  apply sum_congr rfl
  intro i hi
  rw [mem_Ico] at hi
  split
  · rename_i ha
    rw [show s.oj q w i = comb (s.Jc q i) (s.jnv i) (s.vs w i) from (comb_Jc q w i).symm]
    unfold comb
    rw [map_sum]
    apply sum_congr rfl
    intro k hk
    rw [hX i hi.1 hi.2 k (mem_range.1 hk), if_pos ha, map_smul]
    rfl
  · rename_i ha
    apply sum_eq_zero
    intro k hk
    rw [hX i hi.1 hi.2 k (mem_range.1 hk), if_neg ha, smul_zero]

/-! ## changes of frame -/

theorem translateCol_cross {M : SE3 K} (hM : M.Valid) (x y : Motion K) (rf : RF) :
    translateCol M (x.cross y) rf = (translateCol M x rf).cross (translateCol M y rf) := by
  cases rf
  · rfl
  · exact Motion.actInv_cross hM _ _
  · simp only [translateCol]
    ext <;> simp [Motion.cross] <;> ring

theorem shiftLin_eq (M : SE3 K) (m : Motion K) : shiftLin m M.trans = translateCol M m .LOCAL_WORLD_ALIGNED := by
  simp only [shiftLin, translateCol]
  ext <;> simp <;> ring

theorem frameCol_translate {O P : SE3 K} (hO : O.Valid) (hP : P.Valid) (m : Motion K) (rf : RF) :
    frameCol O P (translateCol O m rf) rf = translateCol (O * P) m rf := by
  cases rf
  · rfl
  · simp only [frameCol, translateCol]
    rw [SE3.mul_actInv hO hP]
  · simp only [frameCol, translateCol]
    have e2 : (O * P).trans = O.trans + O.rot.mulVec P.trans := rfl
    rw [e2]
    ext <;> simp <;> ring

theorem oV_zero' (q v : ℕ → K) : s.oV q v 0 = 0 := by
  unfold Sys.oV; rw [s.V_zero]; simp

theorem wA_zero' (q v a : ℕ → K) : s.wA 0 q v a 0 = 0 := by
  unfold Sys.wA; rw [s.A_zero]; simp

theorem relMotion_eq {x : ℕ → Motion K} {X : ℕ → Motion K} {last : Motion K} {i : ℕ}
    (hx : s.par i > 0 → x (s.par i) = X (s.par i)) (h0 : X 0 = 0) : relMotion s x last i = X (s.par i) - last := by
  unfold relMotion
  split
  · rename_i h; rw [hx h]
  · have : s.par i = 0 := by omega
    rw [this, h0, zero_sub]

/-- what is subtracted outside the frame `LOCAL` -/
def lastOf (rf : RF) (m : Motion K) : Motion K :=
  match rf with
  | .LOCAL => 0
  | _ => m

/-- columns of `getJointVelocityDerivatives` -/
theorem velDer_cols (h : s.Packed) {q v : ℕ → K} (hq : s.At q) {d : Data K} (hd : TvOk s q v s.n d) {j : ℕ}
    (j1 : 1 ≤ j) (hj : j < s.n) (rf : RF) {x : (ℕ → Motion K) × (ℕ → Motion K)} (hx : ∀ c, x.1 c = 0 ∧ x.2 c = 0) {i k : ℕ}
    (h1 : 1 ≤ i) (hi : i < s.n) (hk : k < s.jnv i) [Decidable (anc s.par i j)] :
    (getJointVelocityDerivatives s d j rf x).1 (s.iv i + k)
      = (if anc s.par i j then translateLin (s.oM q j) rf
          ((s.oV q v (s.par i) - lastOf rf (s.oV q v j)).cross (s.Jc q i k)) else 0) ∧
    (getJointVelocityDerivatives s d j rf x).2 (s.iv i + k)
      = (if anc s.par i j then translateLin (s.oM q j) rf (s.Jc q i k) else 0) := by
  have hM := s.oM_valid h.par hq j hj
  have eM : d.oMi j = s.oM q j := (hd.pl j j1 hj).2.1
  have eVj : d.ov j = s.oV q v j := hd.ov j j1 hj
  have key := upLoop_cols h (step := velDerStep s d j rf) (fun (x : (ℕ → Motion K) × (ℕ → Motion K)) c => (x.1 c, x.2 c))
    (fun i k m => (if rf = .LOCAL ∧ s.par i = 0 then m.1 else translateLin (s.oM q j) rf
          ((s.oV q v (s.par i) - lastOf rf (s.oV q v j)).cross (s.Jc q i k)), translateLin (s.oM q j) rf (s.Jc q i k)))
    (by
      intro i h1 hi x k hk
      have hpi := h.par.2 i h1 hi
      have eJ := hd.J i h1 hi k hk
      have ev : s.par i > 0 → d.ov (s.par i) = s.oV q v (s.par i) := fun hz => hd.ov _ hz (by omega)
      have er : relMotion s d.ov (s.oV q v j) i = s.oV q v (s.par i) - s.oV q v j :=
        relMotion_eq ev (oV_zero' q v)
      dsimp only
      refine Prod.ext ?_ ?_
      · cases rf
        · simp only [velDerStep, putSeg_at _ _ hk, eM, eVj, eJ, er]
          rfl
        · simp only [velDerStep, eM]
          by_cases hz : s.par i > 0
          · rw [if_pos hz, putSeg_at _ _ hk, putSeg_at _ _ hk, eJ, ev hz, if_neg (by simp; omega)]
            simp only [lastOf, sub_zero]
            exact (translateCol_cross hM _ _ .LOCAL).symm
          · rw [if_neg hz, if_pos ⟨trivial, by omega⟩]
        · simp only [velDerStep, putSeg_at _ _ hk, eM, eVj, eJ, er]
          rw [shiftLin_eq, ← translateCol_cross hM]
          rfl
      · simp only [velDerStep, putSeg_at _ _ hk, eM, eJ]; rfl)
    (by
      intro i h1 hi x c hc
      refine Prod.ext ?_ ?_
      · cases rf
        · simp only [velDerStep, putSeg_out _ _ hc]
        · simp only [velDerStep]; split
          · rw [putSeg_out _ _ hc]
          · rfl
        · simp only [velDerStep, putSeg_out _ _ hc]
      · simp only [velDerStep, putSeg_out _ _ hc])
    (fuel := s.n) j (by omega) hj x i k h1 hi hk
  dsimp only at key
  rw [(hx _).1, (hx _).2] at key
  unfold getJointVelocityDerivatives
  have e1 := congrArg Prod.fst key
  have e2 := congrArg Prod.snd key
  dsimp only at e1 e2
  rw [e1, e2]
  by_cases ha : anc s.par i j
  · rw [if_pos ha, if_pos ha, if_pos ha]
    refine ⟨?_, rfl⟩
    dsimp only
    split
    · rename_i hc
      obtain ⟨rfl, e⟩ := hc
      rw [e, oV_zero']
      simp only [lastOf, sub_zero, Motion.zero_cross, map_zero]
    · rfl
  · rw [if_neg ha, if_neg ha, if_neg ha]; exact ⟨rfl, rfl⟩

/-- columns of `getJointAccelerationDerivatives` -/
theorem accDer_cols (h : s.Packed) {q v a : ℕ → K} (hq : s.At q) {d : Data K} (hd : FkdOk s q v a s.n d) {j : ℕ}
    (j1 : 1 ≤ j) (hj : j < s.n) (rf : RF) {i k : ℕ}
    (h1 : 1 ≤ i) (hi : i < s.n) (hk : k < s.jnv i) [Decidable (anc s.par i j)] :
    let T := translateLin (s.oM q j) rf
    let P := s.oV q v (s.par i)
    let J := s.Jc q i k
    let r := getJointAccelerationDerivatives s d j rf AccDer.zero
    r.v_dq (s.iv i + k) = (if anc s.par i j then T ((P - lastOf rf (s.oV q v j)).cross J) else 0) ∧
    r.a_dq (s.iv i + k) = (if anc s.par i j then T ((s.wA 0 q v a (s.par i) - lastOf rf (s.wA 0 q v a j)).cross J
      + (P - s.oV q v j).cross ((if rf = .LOCAL ∨ s.par i = 0 then P else s.oV q v i).cross J)) else 0) ∧
    r.a_dv (s.iv i + k) = (if anc s.par i j then T ((P - s.oV q v j).cross J + (s.oV q v i).cross J) else 0) ∧
    r.a_da (s.iv i + k) = (if anc s.par i j then T J else 0) := by
  intro T P J r
  have hM := s.oM_valid h.par hq j hj
  have eM : d.oMi j = s.oM q j := (hd.pl j j1 hj).2.1
  have eVj : d.ov j = s.oV q v j := hd.ov j j1 hj
  have eAj : d.oa j = s.wA 0 q v a j := hd.oa j j1 hj
  have evj : d.v j = (s.oM q j).actInv (s.oV q v j) := by
    rw [(hd.vel j j1 hj).1]; exact (SE3.actInv_act hM _).symm
  have key := upLoop_cols h (step := accDerStep s d j rf)
    (fun (x : AccDer K) c => (x.v_dq c, x.a_dq c, x.a_dv c, x.a_da c))
    (fun i k m =>
      let T := translateLin (s.oM q j) rf
      let P := s.oV q v (s.par i)
      let J := s.Jc q i k
      (if rf = .LOCAL ∧ s.par i = 0 then m.1 else T ((P - lastOf rf (s.oV q v j)).cross J),
       if rf = .LOCAL ∧ s.par i = 0 then m.2.1 else
        T ((s.wA 0 q v a (s.par i) - lastOf rf (s.wA 0 q v a j)).cross J
          + (P - s.oV q v j).cross ((if rf = .LOCAL ∨ s.par i = 0 then P else s.oV q v i).cross J)),
       T ((P - s.oV q v j).cross J + (s.oV q v i).cross J), T J))
    (by
      intro i h1 hi x k hk
      have hpi := h.par.2 i h1 hi
      have eJ := hd.J i h1 hi k hk
      have edJ := hd.dJ i h1 hi k hk
      have ev : s.par i > 0 → d.ov (s.par i) = s.oV q v (s.par i) := fun hz => hd.ov _ hz (by omega)
      have ea : s.par i > 0 → d.oa (s.par i) = s.wA 0 q v a (s.par i) := fun hz => hd.oa _ hz (by omega)
      have er : relMotion s d.ov (s.oV q v j) i = s.oV q v (s.par i) - s.oV q v j :=
        relMotion_eq ev (oV_zero' q v)
      have era : relMotion s d.oa (s.wA 0 q v a j) i = s.wA 0 q v a (s.par i) - s.wA 0 q v a j :=
        relMotion_eq ea (wA_zero' q v a)
      dsimp only
      cases rf
      · by_cases hz : s.par i > 0
        · simp only [accDerStep, hz, if_true, putSeg_at _ _ hk, eM, eVj, eAj, eJ, edJ, er, era, reduceCtorEq,
            false_and, if_false, false_or, show ¬ s.par i = 0 by omega]
          rfl
        · have e0 : s.par i = 0 := by omega
          simp only [accDerStep, putSeg_at _ _ hk, eM, eVj, eAj, eJ, edJ, er, era, reduceCtorEq,
            false_and, if_false, false_or, e0, gt_iff_lt, lt_self_iff_false, if_true]
          simp only [oV_zero', Motion.zero_cross, Motion.cross_zero, add_zero]
          rfl
      · by_cases hz : s.par i > 0
        · simp only [accDerStep, hz, if_true, putSeg_at _ _ hk, eM, evj, eJ, edJ, ev hz, ea hz,
            true_and, if_false, true_or, show ¬ s.par i = 0 by omega, lastOf, sub_zero]
          simp only [map_add]
          change _ = (translateCol (s.oM q j) _ .LOCAL, translateCol (s.oM q j) _ .LOCAL + translateCol (s.oM q j) _ .LOCAL,
            translateCol (s.oM q j) _ .LOCAL + translateCol (s.oM q j) _ .LOCAL, _)
          simp only [translateCol_cross hM]
          simp only [translateCol, SE3.actInv_sub, Motion.actInv_cross hM]
          rfl
        · have e0 : s.par i = 0 := by omega
          simp only [accDerStep, putSeg_at _ _ hk, eM, evj, eJ, edJ,
            true_and, if_false, true_or, e0, gt_iff_lt, lt_self_iff_false, if_true]
          simp only [oV_zero', map_add, zero_sub]
          change _ = (_, _, translateCol (s.oM q j) _ .LOCAL + translateCol (s.oM q j) _ .LOCAL, _)
          simp only [translateCol_cross hM]
          simp only [translateCol, SE3.actInv_neg, Motion.actInv_cross hM]
          rfl
      · by_cases hz : s.par i > 0
        · simp only [accDerStep, hz, if_true, putSeg_at _ _ hk, eM, eVj, eAj, eJ, edJ, er, era, reduceCtorEq,
            false_and, if_false, false_or, show ¬ s.par i = 0 by omega, lastOf]
          simp only [map_add, shiftLin_eq, ← translateCol_cross hM]
          rw [add_comm (translateCol _ (Motion.cross (s.oV q v i) _) _)]
          rfl
        · have e0 : s.par i = 0 := by omega
          simp only [accDerStep, putSeg_at _ _ hk, eM, eVj, eAj, eJ, edJ, er, era, reduceCtorEq,
            false_and, if_false, false_or, e0, gt_iff_lt, lt_self_iff_false, if_true]
          simp only [oV_zero', Motion.zero_cross, Motion.cross_zero, add_zero]
          simp only [map_add, shiftLin_eq, ← translateCol_cross hM]
          rw [add_comm (translateCol _ (Motion.cross (s.oV q v i) _) _)]
          rfl)
    (by
      intro i h1 hi x c hc
      cases rf
      · simp only [accDerStep]; split <;> simp only [putSeg_out _ _ hc]
      · simp only [accDerStep]; split <;> simp only [putSeg_out _ _ hc]
      · simp only [accDerStep]; split <;> simp only [putSeg_out _ _ hc])
    (fuel := s.n) j (by omega) hj AccDer.zero i k h1 hi hk
  have e1 := congrArg Prod.fst key
  have e2 := congrArg (fun x => x.2.1) key
  have e3 := congrArg (fun x => x.2.2.1) key
  have e4 := congrArg (fun x => x.2.2.2) key
  dsimp only at e1 e2 e3 e4
  simp only [r, getJointAccelerationDerivatives]
  rw [e1, e2, e3, e4]
  by_cases ha : anc s.par i j
  · simp only [if_pos ha]
    refine ⟨?_, ?_, rfl, rfl⟩
    · split
      · rename_i hc
        obtain ⟨rfl, e⟩ := hc
        simp only [P]
        rw [e, oV_zero']
        simp only [lastOf, sub_zero, Motion.zero_cross, map_zero]
        rfl
      · rfl
    · split
      · rename_i hc
        obtain ⟨rfl, e⟩ := hc
        simp only [P]
        rw [e, oV_zero', wA_zero']
        simp only [lastOf, sub_zero, Motion.zero_cross, Motion.cross_zero, map_zero, true_or, if_true, add_zero]
        rfl
      · rfl
  · simp only [if_neg ha]; exact ⟨rfl, rfl, rfl, rfl⟩

theorem oV_supp (hp : ParOk s.par s.n) {q : ℕ → K} (hq : s.At q) (w : ℕ → K) {j : ℕ} (hj : j < s.n) :
    s.oV q w j = ∑ i ∈ supp s.par s.n j, s.oj q w i := Sys.oV_eq hp hq w j hj

theorem crossLin_apply (a b : Motion K) : crossLin a b = a.cross b := rfl

/-- derivatives of a velocity, applied to a direction -/
theorem vel_sum {M : Type*} [AddCommGroup M] [Module K M] (h : s.Packed) {q v : ℕ → K} (hq : s.At q) {j : ℕ}
    (hj : j < s.n) (T : Motion K →ₗ[K] M) (L : Motion K) {X Y : ℕ → M}
    (hX : ∀ i, 1 ≤ i → i < s.n → ∀ k, k < s.jnv i → ∀ [Decidable (anc s.par i j)],
      X (s.iv i + k) = if anc s.par i j then T ((s.oV q v (s.par i) - L).cross (s.Jc q i k)) else 0)
    (hY : ∀ i, 1 ≤ i → i < s.n → ∀ k, k < s.jnv i → ∀ [Decidable (anc s.par i j)],
      Y (s.iv i + k) = if anc s.par i j then T (s.Jc q i k) else 0) (w δv : ℕ → K) :
    ∑ c ∈ range s.nv, (w c • X c + δv c • Y c) = T (s.eV q w v δv j - L.cross (s.oV q w j)) := by
  rw [sum_add_distrib,
    cols_sum h (q := q) (j := j) (fun i => T ∘ₗ crossLin (s.oV q v (s.par i) - L)) hX,
    cols_sum h (q := q) (j := j) (fun _ => T) hY, Sys.eV_eq h.par q w v δv j hj, oV_supp h.par hq w hj,
    ← crossLin_apply L, map_sum (crossLin L), ← sum_sub_distrib, map_sum, ← sum_add_distrib]
  apply sum_congr rfl
  intro i _
  simp only [LinearMap.comp_apply, crossLin_apply]
  rw [← map_add, Motion.sub_cross]
  congr 1
  abel

/-- derivatives of an acceleration, applied to a direction; `Z` is what is computed for `oV_p` in the second term -/
theorem acc_sum {M : Type*} [AddCommGroup M] [Module K M] (h : s.Packed) {q v a : ℕ → K} (hq : s.At q) {j : ℕ}
    (hj : j < s.n) (T : Motion K →ₗ[K] M) (L : Motion K) (Z : ℕ → Motion K) {X Y W : ℕ → M}
    (hX : ∀ i, 1 ≤ i → i < s.n → ∀ k, k < s.jnv i → ∀ [Decidable (anc s.par i j)],
      X (s.iv i + k) = if anc s.par i j then T ((s.wA 0 q v a (s.par i) - L).cross (s.Jc q i k)
        + (s.oV q v (s.par i) - s.oV q v j).cross ((Z i).cross (s.Jc q i k))) else 0)
    (hY : ∀ i, 1 ≤ i → i < s.n → ∀ k, k < s.jnv i → ∀ [Decidable (anc s.par i j)],
      Y (s.iv i + k) = if anc s.par i j then T ((s.oV q v (s.par i) - s.oV q v j).cross (s.Jc q i k)
        + (s.oV q v i).cross (s.Jc q i k)) else 0)
    (hW : ∀ i, 1 ≤ i → i < s.n → ∀ k, k < s.jnv i → ∀ [Decidable (anc s.par i j)],
      W (s.iv i + k) = if anc s.par i j then T (s.Jc q i k) else 0) (w δv δa : ℕ → K) :
    ∑ c ∈ range s.nv, (w c • X c + δv c • Y c + δa c • W c)
      = T (s.hA 0 q w v δv a δa j - (s.oV q v j).cross (s.eV q w v δv j) - L.cross (s.oV q w j)
        + ∑ i ∈ supp s.par s.n j, (s.oV q v (s.par i) - s.oV q v j).cross
          ((Z i - s.oV q v (s.par i)).cross (s.oj q w i))) := by
  rw [sum_add_distrib, sum_add_distrib,
    cols_sum h (q := q) (j := j) (fun i => T ∘ₗ (crossLin (s.wA 0 q v a (s.par i) - L)
      + crossLin (s.oV q v (s.par i) - s.oV q v j) ∘ₗ crossLin (Z i))) hX,
    cols_sum h (q := q) (j := j) (fun i => T ∘ₗ (crossLin (s.oV q v (s.par i) - s.oV q v j)
      + crossLin (s.oV q v i))) hY,
    cols_sum h (q := q) (j := j) (fun _ => T) hW, Sys.hA_eq h.par 0 q w v δv a δa j hj,
    Sys.eV_eq h.par q w v δv j hj, oV_supp h.par hq w hj,
    ← crossLin_apply L, map_sum (crossLin L), ← crossLin_apply (s.oV q v j), map_sum (crossLin (s.oV q v j)),
    ← sum_sub_distrib, ← sum_sub_distrib, ← sum_add_distrib, ← sum_add_distrib, ← sum_add_distrib, map_sum]
  apply sum_congr rfl
  intro i _
  simp only [LinearMap.comp_apply, LinearMap.add_apply, crossLin_apply]
  rw [← map_add, ← map_add]
  congr 1
  simp only [Motion.sub_cross, Motion.cross_sub, Motion.cross_add]
  abel

/-- the same with additional terms -/
theorem vel_sum' {M : Type*} [AddCommGroup M] [Module K M] (h : s.Packed) {q v : ℕ → K} (hq : s.At q) {j : ℕ}
    (hj : j < s.n) (T U : Motion K →ₗ[K] M) {X Y : ℕ → M}
    (hX : ∀ i, 1 ≤ i → i < s.n → ∀ k, k < s.jnv i → ∀ [Decidable (anc s.par i j)],
      X (s.iv i + k) = if anc s.par i j then T ((s.oV q v (s.par i)).cross (s.Jc q i k)) + U (s.Jc q i k) else 0)
    (hY : ∀ i, 1 ≤ i → i < s.n → ∀ k, k < s.jnv i → ∀ [Decidable (anc s.par i j)],
      Y (s.iv i + k) = if anc s.par i j then T (s.Jc q i k) else 0) (w δv : ℕ → K) :
    ∑ c ∈ range s.nv, (w c • X c + δv c • Y c) = T (s.eV q w v δv j) + U (s.oV q w j) := by
  rw [sum_add_distrib,
    cols_sum h (q := q) (j := j) (fun i => T ∘ₗ crossLin (s.oV q v (s.par i)) + U) hX,
    cols_sum h (q := q) (j := j) (fun _ => T) hY, Sys.eV_eq h.par q w v δv j hj, oV_supp h.par hq w hj,
    map_sum T, map_sum U, ← sum_add_distrib, ← sum_add_distrib]
  apply sum_congr rfl
  intro i _
  simp only [LinearMap.comp_apply, LinearMap.add_apply, crossLin_apply, map_add]
  abel

/-- the same with additional terms -/
theorem acc_sum' {M : Type*} [AddCommGroup M] [Module K M] (h : s.Packed) {q v a : ℕ → K} (hq : s.At q) {j : ℕ}
    (hj : j < s.n) (T Q U : Motion K →ₗ[K] M) {X Y W : ℕ → M}
    (hX : ∀ i, 1 ≤ i → i < s.n → ∀ k, k < s.jnv i → ∀ [Decidable (anc s.par i j)],
      X (s.iv i + k) = if anc s.par i j then T ((s.wA 0 q v a (s.par i)).cross (s.Jc q i k)
        + (s.oV q v (s.par i) - s.oV q v j).cross ((s.oV q v (s.par i)).cross (s.Jc q i k)))
        + Q ((s.oV q v (s.par i)).cross (s.Jc q i k)) + U (s.Jc q i k) else 0)
    (hY : ∀ i, 1 ≤ i → i < s.n → ∀ k, k < s.jnv i → ∀ [Decidable (anc s.par i j)],
      Y (s.iv i + k) = if anc s.par i j then T ((s.oV q v (s.par i) - s.oV q v j).cross (s.Jc q i k)
        + (s.oV q v i).cross (s.Jc q i k)) + Q (s.Jc q i k) else 0)
    (hW : ∀ i, 1 ≤ i → i < s.n → ∀ k, k < s.jnv i → ∀ [Decidable (anc s.par i j)],
      W (s.iv i + k) = if anc s.par i j then T (s.Jc q i k) else 0) (w δv δa : ℕ → K) :
    ∑ c ∈ range s.nv, (w c • X c + δv c • Y c + δa c • W c)
      = T (s.hA 0 q w v δv a δa j - (s.oV q v j).cross (s.eV q w v δv j)) + Q (s.eV q w v δv j)
        + U (s.oV q w j) := by
  rw [sum_add_distrib, sum_add_distrib,
    cols_sum h (q := q) (j := j) (fun i => T ∘ₗ (crossLin (s.wA 0 q v a (s.par i))
      + crossLin (s.oV q v (s.par i) - s.oV q v j) ∘ₗ crossLin (s.oV q v (s.par i)))
      + Q ∘ₗ crossLin (s.oV q v (s.par i)) + U) hX,
    cols_sum h (q := q) (j := j) (fun i => T ∘ₗ (crossLin (s.oV q v (s.par i) - s.oV q v j)
      + crossLin (s.oV q v i)) + Q) hY,
    cols_sum h (q := q) (j := j) (fun _ => T) hW, Sys.hA_eq h.par 0 q w v δv a δa j hj,
    Sys.eV_eq h.par q w v δv j hj, oV_supp h.par hq w hj,
    ← crossLin_apply (s.oV q v j), map_sum (crossLin (s.oV q v j)),
    ← sum_sub_distrib, map_sum T, map_sum Q, map_sum U, ← sum_add_distrib, ← sum_add_distrib, ← sum_add_distrib,
    ← sum_add_distrib]
  apply sum_congr rfl
  intro i _
  simp only [LinearMap.comp_apply, LinearMap.add_apply, crossLin_apply]
  have e : ∀ (x y z : Motion K) (r1 r2 r3 : M), T x + r1 + r2 + (T y + r3) + T z = T (x + y + z) + (r1 + r3) + r2 := by
    intro x y z r1 r2 r3; simp only [map_add]; abel
  rw [e, map_add Q]
  refine congrArg₂ (· + ·) (congrArg₂ (· + ·) (congrArg T ?_) rfl) rfl
  simp only [Motion.sub_cross, Motion.cross_sub, Motion.cross_add]
  abel

/-- columns after the loops of `frames-derivatives.hxx` -/
theorem frameLoop_cols (h : s.Packed) (hf : s.Full) {q : ℕ → K} (hq : s.At q) {d : Data K} {j : ℕ}
    (hj : j < s.n) (hd : d.oMi j = s.oM q j) {P : SE3 K} (hP : P.Valid) (rf : RF) {X : ℕ → Motion K}
    {G : Motion K} {i k : ℕ} (h1 : 1 ≤ i) (hi : i < s.n) (hk : k < s.jnv i) [Decidable (anc s.par i j)]
    (hX : X (s.iv i + k) = if anc s.par i j then translateLin (s.oM q j) rf G else 0) :
    frameLoop s d j P rf X (s.iv i + k) = if anc s.par i j then translateLin (s.oM q j * P) rf G else 0 := by
  have hM := s.oM_valid h.par hq j hj
  have key : frameLoop s d j P rf X (s.iv i + k)
      = if anc s.par i j then frameCol (s.oM q j) P (X (s.iv i + k)) rf else X (s.iv i + k) := by
    cases rf
    · simp only [frameLoop, frameCol, ite_self]
    · simp only [frameLoop, hd]
      exact rowLoop_support h hf (fun _ m => frameCol (s.oM q j) P m .LOCAL) hj X h1 hi hk
    · simp only [frameLoop, hd]
      exact rowLoop_support h hf (fun _ m => frameCol (s.oM q j) P m .LOCAL_WORLD_ALIGNED) hj X h1 hi hk
  rw [key, hX]
  by_cases ha : anc s.par i j
  · rw [if_pos ha, if_pos ha, if_pos ha]
    exact frameCol_translate hM hP G rf
  · rw [if_neg ha, if_neg ha, if_neg ha]

/-! ## points -/

/-- linear part in a frame -/
def linIn (M : SE3 K) : Motion K →ₗ[K] V3 K where
  toFun m := (M.actInv m).lin
  map_add' a b := by rw [SE3.actInv_add]; rfl
  map_smul' c a := by rw [SE3.actInv_smul]; rfl

/-- `v.angular × lin - v.linear × ang` in a frame -/
def wxv (M : SE3 K) (v : Motion K) : Motion K →ₗ[K] V3 K where
  toFun m := v.ang.cross (M.actInv m).lin - v.lin.cross (M.actInv m).ang
  map_add' a b := by rw [SE3.actInv_add]; ext <;> simp <;> ring
  map_smul' c a := by rw [SE3.actInv_smul]; ext <;> simp <;> ring

/-- `ang × c` in a frame -/
def angX (M : SE3 K) (c : V3 K) : Motion K →ₗ[K] V3 K where
  toFun m := (M.actInv m).ang.cross c
  map_add' a b := by rw [SE3.actInv_add]; ext <;> simp <;> ring
  map_smul' c a := by rw [SE3.actInv_smul]; ext <;> simp <;> ring

/-- a rotation -/
def rotLin (R : M3 K) : V3 K →ₗ[K] V3 K where
  toFun x := R.mulVec x
  map_add' a b := M3.mulVec_add ..
  map_smul' c a := by ext <;> simp [M3.mulVec] <;> ring

theorem cross_lin_eq (x y : Motion K) : x.ang.cross y.lin + x.lin.cross y.ang = (x.cross y).lin := by
  ext <;> simp [Motion.cross] <;> ring

/-- columns of `getPointVelocityDerivatives` -/
theorem pointVel_cols (h : s.Packed) {q v : ℕ → K} (hq : s.At q) {d : Data K} (hd : TvOk s q v s.n d) {j : ℕ}
    (hj : j < s.n) {O : SE3 K} (hO : O.Valid) (vp : Motion K) (lwa : Bool)
    {x : (ℕ → V3 K) × (ℕ → V3 K)} (hx : ∀ c, x.1 c = 0 ∧ x.2 c = 0) {i k : ℕ}
    (h1 : 1 ≤ i) (hi : i < s.n) (hk : k < s.jnv i) [Decidable (anc s.par i j)] :
    let T := if lwa then rotLin O.rot ∘ₗ linIn O else linIn O
    let U := if lwa then rotLin O.rot ∘ₗ angX O vp.lin else 0
    let r := upLoop s.par (pointVelDerStep s d O vp lwa) s.n j x
    r.1 (s.iv i + k)
      = (if anc s.par i j then T ((s.oV q v (s.par i)).cross (s.Jc q i k)) + U (s.Jc q i k) else 0) ∧
    r.2 (s.iv i + k) = (if anc s.par i j then T (s.Jc q i k) else 0) := by
  intro T U r
  have key := upLoop_cols h (step := pointVelDerStep s d O vp lwa)
    (fun (x : (ℕ → V3 K) × (ℕ → V3 K)) c => (x.1 c, x.2 c))
    (fun i k _ => (T ((s.oV q v (s.par i)).cross (s.Jc q i k)) + U (s.Jc q i k), T (s.Jc q i k)))
    (by
      intro i h1 hi x k hk
      have hpi := h.par.2 i h1 hi
      have eJ := hd.J i h1 hi k hk
      have e0 : (if s.par i > 0 then putSeg x.1 (s.iv i) (s.jnv i) (fun k =>
            (O.actInv (d.ov (s.par i))).ang.cross (O.actInv (d.J (s.iv i + k))).lin
            + (O.actInv (d.ov (s.par i))).lin.cross (O.actInv (d.J (s.iv i + k))).ang)
          else putSeg x.1 (s.iv i) (s.jnv i) (fun _ => 0)) (s.iv i + k)
          = linIn O ((s.oV q v (s.par i)).cross (s.Jc q i k)) := by
        split
        · rename_i hz
          rw [putSeg_at _ _ hk, cross_lin_eq, eJ, hd.ov _ hz (by omega), ← Motion.actInv_cross hO]
          rfl
        · have e0 : s.par i = 0 := by omega
          rw [putSeg_at _ _ hk, e0, oV_zero', Motion.zero_cross, map_zero]
      cases lwa
      · simp only [pointVelDerStep, Bool.false_eq_true, if_false, putSeg_at _ _ hk, T, U]
        rw [e0, eJ]
        refine Prod.ext ?_ rfl
        dsimp only
        rw [LinearMap.zero_apply, add_zero]
      · simp only [pointVelDerStep, if_true, putSeg_at _ _ hk, T, U]
        rw [e0, eJ]
        refine Prod.ext ?_ rfl
        dsimp only
        exact (rotLin O.rot).map_add _ _)
    (by
      intro i h1 hi x c hc
      refine Prod.ext ?_ ?_
      · cases lwa
        · simp only [pointVelDerStep, Bool.false_eq_true, if_false]; split <;> rw [putSeg_out _ _ hc]
        · simp only [pointVelDerStep, if_true, putSeg_out _ _ hc]; split <;> rw [putSeg_out _ _ hc]
      · cases lwa
        · simp only [pointVelDerStep, Bool.false_eq_true, if_false, putSeg_out _ _ hc]
        · simp only [pointVelDerStep, if_true, putSeg_out _ _ hc])
    (fuel := s.n) j (by omega) hj x i k h1 hi hk
  rw [(hx _).1, (hx _).2] at key
  have e1 := congrArg Prod.fst key
  have e2 := congrArg Prod.snd key
  dsimp only at e1 e2
  simp only [r]
  rw [e1, e2]
  by_cases ha : anc s.par i j
  · rw [if_pos ha, if_pos ha, if_pos ha]
    exact ⟨rfl, rfl⟩
  · rw [if_neg ha, if_neg ha, if_neg ha]; exact ⟨rfl, rfl⟩

theorem rot_tr_lin (O : SE3 K) (m : Motion K) : O.rot.tr.mulVec (m.lin + m.ang.cross O.trans) = linIn O m := by
  change _ = (O.actInv m).lin
  unfold SE3.actInv
  congr 1
  ext <;> simp <;> ring

/-- columns of `getPointClassicAccelerationDerivatives` -/
theorem pointAcc_cols (h : s.Packed) {q v a : ℕ → K} (hq : s.At q) {d : Data K} (hd : FkdOk s q v a s.n d) {j : ℕ}
    (hj : j < s.n) {O : SE3 K} (hO : O.Valid) {vp : Motion K} (hvp : vp = O.actInv (s.oV q v j)) (ap : V3 K)
    (lwa : Bool) {i k : ℕ} (h1 : 1 ≤ i) (hi : i < s.n) (hk : k < s.jnv i) [Decidable (anc s.par i j)] :
    let P := s.oV q v (s.par i)
    let J := s.Jc q i k
    let R : V3 K →ₗ[K] V3 K := if lwa then rotLin O.rot else LinearMap.id
    let T := R ∘ₗ linIn O
    let Q := R ∘ₗ wxv O vp
    let U := if lwa then rotLin O.rot ∘ₗ angX O vp.lin else 0
    let U' := if lwa then rotLin O.rot ∘ₗ angX O ap else 0
    let r := upLoop s.par (pointAccDerStep s d O vp ap lwa) s.n j PtAccDer.zero
    r.v_dq (s.iv i + k) = (if anc s.par i j then T (P.cross J) + U J else 0) ∧
    r.a_dq (s.iv i + k) = (if anc s.par i j then T ((s.wA 0 q v a (s.par i)).cross J
        + (P - s.oV q v j).cross (P.cross J)) + Q (P.cross J) + U' J else 0) ∧
    r.a_dv (s.iv i + k) = (if anc s.par i j then T ((P - s.oV q v j).cross J + (s.oV q v i).cross J)
        + Q J else 0) ∧
    r.a_da (s.iv i + k) = (if anc s.par i j then T J else 0) := by
  intro P J R T Q U U' r
  have key := upLoop_cols h (step := pointAccDerStep s d O vp ap lwa)
    (fun (x : PtAccDer K) c => (x.v_dq c, x.a_dq c, x.a_dv c, x.a_da c))
    (fun i k _ =>
      let P := s.oV q v (s.par i)
      let J := s.Jc q i k
      (T (P.cross J) + U J, T ((s.wA 0 q v a (s.par i)).cross J
        + (P - s.oV q v j).cross (P.cross J)) + Q (P.cross J) + U' J,
       T ((P - s.oV q v j).cross J + (s.oV q v i).cross J) + Q J, T J))
    (by
      intro i h1 hi x k hk
      have hpi := h.par.2 i h1 hi
      have eJ := hd.J i h1 hi k hk
      have edJ := hd.dJ i h1 hi k hk
      dsimp only
      by_cases hz : s.par i > 0
      · have ev := hd.ov _ hz (show s.par i < s.n by omega)
        have ea := hd.oa _ hz (show s.par i < s.n by omega)
        cases lwa
        · simp only [pointAccDerStep, hz, if_true, Bool.false_eq_true, if_false, putSeg_at _ _ hk, eJ, edJ, ev, ea,
            T, Q, U, U', R, cross_lin_eq, rot_tr_lin]
          simp only [hvp, ← SE3.actInv_sub, ← Motion.actInv_cross hO, LinearMap.zero_apply, add_zero, LinearMap.comp_apply,
            LinearMap.id_apply, map_add]
          rfl
        · simp only [pointAccDerStep, hz, if_true, putSeg_at _ _ hk, eJ, edJ, ev, ea,
            T, Q, U, U', R, cross_lin_eq, rot_tr_lin]
          simp only [hvp, ← SE3.actInv_sub, ← Motion.actInv_cross hO, LinearMap.comp_apply, ← map_add (rotLin O.rot)]
          simp only [map_add (linIn O)]
          rfl
      · have e0 : s.par i = 0 := by omega
        cases lwa
        · simp only [pointAccDerStep, hz, Bool.false_eq_true, if_false, putSeg_at _ _ hk, eJ, edJ,
            T, Q, U, U', R, cross_lin_eq, rot_tr_lin]
          rw [e0, oV_zero', wA_zero']
          simp only [hvp, ← SE3.actInv_neg, ← Motion.actInv_cross hO, LinearMap.zero_apply, add_zero, LinearMap.comp_apply,
            LinearMap.id_apply, map_add, Motion.zero_cross, Motion.cross_zero, map_zero, zero_sub]
          rfl
        · simp only [pointAccDerStep, hz, if_true, if_false, putSeg_at _ _ hk, eJ, edJ,
            T, Q, U, U', R, cross_lin_eq, rot_tr_lin]
          rw [e0, oV_zero', wA_zero']
          simp only [hvp, ← SE3.actInv_neg, ← Motion.actInv_cross hO, LinearMap.comp_apply, ← map_add (rotLin O.rot),
            Motion.zero_cross, Motion.cross_zero, map_zero, zero_sub, zero_add]
          simp only [map_add (linIn O)]
          rfl)
    (by
      intro i h1 hi x c hc
      cases lwa
      · simp only [pointAccDerStep, Bool.false_eq_true, if_false]; split <;> simp only [putSeg_out _ _ hc]
      · simp only [pointAccDerStep, if_true]; split <;> simp only [putSeg_out _ _ hc])
    (fuel := s.n) j (by omega) hj PtAccDer.zero i k h1 hi hk
  have e1 := congrArg Prod.fst key
  have e2 := congrArg (fun x => x.2.1) key
  have e3 := congrArg (fun x => x.2.2.1) key
  have e4 := congrArg (fun x => x.2.2.2) key
  dsimp only at e1 e2 e3 e4
  simp only [r]
  rw [e1, e2, e3, e4]
  by_cases ha : anc s.par i j
  · simp only [if_pos ha]; exact ⟨rfl, rfl, rfl, rfl⟩
  · simp only [if_neg ha]; exact ⟨rfl, rfl, rfl, rfl⟩

end Pin
