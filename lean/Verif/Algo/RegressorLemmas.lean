import Verif.Algo.Regressor
import Verif.Algo.JacobianLemmas
import Verif.Algo.Passes
import Verif.Joint.Composite
import Verif.Algo.EnergyLemmas

/-! # Lemmas on the regressors -/

set_option linter.unusedSectionVars false
set_option linter.unusedSimpArgs false

namespace Pin
open Finset
variable {K : Type*}

section ring
variable [CommRing K] {s : Sys K}

theorem Sys.V_unit_zero (h : s.Packed) (q : ℕ → K) {a k : ℕ} (a1 : 1 ≤ a) (ha : a < s.n) (hk : k < s.jnv a) :
    ∀ i, i < s.n → ¬ anc s.par a i → s.V q (Sys.unit (s.iv a + k)) i = 0 := by
  intro i hi; refine s.joint_ind h.par ?_ ?_ i hi <;> clear hi i
  · intro _; exact s.V_zero ..
  · intro i h1 hi ih hn
    have hpi := h.par.2 i h1 hi
    rw [anc_step h1 hpi, not_or] at hn
    rw [s.V_step h1 hpi, ih hn.2, Sys.jvel_unit h q a1 ha hk h1 hi, if_neg (fun e => hn.1 e.symm)]
    simp

/-- the forward step computes what `rnea`'s does -/
theorem jtrFwd_ok (hp : ParOk s.par s.n) {q : ℕ → K} (hq : s.At q) (v a : ℕ → K) (d : Data K)
    (h0 : d.a_gf 0 = -s.grav) :
    (∀ i, 1 ≤ i → i < s.n → (fwd (jtrFwd s q v a) s.n d).liMi i = s.X q i ∧
      ((fwd (jtrFwd s q v a) s.n d).joints i).S = s.S q i) ∧
    (∀ i, i < s.n → (fwd (jtrFwd s q v a) s.n d).a_gf i = s.A (-s.grav) q v a i) ∧
    ∀ i, 1 ≤ i → i < s.n → (fwd (jtrFwd s q v a) s.n d).v i = s.V q v i := by
  have key := fwd_ind (step := jtrFwd s q v a) (n := s.n) (d := d)
    (P := fun k (d : Data K) => ∃ e : Data K, NE s q v a (fun i => s.F (-s.grav) q v a i) k e ∧
      d.joints = e.joints ∧ d.liMi = e.liMi ∧ d.v = e.v ∧ d.a_gf = e.a_gf) hp.1
    ⟨d, NE.zero q v a _ h0, rfl, rfl, rfl, rfl⟩
    (by
      rintro i d h1 hi ⟨e, hNE, e1, e2, e3, e4⟩
      refine ⟨rneaFwd s q v a i e, ?_, ?_⟩
      · refine hNE.step hp hq h1 hi 0 ?_ ?_
        · rw [rneaFwd_f_val hp hq h1 hi hNE, sub_zero]
        · rw [sub_zero, upd, Function.update_eq_self]
      · unfold jtrFwd rneaFwd
        simp only [e1, e2, e3, e4]
        by_cases hc : s.par i > 0 <;> simp only [hc, if_true, if_false, e1, e2, e3, e4, and_self])
  obtain ⟨e, hNE, e1, e2, e3, e4⟩ := key
  rw [e1, e2, e3, e4]
  exact ⟨hNE.li, hNE.a, hNE.v⟩

theorem putBlock_in {α : Type*} (A : ℕ → ℕ → α) {i j m n r c : ℕ} (B : ℕ → ℕ → α) (hr : i ≤ r ∧ r < i + m)
    (hc : j ≤ c ∧ c < j + n) : putBlock A i j m n B r c = B (r - i) (c - j) := if_pos ⟨hr, hc⟩
theorem putBlock_out {α : Type*} (A : ℕ → ℕ → α) {i j m n r c : ℕ} (B : ℕ → ℕ → α)
    (h : ¬ ((i ≤ r ∧ r < i + m) ∧ (j ≤ c ∧ c < j + n))) : putBlock A i j m n B r c = A r c := if_neg h

theorem jtrBwd_d (col i : ℕ) (x : RegData K) : (jtrBwd s col i x).d = x.d := by
  unfold jtrBwd; dsimp only; split <;> rfl
theorem jtrBwd_J (col i : ℕ) (x : RegData K) : (jtrBwd s col i x).jointTorqueRegressor
    = putBlock x.jointTorqueRegressor (s.iv i) (10 * (col - 1)) (s.jnv i) 10
      (fun r c => ((x.d.joints i).S r).dot (x.bodyRegressor c)) := by
  unfold jtrBwd; dsimp only; split <;> rfl
theorem jtrBwd_B (col i : ℕ) (x : RegData K) : (jtrBwd s col i x).bodyRegressor
    = if s.par i > 0 then putSeg x.bodyRegressor 0 10 (fun c => (x.d.liMi i).actF (x.bodyRegressor c))
      else x.bodyRegressor := by
  unfold jtrBwd; dsimp only; split <;> rfl

theorem upLoop_jtr (h : s.Packed) {q : ℕ → K} {col : ℕ} {fuel : ℕ} :
    ∀ i, i ≤ fuel → i < s.n → ∀ x : RegData K,
      (∀ j, 1 ≤ j → j < s.n → x.d.liMi j = s.X q j ∧ (x.d.joints j).S = s.S q j) →
      (upLoop s.par (jtrBwd s col) fuel i x).d = x.d ∧
      ∀ a k c, 1 ≤ a → a < s.n → k < s.jnv a →
      ∀ [Decidable (anc s.par a i ∧ (10 * (col - 1) ≤ c ∧ c < 10 * (col - 1) + 10))],
      (upLoop s.par (jtrBwd s col) fuel i x).jointTorqueRegressor (s.iv a + k) c
        = if anc s.par a i ∧ (10 * (col - 1) ≤ c ∧ c < 10 * (col - 1) + 10)
          then (s.V q (Sys.unit (s.iv a + k)) i).dot (x.bodyRegressor (c - 10 * (col - 1)))
          else x.jointTorqueRegressor (s.iv a + k) c := by
  induction fuel with
  | zero =>
    intro i hi _ x _
    have : i = 0 := by omega
    subst this
    refine ⟨rfl, fun a k c a1 _ _ _ => ?_⟩
    rw [if_neg (by rw [anc_zero]; omega)]; rfl
  | succ f ih =>
    intro i hi hin x hx
    unfold upLoop
    rcases Nat.eq_zero_or_pos i with rfl | i1
    · rw [if_neg (by omega)]
      refine ⟨rfl, fun a k c a1 _ _ _ => ?_⟩
      rw [if_neg (by rw [anc_zero]; omega)]
    · have hpi := h.par.2 i i1 hin
      rw [if_pos i1]
      obtain ⟨ih1, ih2⟩ := ih (s.par i) (by omega) (by omega) (jtrBwd s col i x)
        (by rw [jtrBwd_d]; exact hx)
      refine ⟨by rw [ih1, jtrBwd_d], fun a k c a1 ha hk _ => ?_⟩
      classical
      rw [ih2 a k c a1 ha hk, jtrBwd_J, jtrBwd_B]
      have hs := anc_step (i := a) i1 hpi
      by_cases hcol : 10 * (col - 1) ≤ c ∧ c < 10 * (col - 1) + 10
      · by_cases e : a = i
        · subst e
          have hno : ¬ anc s.par a (s.par a) := by
            intro hc; have := anc_le h.par _ (by omega) hc; omega
          rw [if_neg (fun hh => hno hh.1), if_pos ⟨hs.2 (Or.inl rfl), hcol⟩,
            putBlock_in _ _ (by omega) hcol, (hx a a1 ha).2, Nat.add_sub_cancel_left, s.V_step a1 hpi,
            Sys.V_unit_zero h q a1 ha hk _ (by omega) hno, Sys.jvel_unit h q a1 ha hk a1 ha, if_pos rfl]
          simp
        · rw [putBlock_out]
          · by_cases hc : anc s.par a (s.par i)
            · have hp0 : s.par i > 0 := by
                have := anc_le h.par _ (by omega) hc; omega
              rw [if_pos ⟨hc, hcol⟩, if_pos hp0, if_pos ⟨hs.2 (Or.inr hc), hcol⟩, putSeg_in _ _ (by omega),
                s.V_step i1 hpi, Sys.jvel_unit h q a1 ha hk i1 hin, if_neg (fun e' => e e'.symm), zero_add,
                SE3.dot_actInv, (hx i i1 hin).1, Nat.sub_zero]
            · rw [if_neg (fun hh => hc hh.1), if_neg]
              intro h'
              rcases hs.1 h'.1 with h' | h'
              · exact e h'
              · exact hc h'
          · intro hh
            have := (h.inj (k := k) (l := s.iv a + k - s.iv i) a1 ha i1 hin hk (by omega) (by omega)).1
            exact e this
      · rw [if_neg (fun hh => hcol hh.2), if_neg (fun hh => hcol hh.2), putBlock_out _ _ (fun hh => hcol hh.2)]

/-- entries of the joint torque regressor -/
theorem jtr_entries (h : s.Packed) {q : ℕ → K} (hq : s.At q) (x : RegData K) (v a : ℕ → K) {r i c : ℕ}
    (hr : r < s.nv) (h1 : 1 ≤ i) (hi : i < s.n) (hc : c < 10) :
    (computeJointTorqueRegressor s x q v a).jointTorqueRegressor r (10 * (i - 1) + c)
      = (s.V q (Sys.unit r) i).dot (bodyReg (s.V q v i) (s.A (-s.grav) q v a i) c) := by
  unfold computeJointTorqueRegressor
  dsimp only
  obtain ⟨hli, hA, hV⟩ := jtrFwd_ok h.par hq v a { x.d with v := upd x.d.v 0 0, a_gf := upd x.d.a_gf 0 (-s.grav) }
    (upd_self x.d.a_gf 0 _)
  generalize fwd (jtrFwd s q v a) s.n { x.d with v := upd x.d.v 0 0, a_gf := upd x.d.a_gf 0 (-s.grav) } = d at hli hA hV
  have key := bwd_ind (step := fun i x => upLoop s.par (jtrBwd s i) s.n i (jointBodyRegressor x i)) (n := s.n)
    (d := ({ x with d := d, jointTorqueRegressor := fun _ _ => 0 } : RegData K))
    (P := fun k (y : RegData K) => y.d = d ∧ ∀ i c, 1 ≤ i → i < s.n → c < 10 → ∀ b l, 1 ≤ b → b < s.n → l < s.jnv b →
      y.jointTorqueRegressor (s.iv b + l) (10 * (i - 1) + c) = if k ≤ i then
        (s.V q (Sys.unit (s.iv b + l)) i).dot (bodyReg (s.V q v i) (s.A (-s.grav) q v a i) c) else 0) h.par.1
    ⟨rfl, fun i c _ hi _ b l _ _ _ => by rw [if_neg (by omega)]⟩
    (by
      rintro i y h1 hi ⟨hd, ih⟩
      have hd' : (jointBodyRegressor y i).d = d := hd
      obtain ⟨e1, e2⟩ := upLoop_jtr h (q := q) (col := i) (fuel := s.n) i (by omega) hi (jointBodyRegressor y i)
        (by rw [hd']; exact hli)
      refine ⟨by rw [e1, hd'], fun j c j1 hj hc b l b1 hb hl => ?_⟩
      classical
      rw [e2 b l _ b1 hb hl]
      by_cases ej : j = i
      · subst ej
        rw [if_pos le_rfl]
        by_cases ha : anc s.par b j
        · rw [if_pos ⟨ha, by omega⟩, Nat.add_sub_cancel_left]
          change (Sys.V s q (Sys.unit (s.iv b + l)) j).dot
            (putSeg y.bodyRegressor 0 10 (bodyReg (y.d.v j) (y.d.a_gf j)) c) = _
          rw [putSeg_in _ _ (by omega), Nat.sub_zero, hd, hV j j1 hj, hA j hj]
        · rw [if_neg (fun hh => ha hh.1), Sys.V_unit_zero h q b1 hb hl j hj ha]
          change y.jointTorqueRegressor _ _ = _
          rw [ih j c j1 hj hc b l b1 hb hl, if_neg (by omega)]; simp
      · rw [if_neg (by omega)]
        change y.jointTorqueRegressor _ _ = _
        rw [ih j c j1 hj hc b l b1 hb hl]
        by_cases hk : i ≤ j
        · rw [if_pos hk, if_pos (by omega)]
        · rw [if_neg hk, if_neg (by omega)])
  obtain ⟨b, l, b1, hb, hl, rfl⟩ := h.cover hr
  rw [key.2 i c h1 hi hc b l b1 hb hl, if_pos h1]

/-- a row of blocks of width `w` -/
theorem fwd_putSeg {α : Type*} {n : ℕ} (hn : 1 ≤ n) (w : ℕ) {z : ℕ → ℕ} (hz : ∀ i, z i = w * (i - 1)) {m : ℕ} (hm : m ≤ w)
    (f : ℕ → ℕ → α) (R : ℕ → α) {i c : ℕ} (h1 : 1 ≤ i) (hi : i < n) (hc : c < w) :
    fwd (fun i R => putSeg R (z i) m (f i)) n R (w * (i - 1) + c)
      = if c < m then f i c else R (w * (i - 1) + c) := by
  have key := fwd_ind (step := fun i R => putSeg R (z i) m (f i)) (n := n) (d := R)
    (P := fun k y => ∀ i c, 1 ≤ i → c < w → y (w * (i - 1) + c) = if i < k ∧ c < m then f i c else R (w * (i - 1) + c)) hn
    (fun i c h1 _ => by rw [if_neg (by omega)])
    (by
      intro i y h1 hi ih j c j1 hc
      rw [hz]
      by_cases e : j = i
      · subst e
        by_cases hcm : c < m
        · rw [putSeg_in _ _ (by omega), if_pos (by omega), Nat.add_sub_cancel_left]
        · rw [putSeg_out _ _ (by omega), ih j c j1 hc, if_neg (by omega), if_neg (by omega)]
      · rw [putSeg_out, ih j c j1 hc]
        · by_cases hk : j < i ∧ c < m
          · rw [if_pos hk, if_pos (by omega)]
          · rw [if_neg hk, if_neg (by omega)]
        · rintro ⟨g1, g2⟩
          apply e
          have h3 : w * (j - 1) + c < w * (i - 1) + w := by omega
          have h4 : w * (i - 1) < w * (j - 1) + w := by omega
          have h5 : j - 1 < i - 1 + 1 := by
            by_contra hh
            have := Nat.mul_le_mul_left w (by omega : i - 1 + 1 ≤ j - 1)
            rw [Nat.mul_add] at this; omega
          have h6 : i - 1 < j - 1 + 1 := by
            by_contra hh
            have := Nat.mul_le_mul_left w (by omega : j - 1 + 1 ≤ i - 1)
            rw [Nat.mul_add] at this; omega
          omega)
  rw [key i c h1 hc]
  by_cases hcm : c < m
  · rw [if_pos ⟨hi, hcm⟩, if_pos hcm]
  · rw [if_neg (fun hh => hcm hh.2), if_neg hcm]

/-- a sum over the columns, block by block -/
theorem sum_blocks {α : Type*} [AddCommMonoid α] (w n : ℕ) (f : ℕ → α) :
    ∑ c ∈ range (w * (n - 1)), f c = ∑ i ∈ Ico 1 n, ∑ c ∈ range w, f (w * (i - 1) + c) := by
  rw [Nat.mul_comm, Finset.sum_Ico_eq_sum_range]
  induction (n - 1) with
  | zero => simp
  | succ m ih =>
    rw [Nat.succ_mul, sum_range_add, ih, sum_range_succ]
    congr 1
    apply sum_congr rfl
    intro c _
    congr 1
    rw [Nat.add_sub_cancel_left, Nat.mul_comm]
end ring

section field
variable [Field K]

/-- The body regressor applied to the dynamic parameters of an inertia is `Y a + v ×* Y v`. -/
theorem bodyReg_mul (Y : Inertia K) (v a : Motion K) :
    ∑ c : Fin 10, Y.toDyn.get c • bodyReg v a c = Y.mul a + v.crossF (Y.mul v) := by
  simp only [Fin.sum_univ_succ, Fin.sum_univ_zero]
  ext <;> simp [bodyReg, V10.get, Inertia.toDyn, Sym3.subAlphaSkewSquare, M3.col, crossBigL, bigL, Inertia.mul,
    Motion.crossF, Sym3.skewSquare, Sym3.matrix, M3.skew, Sym3.mulVec]
  all_goals ring

theorem Motion.dot_fin_sum {ι : Type*} (t : Finset ι) (v : Motion K) (c : ι → K) (g : ι → Force K) :
    ∑ i ∈ t, v.dot (g i) * c i = v.dot (∑ i ∈ t, c i • g i) := by
  rw [Motion.dot_sum]
  exact sum_congr rfl fun i _ => by rw [Motion.dot_smul, mul_comm]

theorem kinEntries_mul (h2 : (2 : K) ≠ 0) (Y : Inertia K) (v : Motion K) :
    ∑ c : Fin 10, kinEntries v c * Y.toDyn.get c = 1 / 2 * v.dot (Y.mul v) := by
  simp only [Fin.sum_univ_succ, Fin.sum_univ_zero]
  simp [kinEntries, V10.get, Inertia.toDyn, Sym3.subAlphaSkewSquare, Inertia.mul, Sym3.mulVec, Motion.dot, V3.dot]
  field_simp
  ring

theorem potEntries_mul (Y : Inertia K) (O : SE3 K) (g : V3 K) :
    ∑ c : Fin 10, (if (c : ℕ) < 4 then potEntries O (-g) c else 0) * Y.toDyn.get c
      = - (Y.mass * (O.actP Y.lever).dot g) := by
  simp only [Fin.sum_univ_succ, Fin.sum_univ_zero]
  simp [potEntries, V10.get, Inertia.toDyn, Sym3.subAlphaSkewSquare, V3.dot, SE3.actP, M3.mulVec, M3.tr]
  ring
end field

/-! ## kinematic regressor -/
section kin
open DualNumber TrivSqZeroExt
variable [CommRing K] {s : Sys K}

theorem upLoop_kin (hp : ParOk s.par s.n) {f : ℕ → ℕ → Motion K} {g : ℕ → (ℕ → Motion K) → ℕ → Motion K}
    (hg : ∀ i R, 1 ≤ i → i < s.n → g i R = putSeg R (6 * (i - 1)) 6 (f i)) {fuel : ℕ} :
    ∀ j, j ≤ fuel → j < s.n → ∀ R a k, 1 ≤ a → k < 6 → ∀ [Decidable (anc s.par a j)],
      upLoop s.par g fuel j R (6 * (a - 1) + k) = if anc s.par a j then f a k else R (6 * (a - 1) + k) := by
  induction fuel with
  | zero =>
    intro j hj _ R a k a1 _ _
    have : j = 0 := by omega
    subst this
    rw [if_neg (by rw [anc_zero]; omega)]; rfl
  | succ m ih =>
    intro j hj hjn R a k a1 hk _
    unfold upLoop
    rcases Nat.eq_zero_or_pos j with rfl | j1
    · rw [if_neg (by omega), if_neg (by rw [anc_zero]; omega)]
    · have hpj := hp.2 j j1 hjn
      classical
      rw [if_pos j1, ih _ (by omega) (by omega) _ a k a1 hk, hg _ _ j1 hjn]
      have hs := anc_step (i := a) j1 hpj
      by_cases e : a = j
      · subst e
        have hno : ¬ anc s.par a (s.par a) := by
          intro hc; have := anc_le hp _ (by omega) hc; omega
        rw [if_neg hno, if_pos (hs.2 (Or.inl rfl)), putSeg_in _ _ (by omega), Nat.add_sub_cancel_left]
      · rw [putSeg_out _ _ (by omega)]
        by_cases hc : anc s.par a (s.par j)
        · rw [if_pos hc, if_pos (hs.2 (Or.inr hc))]
        · rw [if_neg hc, if_neg]
          intro h'
          rcases hs.1 h' with h' | h'
          · exact e h'
          · exact hc h'

theorem actInvSE3_inv (A B : SE3 K) : A.actInvSE3 B = A.inv * B := by
  ext1
  · rfl
  · simp only [SE3.actInvSE3, SE3.inv, SE3.mul_trans, M3.mulVec_sub]; abel

/-- entry `c` of a motion vector, linear part first -/
def Motion.get (m : Motion K) : ℕ → K
  | 0 => m.lin.x | 1 => m.lin.y | 2 => m.lin.z | 3 => m.ang.x | 4 => m.ang.y | _ => m.ang.z

theorem M6.sum_col (A : M6 K) (m : Motion K) : ∑ c ∈ range 6, m.get c • A.col c = A.mulMM m := by
  simp only [sum_range_succ, sum_range_zero]
  ext <;> simp [Motion.get, M6.col, M3.col, M6.mulMM] <;> ring

/-- the placement of joint `j` moves with this velocity, in the world frame, when the placements of the joints move
with velocities `ξ` -/
noncomputable def Sys.plVel (s : Sys K) (q : ℕ → K) (ξ : ℕ → Motion K) (j : ℕ) : Motion K :=
  ∑ i ∈ supp s.par s.n j, (s.oM q (s.par i) * s.pl i).act (ξ i)

theorem Sys.plVel_step (hp : ParOk s.par s.n) (q : ℕ → K) (ξ : ℕ → Motion K) {j : ℕ} (h1 : 1 ≤ j) (hj : j < s.n) :
    s.plVel q ξ j = (s.oM q (s.par j) * s.pl j).act (ξ j) + s.plVel q ξ (s.par j) := by
  unfold Sys.plVel
  rw [supp_step hp h1 hj, sum_insert (not_mem_supp_par hp h1 hj)]

theorem plVel_moves (hp : ParOk s.par s.n) {q : ℕ → K} (hq : s.At q) {sε : Sys K[ε]} {qε : ℕ → K[ε]}
    {ξ : ℕ → Motion K} (hn : sε.par = s.par) (hpl : ∀ i, 1 ≤ i → i < s.n → (sε.pl i).Moves (s.pl i) (ξ i))
    (hj : ∀ i, 1 ≤ i → i < s.n → (sε.jt i).M (sε.qs qε i) = ((s.jt i).M (s.qs q i)).map inl) : ∀ j, j < s.n →
    (sε.oM qε j).Moves (s.oM q j) ((s.oM q j).actInv (s.plVel q ξ j)) := by
  intro j hjn; refine s.joint_ind hp ?_ ?_ j hjn <;> clear hjn j
  · rw [Sys.oM_zero, Sys.oM_zero]
    unfold Sys.plVel
    rw [supp_zero, sum_empty, SE3.actInv_zero]
    have : (1 : SE3 K[ε]) = (1 : SE3 K).map inl := by
      refine SE3.ext ?_ ?_ <;> ext <;> simp [SE3.map, M3.map, V3.map]
    rw [this]; exact SE3.Moves.const
  · intro i h1 hi ih
    have hpi := hp.2 i h1 hi
    have hM := (hq.jt i h1 hi).valid
    have hP := hq.pl i h1 hi
    have hO := s.oM_valid hp hq (s.par i) (by omega)
    rw [s.oM_step h1 hpi, sε.oM_step h1 (by rw [hn]; exact hpi), hn, Sys.plVel_step hp q ξ h1 hi]
    have e := ih.mul (((hpl i h1 hi).mul (SE3.Moves.const (X := (s.jt i).M (s.qs q i))) hM)) (hP.mul hM)
    unfold Sys.X
    rw [hj i h1 hi]
    convert e using 1
    rw [SE3.actInv_add, SE3.mul_actInv hO (hP.mul hM), SE3.mul_actInv hO (hP.mul hM), zero_add]
    congr 1
    rw [SE3.mul_actInv hP hM, SE3.mul_act hO, SE3.actInv_act hO, SE3.actInv_act hP]

end kin
end Pin
