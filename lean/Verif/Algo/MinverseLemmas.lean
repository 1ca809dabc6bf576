import Verif.Algo.Minverse
import Verif.Algo.AbaFrames

/-! # `computeMinverse` is the articulated body recursion, one column per unit torque -/

namespace Pin
open Finset
variable {K : Type*} [Field K] {s : Sys K}

/-- the recursion in the world frame without bias -/
def minP (s : Sys K) (J : ℕ → Motion K) : AbaP K where
  S i := seg J (s.iv i)
  Um _ := id
  Tf _ := id
  TM _ := id
  c _ := 0

/-- `u` of joint `i` for the unit torque `c` and the bias force `f` -/
def minU (s : Sys K) (J : ℕ → Motion K) (c i : ℕ) (f : Force K) (k : ℕ) : K :=
  Sys.unit c (s.iv i + k) - (J (s.iv i + k)).dot f

/-- the bias force handed over by joint `i` -/
def minT (s : Sys K) (J : ℕ → Motion K) (A : ℕ → M6 K) (c i : ℕ) (f : Force K) : Force K :=
  f + ∑ k ∈ range (s.jnv i), minU s J c i f k • udCol (s.jnv i) (seg J (s.iv i)) (seg s.arm (s.iv i)) (A i) k

theorem unit_ne (h : s.Packed) {i j k l : ℕ} (hi1 : 1 ≤ i) (hi : i < s.n) (hj1 : 1 ≤ j) (hj : j < s.n)
    (hk : k < s.jnv i) (hl : l < s.jnv j) (hij : i ≠ j) : (Sys.unit (s.iv j + l) (s.iv i + k) : K) = 0 := by
  unfold Sys.unit
  rw [if_neg]
  intro e
  first
    | exact hij (h.inj hi1 hi hj1 hj hk hl e).1
    | exact hij (h.inj hi1 hi hj1 hj hk hl e.symm).1

section col
variable (h : s.Packed) {J : ℕ → Motion K} {A : ℕ → M6 K} {j l : ℕ} {p : ℕ → Force K}
include h

theorem minT_zero (hj1 : 1 ≤ j) (hj : j < s.n) (hl : l < s.jnv j)
    (hp : IsAcc s.par s.n (minT s J A (s.iv j + l)) (fun _ => 0) p) :
    ∀ i, 1 ≤ i → i < s.n → ¬ anc s.par i j → p i = 0 ∧ minT s J A (s.iv j + l) i (p i) = 0 := by
  have key : ∀ m i, 1 ≤ i → i < s.n → s.n - i ≤ m → ¬ anc s.par i j →
      p i = 0 ∧ minT s J A (s.iv j + l) i (p i) = 0 := by
    intro m
    induction m with
    | zero => intro i _ hi hm; omega
    | succ m ih =>
      intro i h1 hi hm ha
      have hpi : p i = 0 := by
        rw [hp i h1 hi, zero_add]
        apply sum_eq_zero
        intro c hc
        have hic := kid_anc h.par hi hc
        obtain ⟨⟨c1, cn⟩, e⟩ := mem_kids.1 hc
        have := h.par.2 c c1 cn
        exact (ih c c1 cn (by omega) (fun hcj => ha (anc_trans h.par hic j hj hcj))).2
      refine ⟨hpi, ?_⟩
      rw [hpi]
      unfold minT
      rw [zero_add]
      apply sum_eq_zero
      intro k hk
      have hij : i ≠ j := by rintro rfl; exact ha (anc_refl h.par hi)
      unfold minU
      rw [unit_ne h h1 hi hj1 hj (mem_range.1 hk) hl hij, Motion.dot_zero, sub_zero, zero_smul]
  intro i h1 hi
  exact key _ i h1 hi le_rfl

theorem minT_self (hj1 : 1 ≤ j) (hj : j < s.n) (hl : l < s.jnv j)
    (hp : IsAcc s.par s.n (minT s J A (s.iv j + l)) (fun _ => 0) p) : p j = 0 := by
  rw [hp j hj1 hj, zero_add]
  apply sum_eq_zero
  intro c hc
  obtain ⟨⟨c1, cn⟩, e⟩ := mem_kids.1 hc
  have := h.par.2 c c1 cn
  refine (minT_zero h hj1 hj hl hp c c1 cn (fun ha => ?_)).2
  have := anc_le h.par j hj ha
  omega

theorem minT_kid (hj1 : 1 ≤ j) (hj : j < s.n) (hl : l < s.jnv j)
    (hp : IsAcc s.par s.n (minT s J A (s.iv j + l)) (fun _ => 0) p) {i c : ℕ} (h1 : 1 ≤ i) (hi : i < s.n)
    (hc : c ∈ kids s.par s.n i) (hcj : anc s.par c j) : p i = minT s J A (s.iv j + l) c (p c) := by
  rw [hp i h1 hi, zero_add]
  apply sum_eq_single_of_mem c hc
  intro c' hc' hne
  obtain ⟨⟨c1, cn⟩, e⟩ := mem_kids.1 hc
  obtain ⟨⟨c1', cn'⟩, e'⟩ := mem_kids.1 hc'
  have hpc := h.par.2 c c1 cn
  have hpc' := h.par.2 c' c1' cn'
  refine (minT_zero h hj1 hj hl hp c' c1' cn' (fun ha => ?_)).2
  rcases anc_total h.par j hj hcj ha with hx | hx
  · rcases (anc_step c1' hpc').1 hx with e1 | e1
    · exact hne e1.symm
    · have := anc_le h.par _ (by omega) e1; omega
  · rcases (anc_step c1 hpc).1 hx with e1 | e1
    · exact hne e1
    · have := anc_le h.par _ (by omega) e1; omega
end col

/-- jdata of joint `i` after the articulated recursion -/
structure JdOk (s : Sys K) (J : ℕ → Motion K) (A : ℕ → M6 K) (i : ℕ) (jd : JD K) : Prop where
  U : jd.U = fun k => (A i).mulMF (J (s.iv i + k))
  Dinv : jd.Dinv = invBlock (s.jnv i) (dMat (seg J (s.iv i)) (seg s.arm (s.iv i)) (A i))
  UDinv : jd.UDinv = udCol (s.jnv i) (seg J (s.iv i)) (seg s.arm (s.iv i)) (A i)

/-- state of `Minv` and `Fcrb[0]` in the backward pass -/
structure MinB (s : Sys K) (J : ℕ → Motion K) (A : ℕ → M6 K) (p : ℕ → ℕ → Force K) (k : ℕ)
    (Mi : ℕ → ℕ → K) (F : ℕ → Force K) : Prop where
  zero : ∀ j, 1 ≤ j → j < s.n → j < k → ∀ l < s.jnv j, F (s.iv j + l) = 0
  col : ∀ i, k ≤ i → i < s.n → 0 < s.par i → s.par i < k → ∀ j, j < s.n → anc s.par i j → ∀ l < s.jnv j,
    F (s.iv j + l) = minT s J A (s.iv j + l) i (p (s.iv j + l) i)
  row : ∀ i, k ≤ i → i < s.n → ∀ m < s.jnv i, ∀ j, i ≤ j → j < s.n → ∀ l < s.jnv j,
    Mi (s.iv i + m) (s.iv j + l) = ∑ m' ∈ range (s.jnv i),
      invBlock (s.jnv i) (dMat (seg J (s.iv i)) (seg s.arm (s.iv i)) (A i)) m m'
        * minU s J (s.iv j + l) i (p (s.iv j + l) i) m'
  rest : ∀ i, 1 ≤ i → i < k → i < s.n → ∀ m < s.jnv i, ∀ j, i < j → j < s.n → ∀ l < s.jnv j,
    Mi (s.iv i + m) (s.iv j + l) = 0

theorem minvRows_keep (i : ℕ) (d : Data K) :
    (minvRows s i d).joints = d.joints ∧ (minvRows s i d).J = d.J ∧ (minvRows s i d).oYaba = d.oYaba := by
  unfold minvRows
  by_cases h1 : s.nvSub i > s.jnv i
  · by_cases h2 : s.par i > 0
    · simp only [h1, h2, if_true]; exact ⟨trivial, trivial, trivial⟩
    · simp only [h1, h2, if_true, if_false]; exact ⟨trivial, trivial, trivial⟩
  · simp only [h1, if_false]; exact ⟨trivial, trivial, trivial⟩

theorem nvSub_self_le (h : s.Packed) {i : ℕ} (h1 : 1 ≤ i) (hi : i < s.n) : s.jnv i ≤ s.nvSub i := by
  obtain ⟨m, hlast, hm⟩ := lastChild_ok h.par i h1 hi
  have hmi := anc_le h.par m hm.1.1 hm.1.2
  have e : s.nvSub i = s.iv m + s.jnv m - s.iv i := by
    unfold Sys.nvSub; rw [hlast]; rfl
  rcases Nat.eq_or_lt_of_le hmi with rfl | hlt
  · omega
  · have := h.mono h1 hlt hm.1.1
    omega

theorem minvRows_ok (h : s.Packed) (hc : Compact s.par s.n) {J : ℕ → Motion K} {A : ℕ → M6 K}
    {p : ℕ → ℕ → Force K} {i : ℕ} (h1 : 1 ≤ i) (hi : i < s.n) (hA : (A i).IsSymm)
    (hp : ∀ j, 1 ≤ j → j < s.n → ∀ l < s.jnv j,
      IsAcc s.par s.n (minT s J A (s.iv j + l)) (fun _ => 0) (p (s.iv j + l)))
    {d : Data K} (hJ : d.J = J) (hjd : JdOk s J A i (d.joints i)) (ih : MinB s J A p (i + 1) d.Minv (d.Fcrb 0)) :
    MinB s J A p i (minvRows s i d).Minv ((minvRows s i d).Fcrb 0) := by
  have hpi := h.par.2 i h1 hi
  set D := invBlock (s.jnv i) (dMat (seg J (s.iv i)) (seg s.arm (s.iv i)) (A i)) with hD
  have hDs : ∀ a < s.jnv i, ∀ b < s.jnv i, D a b = D b a := fun a ha b hb =>
    invBlock_symm (fun _ _ _ _ => dMat_symm hA _ _) ha hb
  -- the old column of `Fcrb[0]`
  have hF : ∀ j, j < s.n → anc s.par i j → ∀ l < s.jnv j, d.Fcrb 0 (s.iv j + l) = p (s.iv j + l) i := by
    intro j hj ha l hl
    have hij := anc_le h.par j hj ha
    rcases anc_kid h.par h1 j hj ha with rfl | ⟨c, hck, hcj⟩
    · rw [ih.zero j h1 hi (by omega) l hl, minT_self h h1 hi hl (hp j h1 hi l hl)]
    · obtain ⟨⟨c1, cn⟩, e⟩ := mem_kids.1 hck
      have := h.par.2 c c1 cn
      rw [ih.col c (by omega) cn (by omega) (by omega) j hj hcj l hl]
      exact (minT_kid h (by omega) hj hl (hp j (by omega) hj l hl) h1 hi hck hcj).symm
  have hcolin : ∀ j, 1 ≤ j → j < s.n → ∀ l < s.jnv j,
      ((s.iv i ≤ s.iv j + l ∧ s.iv j + l < s.iv i + s.nvSub i) ↔ anc s.par i j) := fun j hj1 hj l hl =>
    h.nvSub_iff hc h1 hi hj1 hj hl
  have hself := nvSub_self_le h h1 hi
  have hrow : ∀ a m, 1 ≤ a → a < s.n → m < s.jnv a →
      ((s.iv i ≤ s.iv a + m ∧ s.iv a + m < s.iv i + s.jnv i) ↔ a = i) := by
    intro a m ha1 ha hm
    constructor
    · rintro ⟨x, y⟩
      exact (h.inj ha1 ha h1 hi hm (show s.iv a + m - s.iv i < s.jnv i by omega) (by omega)).1
    · rintro rfl; omega
  -- the value of the rows
  set u : ℕ → ℕ → K := fun m c => ∑ m' ∈ range (s.jnv i), D m m' * minU s J c i (p c i) m' with hu
  have hdiag : ∀ m < s.jnv i, ∀ l < s.jnv i, D m l = u m (s.iv i + l) := by
    intro m hm l hl
    simp only [hu]
    rw [sum_eq_single_of_mem l (mem_range.2 hl)]
    · unfold minU
      rw [minT_self h h1 hi hl (hp i h1 hi l hl), Motion.dot_zero]
      simp [Sys.unit]
    · intro b hb hne
      unfold minU
      rw [minT_self h h1 hi hl (hp i h1 hi l hl), Motion.dot_zero]
      simp [Sys.unit, hne, Ne.symm hne]
  have hoff : ∀ m < s.jnv i, ∀ j, j < s.n → anc s.par i j → j ≠ i → ∀ l < s.jnv j,
      -((∑ k ∈ range (s.jnv i), D k m • J (s.iv i + k)).dot (d.Fcrb 0 (s.iv j + l))) = u m (s.iv j + l) := by
    intro m hm j hj ha hne l hl
    have hij := anc_le h.par j hj ha
    simp only [hu]
    rw [hF j hj ha l hl, Motion.sum_dot, ← sum_neg_distrib]
    apply sum_congr rfl
    intro k hk
    have hk' := mem_range.1 hk
    unfold minU
    rw [Motion.smul_dot, hDs k hk' m hm, unit_ne h h1 hi (by omega) hj hk' hl (Ne.symm hne)]
    ring
  have hout : ∀ m < s.jnv i, ∀ j, i < j → j < s.n → ¬ anc s.par i j → ∀ l < s.jnv j, u m (s.iv j + l) = 0 := by
    intro m hm j hij hj ha l hl
    simp only [hu]
    apply sum_eq_zero
    intro k hk
    have hk' := mem_range.1 hk
    unfold minU
    rw [(minT_zero h (by omega) hj hl (hp j (by omega) hj l hl) i h1 hi ha).1, Motion.dot_zero,
      unit_ne h h1 hi (by omega) hj hk' hl (by omega)]
    ring
  -- what is added to the column
  have hadd : ∀ c, (∑ k ∈ range (s.jnv i), u k c • (d.joints i).U k) + p c i = minT s J A c i (p c i) := by
    intro c
    unfold minT
    rw [add_comm]
    congr 1
    rw [hjd.U]
    simp only [hu]
    simp only [sum_smul]
    rw [sum_comm]
    apply sum_congr rfl
    intro m hm
    unfold udCol
    rw [smul_sum]
    apply sum_congr rfl
    intro k hk
    rw [smul_smul, mul_comm]
    rfl
  have hMi : ∃ F' : ℕ → Force K, (minvRows s i d).Fcrb 0 = F' ∧
      (∀ c, ¬ (s.iv i ≤ c ∧ c < s.iv i + s.nvSub i) → F' c = d.Fcrb 0 c) ∧
      (0 < s.par i → ∀ j, j < s.n → anc s.par i j → ∀ l < s.jnv j,
        F' (s.iv j + l) = minT s J A (s.iv j + l) i (p (s.iv j + l) i)) ∧
      (∀ a m, 1 ≤ a → a < s.n → m < s.jnv a → a ≠ i → ∀ c, (minvRows s i d).Minv (s.iv a + m) c = d.Minv (s.iv a + m) c) ∧
      (∀ m < s.jnv i, ∀ j, i ≤ j → j < s.n → ∀ l < s.jnv j, (minvRows s i d).Minv (s.iv i + m) (s.iv j + l) = u m (s.iv j + l)) := by
    by_cases hch : s.nvSub i > s.jnv i
    · set M1 := putBlock d.Minv (s.iv i) (s.iv i) (s.jnv i) (s.jnv i) D with hM1
      set M2 := putBlock M1 (s.iv i) (s.iv i + s.jnv i) (s.jnv i) (s.nvSub i - s.jnv i)
        (fun r c => -((∑ k ∈ range (s.jnv i), D k r • J (s.iv i + k)).dot
          (d.Fcrb 0 (s.iv i + s.jnv i + c)))) with hM2
      have e1 : (minvRows s i d).Minv = M2 := by
        unfold minvRows
        by_cases hpos : s.par i > 0 <;>
          simp only [hch, hpos, if_true, if_false, hjd.Dinv, hJ, hM2, hM1, hD]
      have hother : ∀ a m, 1 ≤ a → a < s.n → m < s.jnv a → a ≠ i → ∀ c, M2 (s.iv a + m) c = d.Minv (s.iv a + m) c := by
        intro a m ha1 ha hm hne c
        have hr : ¬ (s.iv i ≤ s.iv a + m ∧ s.iv a + m < s.iv i + s.jnv i) := fun x => hne ((hrow a m ha1 ha hm).1 x)
        simp only [hM2, hM1, putBlock]
        rw [if_neg (fun x => hr x.1), if_neg (fun x => hr x.1)]
      have hrows : ∀ m < s.jnv i, ∀ j, i ≤ j → j < s.n → ∀ l < s.jnv j, M2 (s.iv i + m) (s.iv j + l) = u m (s.iv j + l) := by
        intro m hm j hij hj l hl
        simp only [hM2, hM1, putBlock]
        by_cases hji : j = i
        · subst hji
          rw [if_neg (by omega), if_pos (by omega), ← hdiag m hm l hl]
          congr 1 <;> omega
        · have hmono := h.mono h1 (show i < j by omega) hj
          by_cases ha : anc s.par i j
          · have := (hcolin j (by omega) hj l hl).2 ha
            rw [if_pos (by omega), ← hoff m hm j hj ha hji l hl,
              show s.iv i + s.jnv i + (s.iv j + l - (s.iv i + s.jnv i)) = s.iv j + l by omega,
              show s.iv i + m - s.iv i = m by omega]
          · have hn : ¬ (s.iv i ≤ s.iv j + l ∧ s.iv j + l < s.iv i + s.nvSub i) := fun x => ha ((hcolin j (by omega) hj l hl).1 x)
            rw [if_neg (by omega), if_neg (by omega), hout m hm j (by omega) hj ha l hl]
            exact ih.rest i h1 (by omega) hi m hm j (by omega) hj l hl
      refine ⟨_, rfl, ?_, ?_, by rw [e1]; exact hother, by rw [e1]; exact hrows⟩
      · intro c hcn
        by_cases hpos : s.par i > 0
        · have : (minvRows s i d).Fcrb 0 = putSeg (d.Fcrb 0) (s.iv i) (s.nvSub i) (fun c => d.Fcrb 0 (s.iv i + c)
              + ∑ k ∈ range (s.jnv i), M2 (s.iv i + k) (s.iv i + c) • (d.joints i).U k) := by
            unfold minvRows
            simp only [hch, hpos, if_true, hjd.Dinv, hJ, hM2, hM1, hD, upd_self]
          rw [this, putSeg_out _ _ hcn]
        · have : (minvRows s i d).Fcrb 0 = d.Fcrb 0 := by
            unfold minvRows
            simp only [hch, hpos, if_true, if_false]
          rw [this]
      · intro hpos j hj ha l hl
        have hij := anc_le h.par j hj ha
        have : (minvRows s i d).Fcrb 0 = putSeg (d.Fcrb 0) (s.iv i) (s.nvSub i) (fun c => d.Fcrb 0 (s.iv i + c)
              + ∑ k ∈ range (s.jnv i), M2 (s.iv i + k) (s.iv i + c) • (d.joints i).U k) := by
          have hpos' : s.par i > 0 := hpos
          unfold minvRows
          simp only [hch, hpos', if_true, hjd.Dinv, hJ, hM2, hM1, hD, upd_self]
        have hin := (hcolin j (by omega) hj l hl).2 ha
        rw [this, putSeg_in _ _ hin, show s.iv i + (s.iv j + l - s.iv i) = s.iv j + l by omega, hF j hj ha l hl,
          ← hadd, add_comm]
        congr 1
        apply sum_congr rfl
        intro k hk
        rw [hrows k (mem_range.1 hk) j hij hj l hl]
    · set M1 := putBlock d.Minv (s.iv i) (s.iv i) (s.jnv i) (s.jnv i) D with hM1
      have e1 : (minvRows s i d).Minv = M1 := by
        unfold minvRows
        simp only [hch, if_false, hjd.Dinv, hM1, hD]
      have e2 : (minvRows s i d).Fcrb 0 = putSeg (d.Fcrb 0) (s.iv i) (s.nvSub i) (fun c =>
              ∑ k ∈ range (s.jnv i), M1 (s.iv i + k) (s.iv i + c) • (d.joints i).U k) := by
        unfold minvRows
        simp only [hch, if_false, hjd.Dinv, hM1, hD, upd_self]
      have hrows : ∀ m < s.jnv i, ∀ j, i ≤ j → j < s.n → ∀ l < s.jnv j, M1 (s.iv i + m) (s.iv j + l) = u m (s.iv j + l) := by
        intro m hm j hij hj l hl
        simp only [hM1, putBlock]
        by_cases hji : j = i
        · subst hji
          rw [if_pos (by omega), ← hdiag m hm l hl]
          congr 1 <;> omega
        · have hmono := h.mono h1 (show i < j by omega) hj
          have ha : ¬ anc s.par i j := fun ha => by
            have := (hcolin j (by omega) hj l hl).2 ha
            omega
          rw [if_neg (by omega), hout m hm j (by omega) hj ha l hl]
          exact ih.rest i h1 (by omega) hi m hm j (by omega) hj l hl
      refine ⟨_, rfl, ?_, ?_, ?_, by rw [e1]; exact hrows⟩
      · intro c hcn
        rw [e2, putSeg_out _ _ hcn]
      · intro hpos j hj ha l hl
        have hij := anc_le h.par j hj ha
        have hin := (hcolin j (by omega) hj l hl).2 ha
        have hji : j = i := by
          by_contra hne
          have hmono := h.mono h1 (show i < j by omega) hj
          omega
        subst hji
        rw [e2, putSeg_in _ _ hin, show s.iv j + (s.iv j + l - s.iv j) = s.iv j + l by omega, ← hadd,
          minT_self h h1 hi hl (hp j h1 hi l hl), add_zero]
        apply sum_congr rfl
        intro k hk
        rw [hrows k (mem_range.1 hk) j hij hj l hl]
      · intro a m ha1 ha hm hne c
        have hr : ¬ (s.iv i ≤ s.iv a + m ∧ s.iv a + m < s.iv i + s.jnv i) := fun x => hne ((hrow a m ha1 ha hm).1 x)
        rw [e1]
        simp only [hM1, putBlock]
        rw [if_neg (fun x => hr x.1)]
  obtain ⟨F', eF, f1, f2, m1, m2⟩ := hMi
  rw [eF]
  refine ⟨?_, ?_, ?_, ?_⟩
  · intro j hj1 hj hji l hl
    rw [f1, ih.zero j hj1 hj (by omega) l hl]
    intro x
    have := anc_le h.par j hj ((hcolin j hj1 hj l hl).1 x)
    omega
  · intro i' hii' hi' hpos hpar j hj ha l hl
    rcases Nat.eq_or_lt_of_le hii' with rfl | hlt
    · exact f2 hpos j hj ha l hl
    · have hij' := anc_le h.par j hj ha
      rw [f1, ih.col i' (by omega) hi' hpos (by omega) j hj ha l hl]
      intro x
      have ha' := (hcolin j (by omega) hj l hl).1 x
      have hpi' := h.par.2 i' (by omega) hi'
      rcases anc_total h.par j hj ha ha' with y | y
      · have := anc_le h.par i hi y; omega
      · rcases (anc_step (by omega) hpi').1 y with e | e
        · omega
        · have := anc_le h.par _ (by omega) e; omega
  · intro i' hii' hi' m hm j hij hj l hl
    rcases Nat.eq_or_lt_of_le hii' with rfl | hlt
    · exact m2 m hm j hij hj l hl
    · rw [m1 i' m (by omega) hi' hm (by omega)]
      exact ih.row i' (by omega) hi' m hm j hij hj l hl
  · intro i' h1' hlt hi' m hm j hij hj l hl
    rw [m1 i' m h1' hi' hm (by omega)]
    exact ih.rest i' h1' (by omega) hi' m hm j hij hj l hl

/-- the unit torque problem of column `c`: jdata of the recursion -/
def minSt (s : Sys K) (J : ℕ → Motion K) (A : ℕ → M6 K) (c : ℕ) (p : ℕ → Force K) (u : ℕ → K) : AS K where
  Y := A
  f := p
  u := u
  U i := fun k => (A i).mulMF (J (s.iv i + k))
  StU i := dMat (seg J (s.iv i)) (seg s.arm (s.iv i)) (A i)
  Dinv i := invBlock (s.jnv i) (dMat (seg J (s.iv i)) (seg s.arm (s.iv i)) (A i))
  UDinv i := udCol (s.jnv i) (seg J (s.iv i)) (seg s.arm (s.iv i)) (A i)

/-- the solution of the unit torque problem `c` -/
structure MinCol (s : Sys K) (J : ℕ → Motion K) (A : ℕ → M6 K) (c : ℕ) (p : ℕ → Force K) (a : ℕ → Motion K)
    (x : ℕ → K) : Prop where
  a0 : a 0 = 0
  acc : ∀ i, 1 ≤ i → i < s.n → a i = a (s.par i) + comb (seg J (s.iv i)) (s.jnv i) (s.vs x i)
  sol : ∀ i, 1 ≤ i → i < s.n → ∀ l < s.jnv i, x (s.iv i + l)
    = (∑ m ∈ range (s.jnv i), invBlock (s.jnv i) (dMat (seg J (s.iv i)) (seg s.arm (s.iv i)) (A i)) l m
        * minU s J c i (p i) m)
      - (a (s.par i)).dot (udCol (s.jnv i) (seg J (s.iv i)) (seg s.arm (s.iv i)) (A i) l)

theorem exists_rows (h : s.Packed) (g : ℕ → ℕ → K) :
    ∃ u : ℕ → K, ∀ i, 1 ≤ i → i < s.n → ∀ l < s.jnv i, u (s.iv i + l) = g i l := by
  classical
  refine ⟨fun r => if hr : ∃ x : ℕ × ℕ, 1 ≤ x.1 ∧ x.1 < s.n ∧ x.2 < s.jnv x.1 ∧ r = s.iv x.1 + x.2
    then g hr.choose.1 hr.choose.2 else 0, ?_⟩
  intro i h1 hi l hl
  have hr : ∃ x : ℕ × ℕ, 1 ≤ x.1 ∧ x.1 < s.n ∧ x.2 < s.jnv x.1 ∧ s.iv i + l = s.iv x.1 + x.2 :=
    ⟨(i, l), h1, hi, hl, rfl⟩
  beta_reduce
  rw [dif_pos hr]
  obtain ⟨a, b, c, e⟩ := hr.choose_spec
  obtain ⟨e1, e2⟩ := h.inj h1 hi a b hl c e
  generalize hr.choose = x at e1 e2
  rw [← e1, ← e2]

theorem minCol_exists (h : s.Packed) (J : ℕ → Motion K) (A : ℕ → M6 K) (c : ℕ) (p : ℕ → Force K) :
    ∃ a x, MinCol s J A c p a x := by
  obtain ⟨u, hu⟩ := exists_rows h (fun i l => minU s J c i (p i) l)
  obtain ⟨z, zz⟩ := absFwd_ok (P := minP s J) h (minSt s J A c p u) (c := fun _ => 0) (a0 := 0) (a := fun _ => 0)
    (q0 := fun _ => 0) rfl (fun _ _ _ => rfl)
  set r := fwd (absFwd s (minP s J) (minSt s J A c p u)) s.n (fun _ => 0, fun _ => 0)
  refine ⟨r.1, r.2, z, fun i h1 hi => ?_, fun i h1 hi l hl => ?_⟩
  · refine (zz i h1 hi).1.trans ?_
    rw [zero_add]; rfl
  · refine ((zz i h1 hi).2 l hl).trans ?_
    rw [zero_add]
    congr 1
    apply sum_congr rfl
    intro m hm
    congr 1
    exact hu i h1 hi m (mem_range.1 hm)

/-- state in the last pass -/
structure MinF (s : Sys K) (J : ℕ → Motion K) (A : ℕ → M6 K) (p : ℕ → ℕ → Force K) (a : ℕ → ℕ → Motion K)
    (x : ℕ → ℕ → K) (k : ℕ) (d : Data K) : Prop where
  cols : d.J = J
  jd : ∀ i, 1 ≤ i → i < s.n → JdOk s J A i (d.joints i)
  done : ∀ i, 1 ≤ i → i < k → ∀ j, i ≤ j → j < s.n → ∀ l < s.jnv j,
    d.Fcrb i (s.iv j + l) = (a (s.iv j + l) i).asForce ∧
    ∀ m < s.jnv i, d.Minv (s.iv i + m) (s.iv j + l) = x (s.iv j + l) (s.iv i + m)
  row : ∀ i, k ≤ i → i < s.n → ∀ m < s.jnv i, ∀ j, i ≤ j → j < s.n → ∀ l < s.jnv j,
    d.Minv (s.iv i + m) (s.iv j + l) = ∑ m' ∈ range (s.jnv i),
      invBlock (s.jnv i) (dMat (seg J (s.iv i)) (seg s.arm (s.iv i)) (A i)) m m'
        * minU s J (s.iv j + l) i (p (s.iv j + l) i) m'

theorem minvFwd2_ok (h : s.Packed) {J : ℕ → Motion K} {A : ℕ → M6 K} {p : ℕ → ℕ → Force K} {a : ℕ → ℕ → Motion K}
    {x : ℕ → ℕ → K} (hx : ∀ j, 1 ≤ j → j < s.n → ∀ l < s.jnv j,
      MinCol s J A (s.iv j + l) (p (s.iv j + l)) (a (s.iv j + l)) (x (s.iv j + l)))
    {i : ℕ} (h1 : 1 ≤ i) (hi : i < s.n) {d : Data K} (ih : MinF s J A p a x i d) :
    MinF s J A p a x (i + 1) (minvFwd2 s i d) := by
  have hpi := h.par.2 i h1 hi
  have hlei := h.le_nv h1 hi
  set D := invBlock (s.jnv i) (dMat (seg J (s.iv i)) (seg s.arm (s.iv i)) (A i)) with hD
  set M1 : ℕ → ℕ → K := if s.par i > 0 then putBlock d.Minv (s.iv i) (s.iv i) (s.jnv i) (s.nv - s.iv i)
          (fun r c => d.Minv (s.iv i + r) (s.iv i + c)
            - (d.Fcrb (s.par i) (s.iv i + c)).asMotion.dot ((d.joints i).UDinv r)) else d.Minv with hM1
  set F1 : ℕ → Force K := putSeg (d.Fcrb i) (s.iv i) (s.nv - s.iv i)
      (fun c => (comb (seg J (s.iv i)) (s.jnv i) (fun k => M1 (s.iv i + k) (s.iv i + c))).asForce) with hF1
  set F2 : ℕ → Force K := if s.par i > 0 then putSeg F1 (s.iv i) (s.nv - s.iv i)
        (fun c => F1 (s.iv i + c) + d.Fcrb (s.par i) (s.iv i + c)) else F1 with hF2
  have eM : (minvFwd2 s i d).Minv = M1 := by
    unfold minvFwd2
    by_cases hpos : s.par i > 0 <;> simp only [hpos, if_true, if_false, hM1]
  have eF : (minvFwd2 s i d).Fcrb = upd d.Fcrb i F2 := by
    have hne : s.par i ≠ i := by omega
    unfold minvFwd2
    by_cases hpos : s.par i > 0
    · simp only [hpos, if_true, hM1, hF1, hF2, upd_self, ih.cols, upd_ne _ _ hne, Function.update_idem, upd]
    · simp only [hpos, if_false, hM1, hF1, hF2, ih.cols]
  have eJ : (minvFwd2 s i d).J = d.J := by
    unfold minvFwd2
    by_cases hpos : s.par i > 0 <;> simp only [hpos, if_true, if_false]
  have ej : (minvFwd2 s i d).joints = d.joints := by
    unfold minvFwd2
    by_cases hpos : s.par i > 0 <;> simp only [hpos, if_true, if_false]
  have hcol : ∀ j, i ≤ j → j < s.n → ∀ l < s.jnv j,
      s.iv i ≤ s.iv j + l ∧ s.iv j + l < s.iv i + (s.nv - s.iv i) := by
    intro j hij hj l hl
    have := h.le_nv (show 1 ≤ j by omega) hj
    rcases Nat.eq_or_lt_of_le hij with rfl | hlt
    · omega
    · have := h.mono h1 hlt hj; omega
  -- rows of this joint
  have hrow : ∀ m < s.jnv i, ∀ j, i ≤ j → j < s.n → ∀ l < s.jnv j,
      M1 (s.iv i + m) (s.iv j + l) = x (s.iv j + l) (s.iv i + m) := by
    intro m hm j hij hj l hl
    have hcx := hx j (by omega) hj l hl
    rw [hcx.sol i h1 hi m hm, ← ih.row i le_rfl hi m hm j hij hj l hl, hM1]
    have hc := hcol j hij hj l hl
    by_cases hpos : s.par i > 0
    · simp only [hpos, if_true, putBlock]
      rw [if_pos (by omega), show s.iv i + (s.iv i + m - s.iv i) = s.iv i + m by omega,
        show s.iv i + (s.iv j + l - s.iv i) = s.iv j + l by omega, show s.iv i + m - s.iv i = m by omega,
        (ih.done (s.par i) hpos hpi j (by omega) hj l hl).1, (ih.jd i h1 hi).UDinv]
      rfl
    · have e0 : s.par i = 0 := by omega
      simp only [hpos, if_false]
      rw [e0, hcx.a0, Motion.zero_dot, sub_zero]
  have hother : ∀ i' m, 1 ≤ i' → i' < s.n → m < s.jnv i' → i' ≠ i → ∀ c, M1 (s.iv i' + m) c = d.Minv (s.iv i' + m) c := by
    intro i' m h1' hi' hm hne c
    rw [hM1]
    split
    · unfold putBlock
      rw [if_neg]
      rintro ⟨⟨y, z⟩, -⟩
      exact hne (h.inj h1' hi' h1 hi hm (show s.iv i' + m - s.iv i < s.jnv i by omega) (by omega)).1
    · rfl
  have hF : ∀ j, i ≤ j → j < s.n → ∀ l < s.jnv j, F2 (s.iv j + l) = (a (s.iv j + l) i).asForce := by
    intro j hij hj l hl
    have hc := hcol j hij hj l hl
    have hcx := hx j (by omega) hj l hl
    have e1 : F1 (s.iv j + l) = (comb (seg J (s.iv i)) (s.jnv i) (s.vs (x (s.iv j + l)) i)).asForce := by
      rw [hF1, putSeg_in _ _ hc, show s.iv i + (s.iv j + l - s.iv i) = s.iv j + l by omega]
      congr 1
      exact comb_congr (fun _ _ => rfl) (fun k hk => hrow k hk j hij hj l hl)
    rw [hcx.acc i h1 hi, hF2]
    by_cases hpos : s.par i > 0
    · simp only [hpos, if_true]
      rw [putSeg_in _ _ hc, show s.iv i + (s.iv j + l - s.iv i) = s.iv j + l by omega, e1,
        (ih.done (s.par i) hpos hpi j (by omega) hj l hl).1, add_comm]
      rfl
    · have e0 : s.par i = 0 := by omega
      simp only [hpos, if_false]
      rw [e1, e0, hcx.a0, zero_add]
  refine ⟨eJ.trans ih.cols, fun i' h1' hi' => by rw [ej]; exact ih.jd i' h1' hi', ?_, ?_⟩
  · intro i' h1' hlt j hij hj l hl
    rw [eM, eF]
    by_cases he : i' = i
    · subst he
      rw [upd_self]
      exact ⟨hF j hij hj l hl, fun m hm => hrow m hm j hij hj l hl⟩
    · rw [upd_ne _ _ he]
      obtain ⟨b1, b2⟩ := ih.done i' h1' (by omega) j hij hj l hl
      exact ⟨b1, fun m hm => by rw [hother i' m h1' (by omega) hm he]; exact b2 m hm⟩
  · intro i' hlt hi' m hm j hij hj l hl
    rw [eM, hother i' m (by omega) hi' hm (by omega)]
    exact ih.row i' (by omega) hi' m hm j hij hj l hl

/-- `Minv` solves the unit torque problems -/
def MinOk (s : Sys K) (q : ℕ → K) (Mi : ℕ → ℕ → K) : Prop :=
  ∃ x : ℕ → ℕ → K, (∀ c < s.nv, ∀ w, s.massForm q w (x c) = s.dotv w (Sys.unit c)) ∧
    ∀ r c, r ≤ c → c < s.nv → Mi r c = x c r

theorem minv_final (h : s.Packed) {q : ℕ → K} (hq : s.At q) (hR : s.Regular q) {J : ℕ → Motion K} {A : ℕ → M6 K}
    (hJ : ∀ i, 1 ≤ i → i < s.n → ∀ l, l < s.jnv i → J (s.iv i + l) = s.Jc q i l)
    (hA : IsAcc s.par s.n (artI s (minP s J)) (fun i => s.oI q i) A) {p : ℕ → ℕ → Force K}
    (hp : ∀ j, 1 ≤ j → j < s.n → ∀ l < s.jnv j,
      IsAcc s.par s.n (minT s J A (s.iv j + l)) (fun _ => 0) (p (s.iv j + l)))
    {d : Data K} (hd : d.J = J) (hjd : ∀ i, 1 ≤ i → i < s.n → JdOk s J A i (d.joints i))
    (hB : MinB s J A p 1 d.Minv (d.Fcrb 0)) : MinOk s q (fwd (minvFwd2 s) s.n d).Minv := by
  choose a x hx using fun c => minCol_exists h J A c (p c)
  have hfin := fwd_ind (step := minvFwd2 s) (n := s.n) (d := d) (P := fun k d => MinF s J A p a x k d) h.par.1
    ⟨hd, hjd, fun i _ _ => by omega, fun i hk hi m hm j hij hj l hl => hB.row i hk hi m hm j hij hj l hl⟩
    (fun i d h1 hi ih => minvFwd2_ok h (fun j _ _ l _ => hx _) h1 hi ih)
  refine ⟨x, ?_, ?_⟩
  · intro c hc w
    obtain ⟨j, l, hj1, hj, hl, rfl⟩ := h.cover hc
    set c := s.iv j + l with hcdef
    have hcx := hx c
    obtain ⟨u, hu⟩ := exists_rows h (fun i l => minU s J c i (p c i) l)
    have hG : IsAcc s.par s.n (artT s (minP s J) (Sys.unit c)) (fun i => (s.oI q i, (0 : Force K)))
        (fun i => (A i, p c i)) := by
      intro i h1 hi
      apply Prod.ext
      · rw [Prod.fst_add, Prod.fst_sum]; exact hA i h1 hi
      · rw [Prod.snd_add, Prod.snd_sum]
        refine (hp j hj1 hj l hl i h1 hi).trans ?_
        congr 1
        apply sum_congr rfl
        intro k _
        change minT s J A c k (p c k) = p c k + ((artDown _ _ _ _).mulMF 0 + _)
        rw [M6.mulMF_zero', zero_add]
        rfl
    have hcomb : ∀ x : ℕ → K, ∀ i, 1 ≤ i → i < s.n →
        comb (seg J (s.iv i)) (s.jnv i) (s.vs x i) = (s.oM q i).act (s.jvel q x i) := by
      intro x i h1 hi
      unfold Sys.jvel
      rw [act_comb]
      unfold comb
      apply sum_congr rfl
      intro l hl
      rw [mem_range] at hl
      change _ • J (s.iv i + l) = _
      rw [hJ i h1 hi l hl]; rfl
    have hreg : ∀ i, 1 ≤ i → i < s.n → InvOk (s.jnv i) (dMat (seg J (s.iv i)) (seg s.arm (s.iv i)) (A i)) := by
      intro i h1 hi
      obtain ⟨B, hB⟩ := IsAcc.exists h.par (fun c X => (s.X q c).actOn (artDown (s.jnv c) (s.S q c) (seg s.arm (s.iv c)) X))
        (fun i => (s.Y i).matrix)
      have hBart : s.IsArt q B := hB
      have hW := hBart.world (v := fun _ => 0) h hq hJ
      have e := IsAcc.unique h.par hA hW i h1 hi
      beta_reduce at e
      rw [e, InvOk.congr (artDown_actOn (T := seg J (s.iv i)) (hBart.symm h i h1 hi) (s.oM_valid h.par hq i hi) (hJ i h1 hi)).1]
      exact hR B hBart i h1 hi
    have key := aba_core (P := minP s J) h hG (fun i _ _ => s.oI_symm q i) (fun i A hA => hA)
      (fun i A hA v => rfl) (fun i v f => rfl) (fun i f g => rfl) (st := minSt s J A c (p c) u)
      (fun i h1 hi => ⟨rfl, rfl, rfl, rfl, fun l hl => hu i h1 hi l hl⟩) hreg (a := a c) (x := x c)
      (fun i h1 hi => ⟨by
        change _ = 0 + a c (s.par i) + _
        rw [zero_add]; exact hcx.acc i h1 hi, fun l hl => by
        change _ = _ - (0 + a c (s.par i)).dot _
        rw [zero_add, hcx.sol i h1 hi l hl]
        congr 1
        apply sum_congr rfl
        intro m hm
        congr 1
        exact (hu i h1 hi m (mem_range.1 hm)).symm⟩)
      (w := w) (V := s.oV q w) (s.oV_zero q w) (fun i h1 hi => by
        rw [Sys.oV_step h.par hq w h1 hi, ← hcomb w i h1 hi]; rfl)
    rw [key]
    have hav : ∀ i, i < s.n → a c i = s.oV q (x c) i := by
      intro i hi; refine Sys.joint_ind s h.par ?_ ?_ i hi <;> clear hi i
      · rw [hcx.a0, s.oV_zero]
      · intro i h1 hi ih
        rw [hcx.acc i h1 hi, ih, Sys.oV_step h.par hq _ h1 hi, hcomb _ i h1 hi]
        abel
    unfold Sys.massForm
    congr 1
    apply sum_congr rfl
    intro i hi
    rw [mem_Ico] at hi
    rw [add_zero, hav i hi.2, s.dot_mul_world h.par hq w (x c) hi.2]
  · intro r c hrc hc
    obtain ⟨i, m, h1, hi, hm, rfl⟩ := h.cover (show r < s.nv by omega)
    obtain ⟨j, l, hj1, hj, hl, rfl⟩ := h.cover hc
    have hij : i ≤ j := by
      by_contra hlt
      have := h.mono hj1 (show j < i by omega) hi
      omega
    exact (hfin.done i h1 hi j hij hj l hl).2 m hm

theorem minB_start (s : Sys K) (J : ℕ → Motion K) (A : ℕ → M6 K) (h : s.Packed) (p : ℕ → ℕ → Force K) (M : ℕ → ℕ → K)
    {F : ℕ → Force K} (hF : F = fun _ => 0) : MinB s J A p s.n (zeroUpper s.nv M) F := by
  refine ⟨fun j _ _ _ l _ => by rw [hF], fun i hk hi => by omega, fun i hk hi => by omega, ?_⟩
  intro i h1 _ hi m hm j hij hj l hl
  unfold zeroUpper
  have := h.mono h1 hij hj
  have := h.le_nv (show 1 ≤ j by omega) hj
  rw [if_pos (by omega)]

/-- overload without `q`, on data with the articulated quantities -/
theorem minvNoUpdate_ok (h : s.Packed) (hc : Compact s.par s.n) {q : ℕ → K} (hq : s.At q) (hR : s.Regular q)
    {J : ℕ → Motion K} {A : ℕ → M6 K}
    (hJ : ∀ i, 1 ≤ i → i < s.n → ∀ l, l < s.jnv i → J (s.iv i + l) = s.Jc q i l)
    (hA : IsAcc s.par s.n (artI s (minP s J)) (fun i => s.oI q i) A)
    {d : Data K} (hd : d.J = J) (hjd : ∀ i, 1 ≤ i → i < s.n → JdOk s J A i (d.joints i)) :
    MinOk s q (computeMinverseNoUpdate s d).Minv := by
  have hs := artI_symm (P := minP s J) h hA (fun i _ _ => s.oI_symm q i) (fun i A hA => hA)
  choose p hp using fun c => IsAcc.exists h.par (minT s J A c) (fun _ => (0 : Force K))
  have hB := bwd_ind (step := minvRows s) (n := s.n)
    (d := { d with Minv := zeroUpper s.nv d.Minv, Fcrb := upd d.Fcrb 0 (fun _ => 0) })
    (P := fun k (e : Data K) => e.J = J ∧ e.joints = d.joints ∧ MinB s J A p k e.Minv (e.Fcrb 0)) h.par.1
    ⟨hd, rfl, minB_start s J A h p _ (upd_self d.Fcrb 0 _)⟩ (by
      rintro i e h1 hi ⟨a, b, c⟩
      obtain ⟨k1, k2, -⟩ := minvRows_keep (s := s) i e
      exact ⟨k2.trans a, k1.trans b, minvRows_ok h hc h1 hi (hs i h1 hi) (fun j _ _ l _ => hp _) a
        (by rw [b]; exact hjd i h1 hi) c⟩)
  exact minv_final h hq hR hJ hA (fun j _ _ l _ => hp _) hB.1 (fun i h1 hi => by rw [hB.2.1]; exact hjd i h1 hi) hB.2.2

/-- after the first pass -/
theorem minvFwd1_ok (h : s.Packed) {q : ℕ → K} (hq : s.At q) (d : Data K) :
    let e := fwd (minvFwd1 s q) s.n d
    (∀ i, 1 ≤ i → i < s.n → e.oMi i = s.oM q i ∧ e.oYaba i = s.oI q i ∧
      ∀ l, l < s.jnv i → e.J (s.iv i + l) = s.Jc q i l) ∧ e.Minv = d.Minv := by
  intro e
  apply fwd_ind (step := minvFwd1 s q) (n := s.n) (d := d)
    (P := fun k (e : Data K) => (∀ i, 1 ≤ i → i < k → e.oMi i = s.oM q i ∧ e.oYaba i = s.oI q i ∧
      ∀ l, l < s.jnv i → e.J (s.iv i + l) = s.Jc q i l) ∧ e.Minv = d.Minv) h.par.1
  · exact ⟨fun i h1 hi => by omega, rfl⟩
  · rintro i e h1 hi ⟨ih, im⟩
    have hpi := h.par.2 i h1 hi
    have hne : s.par i ≠ i := by omega
    have eo : (minvFwd1 s q i e).oMi i = s.oM q i := by
      have := oM_code h.par (q := q) h1 hi (o := e.oMi) (fun j a b => (ih j a b).1)
      simp only [minvFwd1, upd_self, Joint.calc]
      exact this
    refine ⟨fun j hj1 hj => ?_, im⟩
    by_cases hji : j = i
    · subst hji
      refine ⟨eo, ?_, fun l hl => ?_⟩
      · have : (minvFwd1 s q j e).oYaba j = ((s.Y j).act ((minvFwd1 s q j e).oMi j)).matrix := by
          simp only [minvFwd1, upd_self]
        rw [this, eo]; rfl
      · have : (minvFwd1 s q j e).J (s.iv j + l) = ((minvFwd1 s q j e).oMi j).act (s.S q j l) := by
          simp only [minvFwd1, upd_self, Joint.calc]
          rw [putSeg_at _ _ hl]; rfl
        rw [this, eo]; rfl
    · obtain ⟨a, b, c⟩ := ih j hj1 (by omega)
      refine ⟨?_, ?_, fun l hl => ?_⟩
      · simp only [minvFwd1, upd_ne _ _ hji]; exact a
      · simp only [minvFwd1, upd_ne _ _ hji]; exact b
      · simp only [minvFwd1]
        rw [h.putSeg_ne' _ _ h1 hi hj1 (by omega) hl hji]
        exact c l hl

/-- the backward and the last pass, on data with the columns and the inertias -/
theorem minvPasses_ok (h : s.Packed) (hc : Compact s.par s.n) {q : ℕ → K} (hq : s.At q) (hR : s.Regular q)
    {d1 : Data K} {M : ℕ → ℕ → K}
    (hJ : ∀ i, 1 ≤ i → i < s.n → ∀ l, l < s.jnv i → d1.J (s.iv i + l) = s.Jc q i l)
    (hY : ∀ i, 1 ≤ i → i < s.n → d1.oYaba i = s.oI q i) (hM : d1.Minv = zeroUpper s.nv M)
    (hF : d1.Fcrb 0 = fun _ => 0) : MinOk s q (fwd (minvFwd2 s) s.n (bwd (minvBwd s) s.n d1)).Minv := by
  set J := d1.J with hJdef
  obtain ⟨A, hA⟩ := IsAcc.exists h.par (artI s (minP s J)) (fun i => s.oI q i)
  have hs := artI_symm (P := minP s J) h hA (fun i _ _ => s.oI_symm q i) (fun i A hA => hA)
  choose p hp using fun c => IsAcc.exists h.par (minT s J A c) (fun _ => (0 : Force K))
  have hB := bwd_ind (step := minvBwd s) (n := s.n) (d := d1)
    (P := fun k (e : Data K) => e.J = J ∧
      (∃ G, PAcc s.par s.n (artI s (minP s J)) (fun i => s.oI q i) k G ∧
        ∀ i, 1 ≤ i → i < s.n → i < k → e.oYaba i = G i) ∧
      (∀ i, k ≤ i → i < s.n → JdOk s J A i (e.joints i)) ∧ MinB s J A p k e.Minv (e.Fcrb 0)) h.par.1
    ⟨rfl, ⟨fun i => s.oI q i, PAcc.start _ _ _ _, fun i h1 hi _ => hY i h1 hi⟩, fun i hk hi => by omega,
      by rw [hM]; exact minB_start s J A h p _ hF⟩ (by
      rintro i e h1 hi ⟨a, ⟨G, g1, g2⟩, jd, b⟩
      have hpi := h.par.2 i h1 hi
      have hYi : e.oYaba i = A i := by
        rw [g2 i h1 hi (by omega)]
        exact g1.eq_acc h.par hA i h1 hi le_rfl
      set e1 : Data K := { e with
        joints := upd e.joints i ((e.joints i).calcAba (s.jnv i) (seg e.J (s.iv i)) (seg s.arm (s.iv i)) (e.oYaba i)) }
        with he1
      obtain ⟨k1, k2, k3⟩ := minvRows_keep (s := s) i e1
      have hjdi : JdOk s J A i (e1.joints i) := by
        have : e1.joints i = (e.joints i).calcAba (s.jnv i) (seg J (s.iv i)) (seg s.arm (s.iv i)) (A i) := by
          rw [← a, ← hYi]; exact upd_self e.joints i _
        rw [this]
        exact ⟨rfl, rfl, rfl⟩
      have hM := minvRows_ok h hc h1 hi (hs i h1 hi) (fun j _ _ l _ => hp _) (d := e1) a hjdi b
      have hr : (minvBwd s i e).joints = e1.joints ∧ (minvBwd s i e).J = e1.J ∧
          (minvBwd s i e).Minv = (minvRows s i e1).Minv ∧ (minvBwd s i e).Fcrb = (minvRows s i e1).Fcrb := by
        unfold minvBwd
        by_cases hpos : s.par i > 0
        · simp only [hpos, if_true]; exact ⟨k1, k2, rfl, rfl⟩
        · simp only [hpos, if_false]; exact ⟨k1, k2, rfl, rfl⟩
      obtain ⟨r1, r2, r3, r4⟩ := hr
      refine ⟨r2.trans a, ?_, ?_, by rw [r3, r4]; exact hM⟩
      · refine ⟨if s.par i > 0 then upd G (s.par i) (G (s.par i) + artI s (minP s J) i (G i)) else G, ?_, ?_⟩
        · apply PAcc.step h.par h1 hi g1
          intro j hj
          by_cases hpos : s.par i > 0
          · simp only [hpos, if_true]
            by_cases hj' : j = s.par i
            · subst hj'; rw [upd_self]; simp
            · rw [upd_ne _ _ hj']; simp [hj']
          · have : j ≠ s.par i := by omega
            simp [hpos, this]
        · intro j hj1 hj hji
          have hne : j ≠ i := by omega
          have hGi : G i = A i := g1.eq_acc h.par hA i h1 hi le_rfl
          have hdown : ((minvRows s i e1).joints i).down (s.jnv i) (A i) = artI s (minP s J) i (A i) := by
            rw [k1]
            change (upd e.joints i _ i).down _ _ = _
            rw [upd_self, hYi, a]
            rfl
          unfold minvBwd
          by_cases hpos : s.par i > 0
          · simp only [hpos, if_true]
            rw [← he1, k3]
            change upd (upd e.oYaba i _) (s.par i) _ j = _
            by_cases hj' : j = s.par i
            · subst hj'
              rw [upd_self, upd_self, upd_self, upd_ne _ _ hne, g2 _ hj1 hj (by omega), hGi, ← hdown]
              congr 2
            · rw [upd_ne _ _ hj', upd_ne _ _ hj', upd_ne _ _ hne, g2 _ hj1 hj (by omega)]
          · simp only [hpos, if_false]
            rw [← he1, k3]
            exact g2 _ hj1 hj (by omega)
      · intro j hij hj
        rw [r1]
        by_cases hji : j = i
        · subst hji; exact hjdi
        · have : e1.joints j = e.joints j := upd_ne e.joints _ hji
          rw [this]; exact jd j (by omega) hj)
  exact minv_final h hq hR hJ hA (fun j _ _ l _ => hp _) hB.1 hB.2.2.1 hB.2.2.2

/-- overload with `q` -/
theorem minv_ok (h : s.Packed) (hc : Compact s.par s.n) {q : ℕ → K} (hq : s.At q) (hR : s.Regular q) (d0 : Data K) :
    MinOk s q (computeMinverse s d0 q).Minv := by
  obtain ⟨w1, w2⟩ := minvFwd1_ok h hq { d0 with Minv := zeroUpper s.nv d0.Minv }
  exact minvPasses_ok h hc hq hR
    (d1 := { (fwd (minvFwd1 s q) s.n { d0 with Minv := zeroUpper s.nv d0.Minv }) with
        Fcrb := upd (fwd (minvFwd1 s q) s.n { d0 with Minv := zeroUpper s.nv d0.Minv }).Fcrb 0 (fun _ => 0) })
    (fun i h1 hi => (w1 i h1 hi).2.2) (fun i h1 hi => (w1 i h1 hi).2.1) w2
    (upd_self (fwd (minvFwd1 s q) s.n { d0 with Minv := zeroUpper s.nv d0.Minv }).Fcrb 0 _)

end Pin
