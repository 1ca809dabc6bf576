import Verif.Spec.CrbaMimic
import Verif.Algo.CrbaLemmas
import Verif.Algo.DelassusLemmas

/-! # `crba` with mimic joints: the passes -/

set_option linter.unusedSectionVars false

namespace Pin
open Finset
universe u
variable {K : Type u} [Field K] [LinearOrder K] [IsStrictOrderedRing K] [HasEps K] {s : Sys K} {t : MimTab}

/-- the system in which the mimic joints have no degree of freedom and do not move -/
def Sys.own (s : Sys K) (t : MimTab) : Sys K :=
  { s with
    jt := fun i => if (t.mim i).isSome then { s.jt i with nv := 0, v := fun _ _ => 0 } else s.jt i
    iv := fun i => ∑ j ∈ Ico 1 i, t.nvs j }

theorem own_X (q : ℕ → K) : (s.own t).X q = s.X q := by
  funext i
  simp only [Sys.X, Sys.own, Sys.qs]
  split <;> rfl

theorem own_oM (q : ℕ → K) : (s.own t).oM q = s.oM q := by
  funext i
  simp only [Sys.oM, own_X]
  rfl

theorem own_S (q : ℕ → K) (i : ℕ) : (s.own t).S q i = s.S q i := by
  simp only [Sys.S, Sys.own, Sys.qs]
  split <;> rfl

theorem own_Jc (q : ℕ → K) : (s.own t).Jc q = s.Jc q := by
  funext i k
  unfold Sys.Jc
  rw [own_oM, own_S]

theorem own_oI (q : ℕ → K) : (s.own t).oI q = s.oI q := by
  funext i
  simp only [Sys.oI, own_oM]
  rfl

theorem own_oYm (q : ℕ → K) : (s.own t).oYm q = s.oYm q := by
  funext i
  simp only [Sys.oYm, own_oI]
  rfl

theorem own_jnv (i : ℕ) : (s.own t).jnv i = if (t.mim i).isSome then 0 else s.jnv i := by
  simp only [Sys.own, Sys.jnv]
  split <;> rfl

section ok
variable (ht : t.Ok s)
include ht

theorem own_packed : (s.own t).Packed := by
  have e : ∀ i, 1 ≤ i → i < s.n → (s.own t).jnv i = t.nvs i := by
    intro i h1 hi; rw [own_jnv, ht.nvs i h1 hi]
  refine ⟨ht.ext.par, fun i h1 hi => ?_, ?_⟩
  · change ∑ j ∈ Ico 1 i, t.nvs j = _
    apply sum_congr rfl
    intro j hj
    rw [mem_Ico] at hj
    exact (e j hj.1 (lt_trans hj.2 hi)).symm
  · change s.nv = _
    rw [ht.nv]
    apply sum_congr rfl
    intro j hj
    rw [mem_Ico] at hj
    exact (e j hj.1 hj.2).symm

theorem own_iv {i : ℕ} (h1 : 1 ≤ i) (hi : i < s.n) (hm : t.mim i = none) : (s.own t).iv i = s.iv i :=
  (ht.iv i h1 hi hm).symm

theorem compact_of : Compact s.par s.n := (crbaCheck_iff ht.ext.par).1 ht.order

/-- `nvSubtree` as computed without mimic joints is the sum over the subtree -/
theorem own_nvSub {i : ℕ} (h1 : 1 ≤ i) (hi : i < s.n) : (s.own t).nvSub i = ∑ j ∈ subtree s.par s.n i, t.nvs j := by
  have hP := own_packed ht
  have hc := compact_of ht
  obtain ⟨m, hlast, hm⟩ := lastChild_ok ht.ext.par i h1 hi
  have hmi := anc_le ht.ext.par m hm.1.1 hm.1.2
  have hm1 : 1 ≤ m := le_trans h1 hmi
  unfold Sys.nvSub
  rw [show lastChild (s.own t).par (s.own t).n i = (m : ℤ) from hlast]
  simp only [Int.toNat_natCast]
  have e1 : subtree s.par s.n i = Ico i (m + 1) := by
    ext j
    rw [mem_subtree, mem_Ico]
    constructor
    · rintro ⟨⟨a, b⟩, c⟩
      exact ⟨anc_le ht.ext.par j b c, by have := hm.2 j b c; omega⟩
    · rintro ⟨a, b⟩
      have := hm.1.1
      change m < s.n at this
      exact ⟨⟨by omega, by omega⟩, hc i j m h1 a (by omega) hm.1.1 hm.1.2⟩
  have e2 : (s.own t).jnv m = t.nvs m := by rw [own_jnv, ht.nvs m hm1 hm.1.1]
  rw [e1, e2]
  change (∑ j ∈ Ico 1 m, t.nvs j) + t.nvs m - ∑ j ∈ Ico 1 i, t.nvs j = _
  rw [← sum_Ico_succ_top hm1, ← sum_Ico_consecutive t.nvs h1 (show i ≤ m + 1 by omega)]
  omega

end ok

/-- the backward step on a model with mimic joints is the one on the model where they have no degree of freedom -/
theorem crbaWorldBwdM_sim (ht : t.Ok s) (hs : t.Simple s) {i : ℕ} (h1 : 1 ≤ i) (hi : i < s.n) (d : Data K)
    (J' : ℕ → Motion K) (hJ : t.mim i = none → ∀ l < s.jnv i, J' (s.iv i + l) = d.J (t.ivx i + l)) :
    crbaWorldBwd (s.own t) i { d with J := J' } = { crbaWorldBwdM s t i d with J := J' } ∧
    (crbaWorldBwdM s t i d).J = d.J := by
  by_cases hm : (t.mim i).isSome
  · have e : (s.own t).jnv i = 0 := by rw [own_jnv, if_pos hm]
    refine ⟨?_, ?_⟩
    · simp only [crbaWorldBwd, crbaWorldBwdM, if_pos hm, e]
      congr 1
      · funext r
        exact putSeg_out _ _ (by omega)
      · funext r c
        unfold putBlock
        rw [if_neg (by omega)]
    · simp only [crbaWorldBwdM, if_pos hm]
  · have hn : t.mim i = none := by simpa using hm
    have e : (s.own t).jnv i = s.jnv i := by rw [own_jnv, if_neg hm]
    have e2 : (s.own t).nvSub i = (t.nvSub i).toNat := by
      rw [own_nvSub ht h1 hi, hs.sub i h1 hi hn, Int.toNat_natCast]
    have e3 := own_iv ht h1 hi hn
    refine ⟨?_, ?_⟩
    · have eA : putSeg d.Ag (s.iv i) (s.jnv i) (fun k => (d.oYcrb i).mul (J' (s.iv i + k)))
          = putSeg d.Ag (s.iv i) (s.jnv i) (fun k => (d.oYcrb i).mul (d.J (t.ivx i + k))) := by
        funext r
        by_cases hr : s.iv i ≤ r ∧ r < s.iv i + s.jnv i
        · rw [putSeg_in _ _ hr, putSeg_in _ _ hr]
          rw [hJ hn _ (by omega)]
        · rw [putSeg_out _ _ hr, putSeg_out _ _ hr]
      simp only [crbaWorldBwd, crbaWorldBwdM, if_neg hm, e, e2, e3, eA]
      congr 1
      funext r c
      unfold putBlock
      split
      · rename_i hr
        beta_reduce
        rw [hJ hn (r - s.iv i) (by omega)]
      · rfl
    · simp only [crbaWorldBwdM, if_neg hm]

/-- state before the mimic steps -/
structure CWM (s : Sys K) (t : MimTab) (q : ℕ → K) (M0 : ℕ → ℕ → K) (d : Data K) : Prop where
  J : ∀ i, 1 ≤ i → i < s.n → ∀ l, l < s.jnv i → d.J (t.ivx i + l) = s.Jc q i l
  Y : ∀ i, i < s.n → (d.oYcrb i).matrix = s.oYm q i
  mass : (d.oYcrb 0).mass = ∑ c ∈ kids s.par s.n 0, (d.oYcrb c).mass
  Ag : ∀ i, 1 ≤ i → i < s.n → t.mim i = none → ∀ l, l < s.jnv i →
    d.Ag (s.iv i + l) = (s.oYm q i).mulMF (s.Jc q i l)
  M : ∀ i, 1 ≤ i → i < s.n → t.mim i = none → ∀ k', k' < s.jnv i → ∀ j, j < s.n → t.mim j = none → anc s.par i j →
    ∀ l, l < s.jnv j → d.M (s.iv i + k') (s.iv j + l) = (s.Jc q i k').dot ((s.oYm q j).mulMF (s.Jc q j l))
  M0 : ∀ i, 1 ≤ i → i < s.n → t.mim i = none → ∀ k', k' < s.jnv i → ∀ j, 1 ≤ j → j < s.n → t.mim j = none →
    ¬ anc s.par i j → ∀ l, l < s.jnv j → d.M (s.iv i + k') (s.iv j + l) = M0 (s.iv i + k') (s.iv j + l)

theorem crbaWorldM_bwd (ht : t.Ok s) (hs : t.Simple s) (hm : s.MassesOk) (d : Data K) (q : ℕ → K) :
    CWM s t q d.M (bwd (crbaWorldBwdM s t) s.n (fwd (crbaWorldFwd (s.ext t) q) s.n
      { d with oYcrb := upd d.oYcrb 0 0 })) := by
  classical
  have hP := own_packed ht
  have hc := compact_of ht
  obtain ⟨hW, hWM⟩ := crbaWorldFwd_ok ht.ext q (d := { d with oYcrb := upd d.oYcrb 0 0 }) (upd_self d.oYcrb 0 _)
  rw [show (s.ext t).n = s.n from rfl] at hW hWM
  generalize fwd (crbaWorldFwd (s.ext t) q) s.n { d with oYcrb := upd d.oYcrb 0 0 } = d1 at hW hWM ⊢
  -- the columns of `J`, relabelled
  obtain ⟨J', hJ'⟩ : ∃ J' : ℕ → Motion K, ∀ i, 1 ≤ i → i < s.n → ∀ l, l < (s.own t).jnv i →
      J' ((s.own t).iv i + l) = s.Jc q i l := by
    have key : ∀ r, ∃ m : Motion K, ∀ i l, 1 ≤ i → i < s.n → l < (s.own t).jnv i → r = (s.own t).iv i + l → m = s.Jc q i l := by
      intro r
      by_cases h : ∃ i l, (1 ≤ i ∧ i < s.n) ∧ l < (s.own t).jnv i ∧ r = (s.own t).iv i + l
      · obtain ⟨i, l, ⟨h1, hi⟩, hl, e⟩ := h
        refine ⟨s.Jc q i l, fun j k hj1 hj hk e' => ?_⟩
        obtain ⟨rfl, rfl⟩ := hP.inj h1 hi hj1 hj hl hk (e.symm.trans e')
        rfl
      · exact ⟨0, fun j k hj1 hj hk e' => absurd ⟨j, k, ⟨hj1, hj⟩, hk, e'⟩ h⟩
    choose J' h using key
    exact ⟨J', fun i h1 hi l hl => h _ i l h1 hi hl rfl⟩
  have hsim : bwd (crbaWorldBwd (s.own t)) s.n { d1 with J := J' } = { bwd (crbaWorldBwdM s t) s.n d1 with J := J' } ∧
      (bwd (crbaWorldBwdM s t) s.n d1).J = d1.J := by
    unfold bwd
    have : ∀ l : List ℕ, (∀ i ∈ l, 1 ≤ i ∧ i < s.n) →
        l.foldr (crbaWorldBwd (s.own t)) { d1 with J := J' } = { l.foldr (crbaWorldBwdM s t) d1 with J := J' } ∧
        (l.foldr (crbaWorldBwdM s t) d1).J = d1.J := by
      intro l
      induction l with
      | nil => intro _; exact ⟨rfl, rfl⟩
      | cons i l ih =>
        intro hl
        obtain ⟨h1, hi⟩ := hl i (by simp)
        obtain ⟨ih1, ih2⟩ := ih (fun j hj => hl j (by simp [hj]))
        simp only [List.foldr_cons, ih1]
        obtain ⟨a, b⟩ := crbaWorldBwdM_sim ht hs h1 hi (l.foldr (crbaWorldBwdM s t) d1) J' (by
          intro hn l' hl'
          rw [ih2, ← own_iv ht h1 hi hn, hJ' i h1 hi l' (by rw [own_jnv, if_neg (by simp [hn])]; exact hl')]
          exact (hW.J i h1 hi l' hl').symm)
        exact ⟨a, b.trans ih2⟩
    apply this
    intro i hi
    rw [List.mem_range'_1] at hi
    have := ht.ext.par.1
    change 1 ≤ s.n at this
    omega
  have hCW : CW (s.own t) q s.n { d1 with J := J' } := by
    refine ⟨?_, ?_, ?_, hW.Y0⟩
    · intro i h1 hi
      obtain ⟨a, b, c, e⟩ := hW.pl i h1 hi
      refine ⟨?_, ?_, ?_, ?_⟩
      · rw [own_X]; exact a
      · rw [own_oM]; exact b
      · rw [own_S]; exact c
      · exact e.trans (by simp only [Sys.own, Sys.ext, Sys.qs]; split <;> rfl)
    · intro i h1 hi l hl
      rw [own_Jc]
      exact hJ' i h1 hi l hl
    · intro i h1 hi
      rw [own_oM]
      exact hW.Y i h1 hi
  have hB := crbaWorldBwd_ok hP hc (show (s.own t).MassesOk from hm) hCW
  rw [show (s.own t).n = s.n from rfl, hsim.1] at hB
  have hJn : ∀ i, t.mim i = none → (s.own t).jnv i = s.jnv i := fun i hn => by rw [own_jnv, if_neg (by simp [hn])]
  have hY : ∀ i, 1 ≤ i → i < s.n → ((bwd (crbaWorldBwdM s t) s.n d1).oYcrb i).matrix = s.oYm q i := by
    intro i h1 hi
    have := hB.acc.eq_acc hP.par (Sys.oYm_acc hP.par q) i h1 hi (by omega)
    rw [own_oYm] at this
    exact this
  have hfil : (kids s.par s.n 0).filter (fun c => 1 ≤ c) = kids s.par s.n 0 :=
    filter_true_of_mem fun c hc' => (mem_kids.1 hc').1.1
  refine ⟨?_, ?_, ?_, ?_, ?_, ?_⟩
  · intro i h1 hi l hl
    rw [hsim.2]
    exact hW.J i h1 hi l hl
  · intro i hi
    rcases Nat.eq_zero_or_pos i with rfl | h1
    · have h0 := hB.acc0
      change _ = ∑ c ∈ (kids s.par s.n 0).filter (fun c => 1 ≤ c), _ at h0
      rw [hfil] at h0
      refine h0.trans ?_
      rw [sum_congr rfl (g := fun c => s.oYm q c) (fun c hc' => hY c (mem_kids.1 hc').1.1 (mem_kids.1 hc').1.2)]
      unfold Sys.oYm
      rw [sum_kids_zero (par := s.par) (n := s.n) ht.ext.par]
      apply sum_congr _ (fun _ _ => rfl)
      ext j
      rw [mem_subtree, mem_Ico]
      exact ⟨fun h => ⟨h, anc_root ht.ext.par j h.2⟩, fun h => h.1⟩
    · exact hY i h1 hi
  · have h0 := hB.mass0
    change _ = ∑ c ∈ (kids s.par s.n 0).filter (fun c => 1 ≤ c), _ at h0
    rw [hfil] at h0
    exact h0
  · intro i h1 hi hn l hl
    have := hB.Ag i h1 h1 hi l (by rw [hJn i hn]; exact hl)
    rw [own_iv ht h1 hi hn, own_oYm, own_Jc] at this
    exact this
  · intro i h1 hi hn k' hk j hj hnj ha l hl
    have hj1 : 1 ≤ j := le_trans h1 (anc_le ht.ext.par j hj ha)
    have := hB.M i h1 h1 hi k' (by rw [hJn i hn]; exact hk) j hj ha l (by rw [hJn j hnj]; exact hl)
    rw [own_iv ht h1 hi hn, own_iv ht hj1 hj hnj, own_oYm, own_Jc] at this
    exact this
  · intro i h1 hi hn k' hk j hj1 hj hnj ha l hl
    have := hB.M0 i h1 hi k' (by rw [hJn i hn]; exact hk) j hj1 hj ha l (by rw [hJn j hnj]; exact hl)
    rw [own_iv ht h1 hi hn, own_iv ht hj1 hj hnj] at this
    refine this.trans ?_
    change d1.M _ _ = _
    rw [hWM]

end Pin
