import Verif.Algo.Crba
import Verif.Algo.Passes

/-! # The composite rigid body algorithm computes the kinetic-energy form -/

set_option linter.unusedSectionVars false

namespace Pin
open Finset

section tree
variable {α : Type*} [AddCommMonoid α] {par : ℕ → ℕ} {n : ℕ}

/-- once all children of a joint have been pushed, its value is final -/
theorem PAcc.eq_acc (hp : ParOk par n) {T : ℕ → α → α} {F f g : ℕ → α} {k : ℕ} (h : PAcc par n T F k f)
    (hg : IsAcc par n T F g) : ∀ i, 1 ≤ i → i < n → k ≤ i + 1 → f i = g i := by
  have key : ∀ m i, 1 ≤ i → i < n → n - i ≤ m → k ≤ i + 1 → f i = g i := by
    intro m
    induction m with
    | zero => intro i _ hi hk; omega
    | succ m ih =>
      intro i h1 hi hm hk
      have hc : ∀ c ∈ kids par n i, i < c := by
        intro c hc
        obtain ⟨⟨c1, cn⟩, e⟩ := mem_kids.1 hc
        have := hp.2 c c1 cn; omega
      rw [h i h1 hi, hg i h1 hi, filter_true_of_mem (fun c hc' => by have := hc c hc'; omega)]
      congr 1
      apply sum_congr rfl
      intro c hc'
      obtain ⟨⟨c1, cn⟩, e⟩ := mem_kids.1 hc'
      have := hc c hc'
      rw [ih c c1 cn (by omega) (by omega)]
  intro i h1 hi hk
  exact key n i h1 hi (by omega) hk

theorem kids_disjoint (hp : ParOk par n) {i a b j : ℕ} (hi : i < n) (ha : a ∈ kids par n i)
    (hb : b ∈ kids par n i) (hj : j < n) (haj : anc par a j) (hbj : anc par b j) : a = b := by
  obtain ⟨⟨ha1, han⟩, hpa⟩ := mem_kids.1 ha
  obtain ⟨⟨hb1, hbn⟩, hpb⟩ := mem_kids.1 hb
  rcases anc_total hp j hj haj hbj with h | h
  · rcases (anc_step hb1 (hp.2 b hb1 hbn)).1 h with e | h
    · exact e
    · rw [hpb] at h
      have := anc_le hp i hi h
      have := hp.2 a ha1 han
      omega
  · rcases (anc_step ha1 (hp.2 a ha1 han)).1 h with e | h
    · exact e.symm
    · rw [hpa] at h
      have := anc_le hp i hi h
      have := hp.2 b hb1 hbn
      omega

/-- every joint is in the subtree of one child of the universe -/
theorem sum_kids_zero (hp : ParOk par n) (F : ℕ → α) :
    ∑ c ∈ kids par n 0, ∑ j ∈ subtree par n c, F j = ∑ j ∈ Ico 1 n, F j := by
  classical
  rw [← sum_biUnion]
  · apply sum_congr _ (fun _ _ => rfl)
    ext j
    simp only [mem_biUnion, mem_subtree, mem_Ico]
    constructor
    · rintro ⟨c, -, h, -⟩; exact h
    · rintro ⟨h1, hj⟩
      suffices h : ∃ c ∈ kids par n 0, anc par c j by
        obtain ⟨c, hc, hcj⟩ := h; exact ⟨c, hc, ⟨h1, hj⟩, hcj⟩
      revert h1 hj
      induction j using Nat.strong_induction_on with
      | _ j ih =>
        intro h1 hj
        have hpj := hp.2 j h1 hj
        by_cases h0 : par j = 0
        · exact ⟨j, mem_kids.2 ⟨⟨h1, hj⟩, h0⟩, anc_refl hp hj⟩
        · obtain ⟨c, hc, h⟩ := ih _ hpj (by omega) (by omega)
          exact ⟨c, hc, (anc_step h1 hpj).2 (Or.inr h)⟩
  · intro a ha b hb hab
    rw [Function.onFun, disjoint_left]
    intro j hja hjb
    exact hab (kids_disjoint hp (by have := hp.1; omega) (mem_coe.1 ha) (mem_coe.1 hb)
      (mem_subtree.1 hja).1.2 (mem_subtree.1 hja).2 (mem_subtree.1 hjb).2)
end tree

universe u
variable {K : Type u} [Field K] [LinearOrder K] [IsStrictOrderedRing K] [HasEps K]

theorem Inertia.MassOk.nonneg {m : K} (h : Inertia.MassOk m) : 0 ≤ m := by
  rcases h with h | h
  · exact h.ge
  · exact le_trans HasEps.eps_pos.le h
theorem Inertia.MassOk.add {a b : K} (ha : Inertia.MassOk a) (hb : Inertia.MassOk b) :
    Inertia.MassOk (a + b) := by
  rcases ha with h | h
  · rw [h, zero_add]; exact hb
  · exact Or.inr (le_trans h (le_add_of_nonneg_right hb.nonneg))
theorem Inertia.addAssign_matrix {a b : Inertia K} (ha : Inertia.MassOk a.mass) (hb : Inertia.MassOk b.mass) :
    (Inertia.addAssign a b).matrix = a.matrix + b.matrix ∧ Inertia.MassOk (Inertia.addAssign a b).mass := by
  rw [Inertia.addAssign_eq]
  exact ⟨Inertia.matrix_add a b ha.nonneg hb.nonneg (ha.add hb), ha.add hb⟩

/-- Masses of the bodies are zero or at least the code's `eps` (see `C08_add_degenerate_counterexample`). -/
def Sys.MassesOk (s : Sys K) : Prop := ∀ i, 1 ≤ i → i < s.n → Inertia.MassOk (s.Y i).mass

variable {s : Sys K}

/-! ## world convention -/

/-- placements, world columns and world inertias for joints below `k` -/
structure CW (s : Sys K) (q : ℕ → K) (k : ℕ) (d : Data K) : Prop where
  pl : PlOk s q k d
  J : ∀ i, 1 ≤ i → i < k → ∀ l, l < s.jnv i → d.J (s.iv i + l) = s.Jc q i l
  Y : ∀ i, 1 ≤ i → i < k → d.oYcrb i = (s.Y i).act (s.oM q i)
  Y0 : d.oYcrb 0 = 0

theorem crbaWorldFwd_ok (h : s.Packed) (q : ℕ → K) {d : Data K} (h0 : d.oYcrb 0 = 0) :
    CW s q s.n (fwd (crbaWorldFwd s q) s.n d) ∧ (fwd (crbaWorldFwd s q) s.n d).M = d.M := by
  apply fwd_ind (P := fun k (d' : Data K) => CW s q k d' ∧ d'.M = d.M) h.par.1
  · exact ⟨⟨fun i _ _ => by omega, fun i _ _ => by omega, fun i _ _ => by omega, h0⟩, rfl⟩
  · intro i d' h1 hi ⟨ih, ihM⟩
    have hpi := h.par.2 i h1 hi
    have hne : s.par i ≠ i := by omega
    have e := oM_code h.par (q := q) h1 hi (o := d'.oMi) (fun j a b => (ih.pl j a b).2.1)
    have eo : (crbaWorldFwd s q i d').oMi i = s.oM q i := by
      simp only [crbaWorldFwd, Function.update_self]
      exact e
    refine ⟨⟨?_, ?_, ?_, ?_⟩, ihM⟩
    · intro j hj1 hj
      by_cases hji : j = i
      · subst hji
        refine ⟨?_, eo, ?_, ?_⟩ <;> simp [crbaWorldFwd, Joint.calc, Sys.S, Sys.X]
      · have := ih.pl j hj1 (by omega)
        simp [crbaWorldFwd, Function.update_of_ne hji, this]
    · intro j hj1 hj l hl
      have : (crbaWorldFwd s q i d').J = putSeg d'.J (s.iv i) (s.jnv i)
          (fun k => ((crbaWorldFwd s q i d').oMi i).act (((crbaWorldFwd s q i d').joints i).S k)) := rfl
      rw [this]
      by_cases hji : j = i
      · subst hji
        rw [putSeg_at _ _ hl, eo]
        simp [crbaWorldFwd, Joint.calc, Sys.Jc, Sys.S]
      · rw [h.putSeg_ne _ _ h1 hi hj1 (by omega) hl hji]
        exact ih.J j hj1 (by omega) l hl
    · intro j hj1 hj
      have : (crbaWorldFwd s q i d').oYcrb
          = upd d'.oYcrb i ((s.Y i).act ((crbaWorldFwd s q i d').oMi i)) := rfl
      rw [this]
      by_cases hji : j = i
      · subst hji; rw [upd_self, eo]
      · rw [upd_ne _ _ hji]; exact ih.Y j hj1 (by omega)
    · simp [crbaWorldFwd, Function.update_of_ne (show (0:ℕ) ≠ i by omega), ih.Y0]

/-- composite inertias accumulate without transport in the world frame -/
theorem Sys.oYm_acc (hp : ParOk s.par s.n) (q : ℕ → K) :
    IsAcc s.par s.n (fun _ x => x) (s.oI q) (s.oYm q) := fun _ h1 hi => sum_subtree hp _ h1 hi

/-- state of the backward pass -/
structure CWB (s : Sys K) (q : ℕ → K) (M0 : ℕ → ℕ → K) (k : ℕ) (d : Data K) : Prop where
  J : ∀ i, 1 ≤ i → i < s.n → ∀ l, l < s.jnv i → d.J (s.iv i + l) = s.Jc q i l
  mass : ∀ i, i < s.n → Inertia.MassOk (d.oYcrb i).mass
  acc : PAcc s.par s.n (fun _ x => x) (s.oI q) k (fun i => (d.oYcrb i).matrix)
  acc0 : (d.oYcrb 0).matrix
    = ∑ c ∈ (kids s.par s.n 0).filter (fun c => k ≤ c), (d.oYcrb c).matrix
  mass0 : (d.oYcrb 0).mass = ∑ c ∈ (kids s.par s.n 0).filter (fun c => k ≤ c), (d.oYcrb c).mass
  Ag : ∀ i, 1 ≤ i → k ≤ i → i < s.n → ∀ l, l < s.jnv i →
    d.Ag (s.iv i + l) = (s.oYm q i).mulMF (s.Jc q i l)
  M : ∀ i, 1 ≤ i → k ≤ i → i < s.n → ∀ k', k' < s.jnv i → ∀ j, j < s.n → anc s.par i j →
    ∀ l, l < s.jnv j → d.M (s.iv i + k') (s.iv j + l) = (s.Jc q i k').dot ((s.oYm q j).mulMF (s.Jc q j l))
  M0 : ∀ i, 1 ≤ i → i < s.n → ∀ k', k' < s.jnv i → ∀ j, 1 ≤ j → j < s.n → ¬ anc s.par i j →
    ∀ l, l < s.jnv j → d.M (s.iv i + k') (s.iv j + l) = M0 (s.iv i + k') (s.iv j + l)

/-- the block written for joint `i` by either convention -/
theorem putBlock_row {α : Type*} (h : s.Packed) (hc : Compact s.par s.n) (A : ℕ → ℕ → α) (B : ℕ → ℕ → α)
    {i : ℕ} (hi1 : 1 ≤ i) (hi : i < s.n) {a k' j l : ℕ} (ha1 : 1 ≤ a) (ha : a < s.n) (hk : k' < s.jnv a)
    (hj1 : 1 ≤ j) (hj : j < s.n) (hl : l < s.jnv j) [Decidable (a = i ∧ anc s.par i j)] :
    putBlock A (s.iv i) (s.iv i) (s.jnv i) (s.nvSub i) B (s.iv a + k') (s.iv j + l)
      = if a = i ∧ anc s.par i j then B k' (s.iv j + l - s.iv i) else A (s.iv a + k') (s.iv j + l) := by
  unfold putBlock
  have hcol := h.nvSub_iff hc hi1 hi hj1 hj hl
  have hrow : (s.iv i ≤ s.iv a + k' ∧ s.iv a + k' < s.iv i + s.jnv i) ↔ a = i := by
    constructor
    · rintro ⟨x, y⟩
      exact (h.inj ha1 ha hi1 hi hk (l := s.iv a + k' - s.iv i) (by omega) (by omega)).1
    · rintro rfl; omega
  by_cases hh : a = i ∧ anc s.par i j
  · rw [if_pos hh, if_pos ⟨hrow.2 hh.1, hcol.2 hh.2⟩]
    obtain ⟨rfl, -⟩ := hh
    congr 1; omega
  · rw [if_neg hh, if_neg]
    rintro ⟨x, y⟩
    exact hh ⟨hrow.1 x, hcol.1 y⟩

theorem crbaWorldBwd_step (h : s.Packed) (hc : Compact s.par s.n) {q : ℕ → K} {M0 : ℕ → ℕ → K} {i : ℕ}
    (h1 : 1 ≤ i) (hi : i < s.n) {d : Data K} (ih : CWB s q M0 (i + 1) d) :
    CWB s q M0 i (crbaWorldBwd s i d) := by
  classical
  have hpi := h.par.2 i h1 hi
  have hYi : (d.oYcrb i).matrix = s.oYm q i := ih.acc.eq_acc h.par (Sys.oYm_acc h.par q) i h1 hi le_rfl
  have hadd := Inertia.addAssign_matrix (ih.mass (s.par i) (by omega)) (ih.mass i hi)
  have eY : (crbaWorldBwd s i d).oYcrb
      = upd d.oYcrb (s.par i) (Inertia.addAssign (d.oYcrb (s.par i)) (d.oYcrb i)) := rfl
  have eAg : (crbaWorldBwd s i d).Ag
      = putSeg d.Ag (s.iv i) (s.jnv i) (fun k => (d.oYcrb i).mul (d.J (s.iv i + k))) := rfl
  have eM : (crbaWorldBwd s i d).M = putBlock d.M (s.iv i) (s.iv i) (s.jnv i) (s.nvSub i)
    (fun r c => (d.J (s.iv i + r)).dot ((crbaWorldBwd s i d).Ag (s.iv i + c))) := rfl
  have same : ∀ c, i ≤ c → (crbaWorldBwd s i d).oYcrb c = d.oYcrb c := by
    intro c hc'
    rw [eY, upd_ne _ _ (by omega)]
  have hAg : ∀ j, 1 ≤ j → i ≤ j → j < s.n → ∀ l, l < s.jnv j →
      (crbaWorldBwd s i d).Ag (s.iv j + l) = (s.oYm q j).mulMF (s.Jc q j l) := by
    intro j hj1 hij hj l hl
    rw [eAg]
    by_cases hji : j = i
    · subst hji
      rw [putSeg_at _ _ hl, ih.J j hj1 hj l hl, ← Inertia.matrix_mulMF, hYi]
    · rw [h.putSeg_ne _ _ h1 hi hj1 hj hl hji]
      exact ih.Ag j hj1 (by omega) hj l hl
  have hzero : ∀ {β : Type u} [AddCommMonoid β] (f : Inertia K → β),
      f (d.oYcrb 0) = ∑ c ∈ (kids s.par s.n 0).filter (fun c => i + 1 ≤ c), f (d.oYcrb c) →
      (s.par i = 0 → f (Inertia.addAssign (d.oYcrb 0) (d.oYcrb i)) = f (d.oYcrb 0) + f (d.oYcrb i)) →
      f ((crbaWorldBwd s i d).oYcrb 0)
        = ∑ c ∈ (kids s.par s.n 0).filter (fun c => i ≤ c), f ((crbaWorldBwd s i d).oYcrb c) := by
    intro β _ f hf hadd0
    rw [sum_congr rfl (g := fun c => f (d.oYcrb c))
      (fun c hc' => by rw [same c (mem_filter.1 hc').2])]
    by_cases h0 : s.par i = 0
    · have : (kids s.par s.n 0).filter (fun c => i ≤ c)
          = insert i ((kids s.par s.n 0).filter (fun c => i + 1 ≤ c)) := by
        ext c
        simp only [mem_filter, mem_insert, mem_kids]
        constructor
        · rintro ⟨⟨a, e⟩, g⟩
          by_cases hc' : c = i
          · exact Or.inl hc'
          · exact Or.inr ⟨⟨a, e⟩, by omega⟩
        · rintro (rfl | ⟨⟨a, e⟩, g⟩)
          · exact ⟨⟨⟨h1, hi⟩, h0⟩, le_rfl⟩
          · exact ⟨⟨a, e⟩, by omega⟩
      rw [this, sum_insert (by simp), ← hf, eY, h0, upd_self, hadd0 h0, add_comm]
    · have : (kids s.par s.n 0).filter (fun c => i ≤ c)
          = (kids s.par s.n 0).filter (fun c => i + 1 ≤ c) := by
        ext c
        simp only [mem_filter, mem_kids]
        constructor
        · rintro ⟨⟨a, e⟩, g⟩
          refine ⟨⟨a, e⟩, ?_⟩
          have : c ≠ i := by rintro rfl; exact h0 e
          omega
        · rintro ⟨⟨a, e⟩, g⟩; exact ⟨⟨a, e⟩, by omega⟩
      rw [this, ← hf, eY, upd_ne _ _ (by omega)]
  refine ⟨ih.J, ?_, ?_, ?_, ?_, hAg, ?_, ?_⟩
  · intro j hj
    rw [eY]
    by_cases hjp : j = s.par i
    · subst hjp; rw [upd_self]; exact hadd.2
    · rw [upd_ne _ _ hjp]; exact ih.mass j hj
  · apply PAcc.step h.par h1 hi ih.acc
    intro j hj1
    simp only [eY]
    split
    · rename_i e; subst e; rw [upd_self]; exact hadd.1
    · rename_i e; rw [upd_ne _ _ e]
  · exact hzero Inertia.matrix ih.acc0 (fun h0 => by rw [h0] at hadd; exact hadd.1)
  · exact hzero Inertia.mass ih.mass0 (fun _ => rfl)
  · intro a ha1 hka ha k' hk' j hj hanc l hl
    have hj1 : 1 ≤ j := le_trans ha1 (anc_le h.par j hj hanc)
    rw [eM, putBlock_row h hc _ _ h1 hi ha1 ha hk' hj1 hj hl]
    split
    · rename_i hh
      obtain ⟨rfl, hh⟩ := hh
      have hle := anc_le h.par j hj hanc
      have hivle : s.iv a ≤ s.iv j + l := ((h.nvSub_iff hc ha1 ha hj1 hj hl).2 hanc).1
      rw [show s.iv a + (s.iv j + l - s.iv a) = s.iv j + l by omega, hAg j hj1 hle hj l hl,
        ih.J a ha1 ha k' hk']
    · rename_i hh
      have hne : a ≠ i := by rintro rfl; exact hh ⟨rfl, hanc⟩
      exact ih.M a ha1 (by omega) ha k' hk' j hj hanc l hl
  · intro a ha1 ha k' hk' j hj1 hj hanc l hl
    rw [eM, putBlock_row h hc _ _ h1 hi ha1 ha hk' hj1 hj hl, if_neg]
    · exact ih.M0 a ha1 ha k' hk' j hj1 hj hanc l hl
    · rintro ⟨rfl, hh⟩; exact hanc hh

theorem crbaWorldBwd_ok (h : s.Packed) (hc : Compact s.par s.n) (hm : s.MassesOk) {q : ℕ → K} {d : Data K}
    (hd : CW s q s.n d) : CWB s q d.M 1 (bwd (crbaWorldBwd s) s.n d) := by
  apply bwd_ind (P := fun k (d' : Data K) => CWB s q d.M k d') h.par.1
  · refine ⟨hd.J, ?_, ?_, ?_, ?_, fun i _ _ _ => by omega, fun i _ _ _ => by omega, ?_⟩
    · intro i hi
      rcases Nat.eq_zero_or_pos i with rfl | h1
      · rw [hd.Y0]; exact Or.inl rfl
      · rw [hd.Y i h1 hi]; exact hm i h1 hi
    · intro i h1 hi
      rw [filter_eq_empty_iff.2, sum_empty, add_zero]
      · show (d.oYcrb i).matrix = _
        rw [hd.Y i h1 hi]; rfl
      · intro c hc'; have := (mem_kids.1 hc').1.2; omega
    · rw [filter_eq_empty_iff.2, sum_empty, hd.Y0]
      · ext <;> simp [Inertia.matrix, M3.alphaSkew, Sym3.subAlphaSkewSquare, Sym3.matrix]
      · intro c hc'; have := (mem_kids.1 hc').1.2; omega
    · rw [filter_eq_empty_iff.2, sum_empty, hd.Y0]
      · rfl
      · intro c hc'; have := (mem_kids.1 hc').1.2; omega
    · intro i _ _ k' _ j _ _ _ l _; rfl
  · intro i d' h1 hi ih
    exact crbaWorldBwd_step h hc h1 hi ih

theorem crbaWorld_cwb (h : s.Packed) (hc : Compact s.par s.n) (hm : s.MassesOk) (d : Data K) (q : ℕ → K) :
    CWB s q d.M 1 (bwd (crbaWorldBwd s) s.n (fwd (crbaWorldFwd s q) s.n
      { d with oYcrb := upd d.oYcrb 0 0 })) := by
  have h1 := crbaWorldFwd_ok h q (d := { d with oYcrb := upd d.oYcrb 0 0 }) (upd_self d.oYcrb 0 _)
  have h2 := crbaWorldBwd_ok h hc hm h1.1
  rwa [h1.2] at h2

/-- the matrix entries left by world CRBA -/
theorem crbaWorld_entry (h : s.Packed) (hc : Compact s.par s.n) (hm : s.MassesOk) (d : Data K) {q : ℕ → K}
    (hq : s.At q) {i k' j l : ℕ} (hi1 : 1 ≤ i) (hi : i < s.n) (hk : k' < s.jnv i) (hj : j < s.n)
    (hl : l < s.jnv j) (ha : anc s.par i j) :
    (crbaWorld s d q).M (s.iv i + k') (s.iv j + l)
      = s.massForm q (Sys.unit (s.iv i + k')) (Sys.unit (s.iv j + l)) := by
  have hj1 : 1 ≤ j := le_trans hi1 (anc_le h.par j hj ha)
  rw [Sys.massForm_entry h hq hi1 hi hk hj1 hj hl ha]
  have e := (crbaWorld_cwb h hc hm d q).M i hi1 hi1 hi k' hk j hj ha l hl
  simp only [crbaWorld, addArmature]
  rw [e]
  split <;> simp

theorem crbaWorld_other (h : s.Packed) (hc : Compact s.par s.n) (hm : s.MassesOk) (d : Data K) (q : ℕ → K)
    {i k' j l : ℕ} (hi1 : 1 ≤ i) (hi : i < s.n) (hk : k' < s.jnv i) (hj1 : 1 ≤ j) (hj : j < s.n)
    (hl : l < s.jnv j) (ha : ¬ anc s.par i j) :
    (crbaWorld s d q).M (s.iv i + k') (s.iv j + l) = d.M (s.iv i + k') (s.iv j + l) := by
  have e := (crbaWorld_cwb h hc hm d q).M0 i hi1 hi k' hk j hj1 hj ha l hl
  simp only [crbaWorld, addArmature]
  rw [e, if_neg]
  intro e'
  have := (h.inj hi1 hi hj1 hj hk hl e').1
  subst this
  exact ha (anc_refl h.par hi)

/-! ## local convention -/

theorem SE3.inv_actInv {M : SE3 K} (h : M.Valid) (v : Motion K) : M.inv.actInv v = M.act v := by
  rw [← SE3.inv_act h.inv, SE3.inv_inv h]

/-- composite inertia in the frame of joint `i` -/
noncomputable def Sys.lYm (s : Sys K) (q : ℕ → K) (i : ℕ) : M6 K := (s.oM q i).inv.actOn (s.oYm q i)

theorem Sys.lYm_mul (hp : ParOk s.par s.n) {q : ℕ → K} (hq : s.At q) {i : ℕ} (hi : i < s.n) (v : Motion K) :
    (s.lYm q i).mulMF v = (s.oM q i).actInvF ((s.oYm q i).mulMF ((s.oM q i).act v)) := by
  have hv := s.oM_valid hp hq i hi
  unfold Sys.lYm
  rw [SE3.actOn_mulMF _ (Sys.oYm_symm q i), SE3.inv_actInv hv, SE3.inv_actF hv]

theorem SE3.actInvF_sum {ι : Type*} (t : Finset ι) (M : SE3 K) (g : ι → Force K) :
    M.actInvF (∑ i ∈ t, g i) = ∑ i ∈ t, M.actInvF (g i) := by
  classical
  induction t using Finset.induction_on with
  | empty => simp
  | insert a t ha ih => rw [sum_insert ha, sum_insert ha, SE3.actInvF_add, ih]

theorem Sys.lYm_acc (hp : ParOk s.par s.n) {q : ℕ → K} (hq : s.At q) :
    IsAcc s.par s.n (fun i => (s.X q i).actOn) (fun i => (s.Y i).matrix) (s.lYm q) := by
  intro i h1 hi
  have hv := s.oM_valid hp hq i hi
  apply M6.ext_mulMF
  intro v
  rw [Sys.lYm_mul hp hq hi, Sys.oYm_acc hp q i h1 hi, M6.add_mulMF, M6.sum_mulMF, M6.add_mulMF, M6.sum_mulMF,
    SE3.actInvF_add, SE3.actInvF_sum]
  congr 1
  · unfold Sys.oI
    rw [Inertia.matrix_mulMF, Inertia.matrix_mulMF, Inertia.act_mul hv, SE3.actInv_act hv,
      SE3.actInvF_actF hv]
  · apply sum_congr rfl
    intro c hc
    obtain ⟨⟨c1, cn⟩, e⟩ := mem_kids.1 hc
    have hX := s.X_valid hq c1 cn
    have hpc := hp.2 c c1 cn
    have hstep := s.oM_step (q := q) c1 hpc
    rw [e] at hstep
    have hsym : (s.lYm q c).IsSymm := SE3.actOn_symm _ (Sys.oYm_symm q c)
    rw [SE3.actOn_mulMF _ hsym, Sys.lYm_mul hp hq cn, hstep, SE3.mul_act hv, SE3.mul_actInvF hv hX,
      SE3.act_actInv hX, SE3.actF_actInvF hX]

structure CL (s : Sys K) (q : ℕ → K) (k : ℕ) (d : Data K) : Prop where
  li : ∀ i, 1 ≤ i → i < k → d.liMi i = s.X q i ∧ (d.joints i).S = s.S q i
  Y : ∀ i, 1 ≤ i → i < k → d.Ycrb i = s.Y i

theorem crbaLocalFwd_ok (hp : ParOk s.par s.n) (q : ℕ → K) (d : Data K) :
    CL s q s.n (fwd (crbaLocalFwd s q) s.n d) ∧ (fwd (crbaLocalFwd s q) s.n d).M = d.M := by
  apply fwd_ind (P := fun k (d' : Data K) => CL s q k d' ∧ d'.M = d.M) hp.1
  · exact ⟨⟨fun i _ _ => by omega, fun i _ _ => by omega⟩, rfl⟩
  · intro i d' h1 hi ⟨ih, ihM⟩
    refine ⟨⟨?_, ?_⟩, ihM⟩
    · intro j hj1 hj
      by_cases hji : j = i
      · subst hji
        refine ⟨?_, ?_⟩ <;> simp [crbaLocalFwd, Joint.calc, Sys.S, Sys.X]
      · have := ih.li j hj1 (by omega)
        simp [crbaLocalFwd, Function.update_of_ne hji, this]
    · intro j hj1 hj
      by_cases hji : j = i
      · subst hji; simp [crbaLocalFwd]
      · have := ih.Y j hj1 (by omega)
        simp [crbaLocalFwd, Function.update_of_ne hji, this]

/-- what `Fcrb[i]` holds in the column of joint `j` -/
noncomputable def Sys.Fc (s : Sys K) (q : ℕ → K) (i j l : ℕ) : Force K :=
  (s.oM q i).actInvF ((s.oYm q j).mulMF (s.Jc q j l))

structure CLB (s : Sys K) (q : ℕ → K) (M0 : ℕ → ℕ → K) (k : ℕ) (d : Data K) : Prop where
  li : ∀ i, 1 ≤ i → i < s.n → d.liMi i = s.X q i ∧ (d.joints i).S = s.S q i
  mass : ∀ i, 1 ≤ i → i < s.n → Inertia.MassOk (d.Ycrb i).mass
  acc : PAcc s.par s.n (fun i => (s.X q i).actOn) (fun i => (s.Y i).matrix) k (fun i => (d.Ycrb i).matrix)
  F : ∀ i, 1 ≤ i → i < s.n → ∀ j, j < s.n →
    (k ≤ i ∧ anc s.par i j) ∨ (∃ c ∈ kids s.par s.n i, k ≤ c ∧ anc s.par c j) →
    ∀ l, l < s.jnv j → d.Fcrb i (s.iv j + l) = s.Fc q i j l
  M : ∀ i, 1 ≤ i → k ≤ i → i < s.n → ∀ k', k' < s.jnv i → ∀ j, j < s.n → anc s.par i j →
    ∀ l, l < s.jnv j → d.M (s.iv i + k') (s.iv j + l) = (s.Jc q i k').dot ((s.oYm q j).mulMF (s.Jc q j l))
  M0 : ∀ i, 1 ≤ i → i < s.n → ∀ k', k' < s.jnv i → ∀ j, 1 ≤ j → j < s.n → ¬ anc s.par i j →
    ∀ l, l < s.jnv j → d.M (s.iv i + k') (s.iv j + l) = M0 (s.iv i + k') (s.iv j + l)

theorem crbaLocalBwd_step (h : s.Packed) (hc : Compact s.par s.n) {q : ℕ → K} (hq : s.At q)
    {M0 : ℕ → ℕ → K} {i : ℕ} (h1 : 1 ≤ i) (hi : i < s.n) {d : Data K} (ih : CLB s q M0 (i + 1) d) :
    CLB s q M0 i (crbaLocalBwd s i d) := by
  classical
  have hpi := h.par.2 i h1 hi
  have hvi := s.oM_valid h.par hq i hi
  have hX := s.X_valid hq h1 hi
  have hYi : (d.Ycrb i).matrix = s.lYm q i := ih.acc.eq_acc h.par (Sys.lYm_acc h.par hq) i h1 hi le_rfl
  obtain ⟨hli, hS⟩ := ih.li i h1 hi
  -- the force set of joint `i` once its own columns are written
  set Fi : ℕ → Force K := putSeg (d.Fcrb i) (s.iv i) (s.jnv i) (fun k => (d.Ycrb i).mul ((d.joints i).S k))
    with hFi
  have hFi' : ∀ j, j < s.n → anc s.par i j → ∀ l, l < s.jnv j → Fi (s.iv j + l) = s.Fc q i j l := by
    intro j hj ha l hl
    have hj1 : 1 ≤ j := le_trans h1 (anc_le h.par j hj ha)
    by_cases hji : j = i
    · subst hji
      rw [hFi, putSeg_at _ _ hl, ← Inertia.matrix_mulMF, hYi, Sys.lYm_mul h.par hq hj, hS]
      rfl
    · rw [hFi, h.putSeg_ne _ _ h1 hi hj1 hj hl hji]
      rcases anc_kid h.par h1 j hj ha with e | ⟨c, hck, hcj⟩
      · exact absurd e hji
      · have hcc := mem_kids.1 hck
        have := h.par.2 c hcc.1.1 hcc.1.2
        exact ih.F i h1 hi j hj (Or.inr ⟨c, hck, by omega, hcj⟩) l hl
  have eli : (crbaLocalBwd s i d).liMi = d.liMi ∧ (crbaLocalBwd s i d).joints = d.joints := by
    unfold crbaLocalBwd; split <;> exact ⟨rfl, rfl⟩
  have eY : (crbaLocalBwd s i d).Ycrb = if s.par i > 0 then
      upd d.Ycrb (s.par i) (Inertia.addAssign (d.Ycrb (s.par i)) ((d.Ycrb i).act (d.liMi i))) else d.Ycrb := by
    unfold crbaLocalBwd; split <;> rfl
  have eM : (crbaLocalBwd s i d).M = putBlock d.M (s.iv i) (s.iv i) (s.jnv i) (s.nvSub i)
      (fun r c => ((d.joints i).S r).dot (Fi (s.iv i + c))) := by
    have e0 : upd d.Fcrb i Fi i = Fi := upd_self _ _ _
    unfold crbaLocalBwd
    split
    · show putBlock d.M _ _ _ _ (fun r c => ((d.joints i).S r).dot (upd d.Fcrb i Fi i (s.iv i + c))) = _
      rw [e0]
    · show putBlock d.M _ _ _ _ (fun r c => ((d.joints i).S r).dot (upd d.Fcrb i Fi i (s.iv i + c))) = _
      rw [e0]
  have eF : ∀ a, 1 ≤ a → (crbaLocalBwd s i d).Fcrb a
      = if a = i then Fi else if a = s.par i then
        putSeg (d.Fcrb a) (s.iv i) (s.nvSub i) (fun c => (d.liMi i).actF (Fi (s.iv i + c))) else d.Fcrb a := by
    intro a ha1
    have e0 : upd d.Fcrb i Fi i = Fi := upd_self _ _ _
    unfold crbaLocalBwd
    split
    · show upd (upd d.Fcrb i Fi) (s.par i) (putSeg (upd d.Fcrb i Fi (s.par i)) (s.iv i) (s.nvSub i)
        (fun c => (d.liMi i).actF (upd d.Fcrb i Fi i (s.iv i + c)))) a = _
      rw [e0, upd_ne d.Fcrb Fi (show s.par i ≠ i by omega)]
      by_cases hai : a = i
      · subst hai
        rw [if_pos rfl, upd_ne _ _ (by omega), e0]
      · rw [if_neg hai]
        by_cases hap : a = s.par i
        · subst hap; rw [if_pos rfl, upd_self]
        · rw [if_neg hap, upd_ne _ _ hap, upd_ne _ _ hai]
    · show upd d.Fcrb i Fi a = _
      by_cases hai : a = i
      · subst hai; rw [if_pos rfl, e0]
      · rw [if_neg hai, if_neg (by omega), upd_ne _ _ hai]
  have hadd : s.par i > 0 → _ := fun hp0 => Inertia.addAssign_matrix (ih.mass (s.par i) (by omega) (by omega))
    (b := (d.Ycrb i).act (d.liMi i)) (ih.mass i h1 hi)
  refine ⟨?_, ?_, ?_, ?_, ?_, ?_⟩
  · rw [eli.1, eli.2]; exact ih.li
  · intro j hj1 hj
    rw [eY]
    split
    · rename_i hp0
      by_cases hjp : j = s.par i
      · subst hjp; rw [upd_self]; exact (hadd hp0).2
      · rw [upd_ne _ _ hjp]; exact ih.mass j hj1 hj
    · exact ih.mass j hj1 hj
  · apply PAcc.step h.par h1 hi ih.acc
    intro j hj1
    simp only [eY]
    by_cases hjp : j = s.par i
    · subst hjp
      rw [if_pos rfl, if_pos (by omega), upd_self, (hadd (by omega)).1, hli, SE3.actOn_matrix hX]
    · rw [if_neg hjp]
      split
      · rw [upd_ne _ _ hjp]
      · rfl
  · intro a ha1 ha j hj hcond l hl
    rw [eF a ha1]
    by_cases hai : a = i
    · subst hai
      rw [if_pos rfl]
      apply hFi' j hj _ l hl
      rcases hcond with ⟨-, h'⟩ | ⟨c, hck, -, h'⟩
      · exact h'
      · exact anc_trans h.par (kid_anc h.par hi hck) j hj h'
    · rw [if_neg hai]
      by_cases hap : a = s.par i
      · subst hap
        rw [if_pos rfl]
        have hkid : i ∈ kids s.par s.n (s.par i) := mem_kids.2 ⟨⟨h1, hi⟩, rfl⟩
        have hj1 : 1 ≤ j := by
          rcases hcond with ⟨-, h'⟩ | ⟨c, hck, -, h'⟩
          · exact le_trans ha1 (anc_le h.par j hj h')
          · exact le_trans (mem_kids.1 hck).1.1 (anc_le h.par j hj h')
        by_cases hanc : anc s.par i j
        · have hcol := (h.nvSub_iff hc h1 hi hj1 hj hl).2 hanc
          rw [putSeg_in _ _ hcol, show s.iv i + (s.iv j + l - s.iv i) = s.iv j + l by omega,
            hFi' j hj hanc l hl, hli]
          unfold Sys.Fc
          rw [s.oM_step h1 hpi, SE3.mul_actInvF (s.oM_valid h.par hq _ (by omega)) hX, SE3.actF_actInvF hX]
        · rw [putSeg_out _ _ (fun hcol => hanc ((h.nvSub_iff hc h1 hi hj1 hj hl).1 hcol))]
          apply ih.F _ ha1 ha j hj _ l hl
          rcases hcond with ⟨h', -⟩ | ⟨c, hck, hci, h'⟩
          · omega
          · refine Or.inr ⟨c, hck, ?_, h'⟩
            have : c ≠ i := by rintro rfl; exact hanc h'
            omega
      · rw [if_neg hap]
        apply ih.F a ha1 ha j hj _ l hl
        rcases hcond with ⟨h', h''⟩ | ⟨c, hck, hci, h'⟩
        · exact Or.inl ⟨by omega, h''⟩
        · refine Or.inr ⟨c, hck, ?_, h'⟩
          have : c ≠ i := by rintro rfl; exact hap (mem_kids.1 hck).2.symm
          omega
  · intro a ha1 hka ha k' hk' j hj hanc l hl
    have hj1 : 1 ≤ j := le_trans ha1 (anc_le h.par j hj hanc)
    rw [eM, putBlock_row h hc _ _ h1 hi ha1 ha hk' hj1 hj hl]
    split
    · rename_i hh
      obtain ⟨rfl, hh⟩ := hh
      have hivle : s.iv a ≤ s.iv j + l := ((h.nvSub_iff hc ha1 ha hj1 hj hl).2 hanc).1
      rw [show s.iv a + (s.iv j + l - s.iv a) = s.iv j + l by omega, hFi' j hj hanc l hl, hS]
      unfold Sys.Fc
      rw [← SE3.dot_act]; rfl
    · rename_i hh
      have hne : a ≠ i := by rintro rfl; exact hh ⟨rfl, hanc⟩
      exact ih.M a ha1 (by omega) ha k' hk' j hj hanc l hl
  · intro a ha1 ha k' hk' j hj1 hj hanc l hl
    rw [eM, putBlock_row h hc _ _ h1 hi ha1 ha hk' hj1 hj hl, if_neg]
    · exact ih.M0 a ha1 ha k' hk' j hj1 hj hanc l hl
    · rintro ⟨rfl, hh⟩; exact hanc hh

theorem crbaLocal_clb (h : s.Packed) (hc : Compact s.par s.n) (hm : s.MassesOk) (d : Data K) {q : ℕ → K}
    (hq : s.At q) :
    CLB s q d.M 1 (bwd (crbaLocalBwd s) s.n (fwd (crbaLocalFwd s q) s.n d)) := by
  obtain ⟨hd, hM⟩ := crbaLocalFwd_ok h.par q d
  rw [← hM]
  generalize fwd (crbaLocalFwd s q) s.n d = d1 at *
  apply bwd_ind (P := fun k (d' : Data K) => CLB s q d1.M k d') h.par.1
  · refine ⟨hd.li, ?_, ?_, ?_, fun i _ _ _ => by omega, fun i _ _ k' _ j _ _ _ l _ => rfl⟩
    · intro i h1 hi; rw [hd.Y i h1 hi]; exact hm i h1 hi
    · intro i h1 hi
      rw [filter_eq_empty_iff.2, sum_empty, add_zero]
      · show (d1.Ycrb i).matrix = _
        rw [hd.Y i h1 hi]
      · intro c hc'; have := (mem_kids.1 hc').1.2; omega
    · rintro i h1 hi j hj (⟨h', -⟩ | ⟨c, hck, h', -⟩)
      · omega
      · have := (mem_kids.1 hck).1.2; omega
  · intro i d' h1 hi ih
    exact crbaLocalBwd_step h hc hq h1 hi ih

theorem crbaLocal_entry (h : s.Packed) (hc : Compact s.par s.n) (hm : s.MassesOk) (d : Data K) {q : ℕ → K}
    (hq : s.At q) {i k' j l : ℕ} (hi1 : 1 ≤ i) (hi : i < s.n) (hk : k' < s.jnv i) (hj : j < s.n)
    (hl : l < s.jnv j) (ha : anc s.par i j) :
    (crbaLocal s d q).M (s.iv i + k') (s.iv j + l)
      = s.massForm q (Sys.unit (s.iv i + k')) (Sys.unit (s.iv j + l)) := by
  have hj1 : 1 ≤ j := le_trans hi1 (anc_le h.par j hj ha)
  rw [Sys.massForm_entry h hq hi1 hi hk hj1 hj hl ha]
  have e := (crbaLocal_clb h hc hm d hq).M i hi1 hi1 hi k' hk j hj ha l hl
  simp only [crbaLocal, addArmature]
  rw [e]
  split <;> simp

theorem crbaLocal_other (h : s.Packed) (hc : Compact s.par s.n) (hm : s.MassesOk) (d : Data K) {q : ℕ → K}
    (hq : s.At q) {i k' j l : ℕ} (hi1 : 1 ≤ i) (hi : i < s.n) (hk : k' < s.jnv i) (hj1 : 1 ≤ j) (hj : j < s.n)
    (hl : l < s.jnv j) (ha : ¬ anc s.par i j) :
    (crbaLocal s d q).M (s.iv i + k') (s.iv j + l) = d.M (s.iv i + k') (s.iv j + l) := by
  have e := (crbaLocal_clb h hc hm d hq).M0 i hi1 hi k' hk j hj1 hj ha l hl
  simp only [crbaLocal, addArmature]
  rw [e, if_neg]
  intro e'
  have := (h.inj hi1 hi hj1 hj hk hl e').1
  subst this
  exact ha (anc_refl h.par hi)

end Pin
