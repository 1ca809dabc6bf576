import Verif.Algo.World

/-! # `DataTpl::computeLastChild` (`multibody/data.hxx:196-243`) and the CRBA order check -/

set_option linter.unusedSectionVars false

namespace Pin
open Finset
variable {K : Type*}

/-- one iteration of the loop of `computeLastChild` on `lastChild`, `multibody/data.hxx:202-209` -/
def lastStep (par : ℕ → ℕ) (i : ℕ) (last : ℕ → ℤ) : ℕ → ℤ :=
  let last := if last i = -1 then upd last i (i : ℤ) else last
  upd last (par i) (max (last i) (last (par i)))

/-- `lastChild` after the loop down to joint 1, `multibody/data.hxx:201-209`. (The last iteration, for
the universe, only changes entry 0, which no algorithm modelled here reads.) -/
def lastChild (par : ℕ → ℕ) (n : ℕ) : ℕ → ℤ := bwd (lastStep par) n (fun _ => -1)

/-- `nvSubtree`, `multibody/data.hxx:213-226`, without mimic joints. -/
def Sys.nvSub (s : Sys K) (i : ℕ) : ℕ :=
  let l := (lastChild s.par s.n i).toNat
  s.iv l + s.jnv l - s.iv i

/-- `l` is the largest joint index in the subtree of `i` -/
def IsLast (par : ℕ → ℕ) (n i : ℕ) (l : ℕ) : Prop :=
  (l < n ∧ anc par i l) ∧ ∀ j, j < n → anc par i j → j ≤ l

/-- a strict descendant goes through a child -/
theorem anc_kid {par : ℕ → ℕ} {n : ℕ} (hp : ParOk par n) {i : ℕ} (h1 : 1 ≤ i) :
    ∀ j, j < n → anc par i j → j = i ∨ ∃ c ∈ kids par n i, anc par c j := by
  intro j
  induction j using Nat.strong_induction_on with
  | _ j ih =>
    intro hjn h
    have hj1 : 1 ≤ j := le_trans h1 (anc_le hp j hjn h)
    have hpj := hp.2 j hj1 hjn
    rcases (anc_step hj1 hpj).1 h with e | h
    · exact Or.inl e.symm
    · right
      rcases ih _ hpj (by omega) h with e | ⟨c, hc, hcj⟩
      · exact ⟨j, mem_kids.2 ⟨⟨hj1, hjn⟩, e⟩, anc_refl hp hjn⟩
      · exact ⟨c, hc, (anc_step hj1 hpj).2 (Or.inr hcj)⟩

theorem kid_anc {par : ℕ → ℕ} {n : ℕ} (hp : ParOk par n) {i c : ℕ} (hi : i < n) (hc : c ∈ kids par n i) :
    anc par i c := by
  obtain ⟨⟨c1, cn⟩, e⟩ := mem_kids.1 hc
  rw [anc_step c1 (hp.2 c c1 cn), e]
  exact Or.inr (anc_refl hp hi)

/-- the state of `lastChild` when the joints from `k` on have been visited -/
def LastInv (par : ℕ → ℕ) (n k : ℕ) (last : ℕ → ℤ) : Prop := ∀ i, 1 ≤ i → i < n →
      (k ≤ i → ∃ l : ℕ, last i = (l : ℤ) ∧ IsLast par n i l) ∧
      (i < k → (last i = -1 ∧ ∀ c ∈ kids par n i, c < k) ∨
        ∃ l : ℕ, last i = (l : ℤ) ∧ l < n ∧ (∃ c ∈ kids par n i, k ≤ c ∧ anc par c l) ∧
          ∀ c ∈ kids par n i, k ≤ c → ∀ j, j < n → anc par c j → j ≤ l)

theorem lastInv_init (par : ℕ → ℕ) (n : ℕ) : LastInv par n n (fun _ => -1) := by
  intro i h1 hi
  refine ⟨fun h => by omega, fun _ => Or.inl ⟨rfl, fun c hc => (mem_kids.1 hc).1.2⟩⟩

theorem lastInv_step {par : ℕ → ℕ} {n : ℕ} (hp : ParOk par n) : ∀ (c0 : ℕ) (last : ℕ → ℤ), 1 ≤ c0 → c0 < n →
    LastInv par n (c0 + 1) last → LastInv par n c0 (lastStep par c0 last) := by
  intro c0 last hc1 hcn ih
  have hpc := hp.2 c0 hc1 hcn
  -- the value set for c0
  obtain ⟨l0, hl0, hL0⟩ : ∃ l : ℕ, (if last c0 = -1 then upd last c0 (c0 : ℤ) else last) c0 = (l : ℤ)
      ∧ IsLast par n c0 l := by
    rcases (ih c0 hc1 hcn).2 (by omega) with ⟨e, hno⟩ | ⟨l, e, hln, ⟨c, hc, hck, hcl⟩, hmax⟩
    · refine ⟨c0, ?_, ⟨hcn, anc_refl hp hcn⟩, ?_⟩
      · rw [if_pos e, upd_self]
      · intro j hj ha
        rcases anc_kid hp hc1 j hj ha with rfl | ⟨c, hc, -⟩
        · exact le_rfl
        · have := hno c hc
          obtain ⟨⟨a, b⟩, e'⟩ := mem_kids.1 hc
          have := hp.2 c a b
          omega
    · refine ⟨l, ?_, ⟨hln, anc_trans hp (kid_anc hp hcn hc) l hln hcl⟩, ?_⟩
      · rw [if_neg (by rw [e]; omega), e]
      · intro j hj ha
        rcases anc_kid hp hc1 j hj ha with rfl | ⟨c', hc', hcj⟩
        · have h1 := anc_le hp l hln hcl
          obtain ⟨⟨a, b⟩, e'⟩ := mem_kids.1 hc
          have := hp.2 c a b
          omega
        · obtain ⟨⟨a, b⟩, e'⟩ := mem_kids.1 hc'
          have := hp.2 c' a b
          exact hmax c' hc' (by omega) j hj hcj
  have hother : ∀ i, i ≠ c0 → (if last c0 = -1 then upd last c0 (c0 : ℤ) else last) i = last i := by
    intro i hne
    split
    · exact upd_ne _ _ hne
    · rfl
  have hval : ∀ i, lastStep par c0 last i = if i = par c0 then
      max ((l0 : ℕ) : ℤ) (last i) else if i = c0 then (l0 : ℤ) else last i := by
    intro i
    unfold lastStep
    by_cases h : i = par c0
    · subst h
      rw [if_pos rfl, upd_self, hl0, hother _ (by omega)]
    · rw [if_neg h, upd_ne _ _ h]
      by_cases h' : i = c0
      · subst h'; rw [if_pos rfl, hl0]
      · rw [if_neg h', hother _ h']
  intro i h1 hi
  constructor
  · intro hle
    rw [hval, if_neg (by omega)]
    split
    · rename_i e; subst e; exact ⟨l0, rfl, hL0⟩
    · exact (ih i h1 hi).1 (by omega)
  · intro hlt
    rw [hval]
    by_cases hip : i = par c0
    · rw [if_pos hip]
      right
      have hkid : c0 ∈ kids par n i := mem_kids.2 ⟨⟨hc1, hcn⟩, hip.symm⟩
      rcases (ih i h1 hi).2 (by omega) with ⟨e, hno⟩ | ⟨l, e, hln, ⟨c, hc, hck, hcl⟩, hmax⟩
      · refine ⟨l0, by rw [e]; omega, hL0.1.1, ⟨c0, hkid, le_rfl, hL0.1.2⟩, ?_⟩
        intro c hc hck j hj ha
        have : c = c0 := by have := hno c hc; omega
        subst this
        exact hL0.2 j hj ha
      · refine ⟨max l0 l, by rw [e]; simp, ?_, ?_, ?_⟩
        · exact max_lt hL0.1.1 hln
        · rcases le_total l0 l with h | h
          · rw [max_eq_right h]; exact ⟨c, hc, by omega, hcl⟩
          · rw [max_eq_left h]; exact ⟨c0, hkid, le_rfl, hL0.1.2⟩
        · intro c' hc' hck' j hj ha
          by_cases h : c' = c0
          · subst h
            exact le_trans (hL0.2 j hj ha) (le_max_left ..)
          · exact le_trans (hmax c' hc' (by omega) j hj ha) (le_max_right ..)
    · rw [if_neg hip, if_neg (by omega)]
      have hk : ∀ c ∈ kids par n i, c0 ≤ c → c0 + 1 ≤ c := by
        intro c hc hle
        have : c ≠ c0 := by
          rintro rfl
          exact hip (mem_kids.1 hc).2.symm
        omega
      rcases (ih i h1 hi).2 (by omega) with ⟨e, hno⟩ | ⟨l, e, hln, ⟨c, hc, hck, hcl⟩, hmax⟩
      · refine Or.inl ⟨e, fun c hc => ?_⟩
        by_contra hge
        have := hno c hc
        have := hk c hc (by omega)
        omega
      · exact Or.inr ⟨l, e, hln, ⟨c, hc, by omega, hcl⟩, fun c hc hck j hj ha => hmax c hc (hk c hc hck) j hj ha⟩

/-- `lastChild[i]` is the largest index in the subtree of `i`. -/
theorem lastChild_ok {par : ℕ → ℕ} {n : ℕ} (hp : ParOk par n) :
    ∀ i, 1 ≤ i → i < n → ∃ l : ℕ, lastChild par n i = (l : ℤ) ∧ IsLast par n i l := by
  intro i h1 hi
  exact (bwd_ind (P := LastInv par n) hp.1 (lastInv_init par n) (lastInv_step hp) i h1 hi).1 h1

/-- Depth-first ("compact") joint order: everything between a joint and one of its descendants is a
descendant. -/
def Compact (par : ℕ → ℕ) (n : ℕ) : Prop :=
  ∀ i k j, 1 ≤ i → i ≤ k → k ≤ j → j < n → anc par i j → anc par i k

/-- columns `[idx_v(i), idx_v(i) + nvSubtree[i])` are those of the joints `i..lastChild[i]` -/
theorem Sys.Packed.nvSub_mem [CommRing K] {s : Sys K} (h : s.Packed) {i j l : ℕ} (hi1 : 1 ≤ i) (hi : i < s.n)
    (hj1 : 1 ≤ j) (hj : j < s.n) (hl : l < s.jnv j) {m : ℕ} (hm : IsLast s.par s.n i m)
    (hlast : lastChild s.par s.n i = (m : ℤ)) :
    (s.iv i ≤ s.iv j + l ∧ s.iv j + l < s.iv i + s.nvSub i) ↔ i ≤ j ∧ j ≤ m := by
  have hmi := anc_le h.par m hm.1.1 hm.1.2
  have him : s.iv i ≤ s.iv m := by
    rcases Nat.lt_or_ge i m with h' | h'
    · have := h.mono hi1 h' hm.1.1; omega
    · have : i = m := by omega
      rw [this]
  have e : s.iv i + s.nvSub i = s.iv m + s.jnv m := by
    unfold Sys.nvSub
    rw [hlast]
    simp only [Int.toNat_natCast]
    omega
  rw [e]
  constructor
  · rintro ⟨a, b⟩
    constructor
    · by_contra hc
      have := h.mono hj1 (by omega : j < i) hi
      omega
    · by_contra hc
      have := h.mono (by omega) (by omega : m < j) hj
      omega
  · rintro ⟨a, b⟩
    constructor
    · rcases Nat.lt_or_ge i j with h' | h'
      · have := h.mono hi1 h' hj; omega
      · have : i = j := by omega
        subst this; omega
    · rcases Nat.lt_or_ge j m with h' | h'
      · have := h.mono hj1 h' hm.1.1; omega
      · have : j = m := by omega
        subst this; omega

/-- with a depth-first order these are exactly the columns of the subtree -/
theorem Sys.Packed.nvSub_iff [CommRing K] {s : Sys K} (h : s.Packed) (hc : Compact s.par s.n) {i j l : ℕ}
    (hi1 : 1 ≤ i) (hi : i < s.n) (hj1 : 1 ≤ j) (hj : j < s.n) (hl : l < s.jnv j) :
    (s.iv i ≤ s.iv j + l ∧ s.iv j + l < s.iv i + s.nvSub i) ↔ anc s.par i j := by
  obtain ⟨m, hlast, hm⟩ := lastChild_ok h.par i hi1 hi
  rw [h.nvSub_mem hi1 hi hj1 hj hl hm hlast]
  constructor
  · rintro ⟨a, b⟩
    exact hc i j m hi1 a b hm.1.1 hm.1.2
  · intro ha
    exact ⟨anc_le h.par j hj ha, hm.2 j hj ha⟩

/-- `internal::isDescendant`, `algorithm/crba.hxx:556-570`; the recursion goes up the parents, `fuel`
bounds its depth. -/
def isDescendant (par : ℕ → ℕ) (n : ℕ) (root : ℕ) : (fuel j : ℕ) → Bool
  | 0, _ => false
  | fuel + 1, j =>
    if j ≥ n then false
    else if j = 0 then root == 0
    else (j == root) || isDescendant par n root fuel (par j)

/-- the `while` loop: first `k` from `k0` on which is not a descendant (at most `fuel` steps) -/
def firstNonDesc (desc : ℕ → Bool) : (fuel k : ℕ) → ℕ
  | 0, k => k
  | fuel + 1, k => if desc k then firstNonDesc desc fuel (k + 1) else k

/-- `CRBAChecker::checkModel_impl`, `algorithm/crba.hxx:573-595`. -/
def crbaCheck (par : ℕ → ℕ) (n : ℕ) : Bool :=
  (List.range' 1 (n - 2)).all fun i =>
    let desc := isDescendant par n i n
    let k := firstNonDesc desc n (i + 1)
    (List.range' k (n - k)).all fun k => !desc k

theorem isDescendant_iff {par : ℕ → ℕ} {n : ℕ} (hp : ParOk par n) (root : ℕ) :
    ∀ fuel j, j < fuel → (isDescendant par n root fuel j = true ↔ j < n ∧ anc par root j) := by
  intro fuel
  induction fuel with
  | zero => intro j h; omega
  | succ f ih =>
    intro j hj
    unfold isDescendant
    by_cases hn : j ≥ n
    · simp [hn]
    · rw [if_neg hn]
      by_cases h0 : j = 0
      · subst h0
        simp only [if_true, anc_zero, beq_iff_eq]
        constructor
        · intro h; exact ⟨by omega, h⟩
        · exact fun h => h.2
      · rw [if_neg h0]
        have hpj := hp.2 j (by omega) (by omega)
        rw [Bool.or_eq_true, ih _ (by omega), beq_iff_eq, anc_step (by omega) hpj]
        constructor
        · rintro (h | ⟨-, h⟩)
          · exact ⟨by omega, Or.inl h.symm⟩
          · exact ⟨by omega, Or.inr h⟩
        · rintro ⟨-, h | h⟩
          · exact Or.inl h.symm
          · exact Or.inr ⟨by omega, h⟩

theorem firstNonDesc_spec (desc : ℕ → Bool) : ∀ fuel k,
    k ≤ firstNonDesc desc fuel k ∧ firstNonDesc desc fuel k ≤ k + fuel ∧
    (∀ j, k ≤ j → j < firstNonDesc desc fuel k → desc j = true) ∧
    (firstNonDesc desc fuel k < k + fuel → desc (firstNonDesc desc fuel k) = false) := by
  intro fuel
  induction fuel with
  | zero => intro k; simp [firstNonDesc]; intro j h1 h2; omega
  | succ f ih =>
    intro k
    unfold firstNonDesc
    cases h : desc k
    · simp [h]
      intro j h1 h2; omega
    · simp only [if_true]
      obtain ⟨a, b, c, d⟩ := ih (k + 1)
      refine ⟨by omega, by omega, ?_, fun hlt => d (by omega)⟩
      intro j h1 h2
      rcases Nat.eq_or_lt_of_le h1 with rfl | h
      · exact h
      · exact c j (by omega) h2

/-- The check accepts exactly the depth-first orders. -/
theorem crbaCheck_iff {par : ℕ → ℕ} {n : ℕ} (hp : ParOk par n) : crbaCheck par n = true ↔ Compact par n := by
  have hd : ∀ i j, j < n → (isDescendant par n i n j = true ↔ anc par i j) := by
    intro i j hj
    rw [isDescendant_iff hp i n j hj]
    exact ⟨fun h => h.2, fun h => ⟨hj, h⟩⟩
  have hout : ∀ i j, n ≤ j → isDescendant par n i n j = false := by
    intro i j hj
    have h1 := hp.1
    obtain ⟨m, rfl⟩ : ∃ m, n = m + 1 := ⟨n - 1, by omega⟩
    unfold isDescendant
    rw [if_pos (by omega)]
  unfold crbaCheck Compact
  simp only [List.all_eq_true, List.mem_range'_1, Bool.not_eq_true']
  constructor
  · intro h i k j hi1 hik hkj hjn ha
    rcases Nat.eq_or_lt_of_le hik with rfl | hik'
    · exact anc_refl hp (by omega)
    have hx := h i (by omega)
    obtain ⟨a, b, c, -⟩ := firstNonDesc_spec (isDescendant par n i n) n (i + 1)
    generalize firstNonDesc (isDescendant par n i n) n (i + 1) = kk at *
    by_cases hj : kk ≤ j
    · have := hx j (by omega)
      have := (hd i j hjn).2 ha
      simp_all
    · exact (hd i k (by omega)).1 (c k (by omega) (by omega))
  · intro h i hi k hk
    obtain ⟨a, b, c, d⟩ := firstNonDesc_spec (isDescendant par n i n) n (i + 1)
    have hkk : firstNonDesc (isDescendant par n i n) n (i + 1) < n := by omega
    have hf := d (by omega)
    cases hh : isDescendant par n i n k
    · rfl
    · have ha := (hd i k (by omega)).1 hh
      have := h i _ k (by omega) (by omega) hk.1 (by omega) ha
      rw [(hd i _ hkk).2 this] at hf
      exact absurd hf (by simp)

end Pin
