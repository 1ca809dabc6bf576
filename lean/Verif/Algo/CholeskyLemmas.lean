import Verif.Algo.Cholesky
import Verif.Spec.Matrix
import Mathlib.LinearAlgebra.Matrix.NonsingularInverse
import Mathlib.Tactic.Linarith
import Mathlib.Algebra.Order.BigOperators.Group.Finset

/-! # Lemmas on the sparse Cholesky factorisation -/

set_option linter.unusedSectionVars false

namespace Pin
open Finset
variable {K : Type*}

theorem upTo_ind {D : Type*} {step : ℕ → D → D} {n : ℕ} {d : D} (P : ℕ → D → Prop)
    (h0 : P 0 d) (hs : ∀ k d, k < n → P k d → P (k + 1) (step k d)) : P n (upTo step n d) := by
  unfold upTo
  induction n with
  | zero => simpa using h0
  | succ n ih =>
    rw [List.range_succ, List.foldl_append]
    exact hs n _ (by omega) (ih fun k d hk => hs k d (by omega))

theorem downTo_ind {D : Type*} {step : ℕ → D → D} {n : ℕ} {d : D} (P : ℕ → D → Prop)
    (h0 : P n d) (hs : ∀ k d, k < n → P (k + 1) d → P k (step k d)) : P 0 (downTo step n d) := by
  unfold downTo
  induction n generalizing d with
  | zero => simpa using h0
  | succ n ih =>
    rw [List.range_succ, List.foldr_append]
    exact ih (hs n d (by omega) h0) fun k d hk => hs k d (by omega)

/-! ## `nvSubtree_fromRow` -/

theorem nvRowStep_in (s : Sys K) (i : ℕ) (T : ℕ → ℕ) {k : ℕ} (hk : k < s.jnv i) :
    nvRowStep s i T (s.iv i + k) = s.nvSub i - k := by
  unfold nvRowStep
  have := fwd_ind (P := fun m (Q : ℕ → ℕ) => ∀ l, l < m → Q (s.iv i + l) = s.nvSub i - l)
    (step := fun row (T : ℕ → ℕ) => upd T (s.iv i + row) (s.nvSub i - row)) (n := s.jnv i)
    (d := upd T (s.iv i) (s.nvSub i))
    (by omega) (fun l a => by
      have : l = 0 := by omega
      subst this; exact upd_self _ _ _) (by
      intro m Q m1 _ ih l hl
      by_cases e : l = m
      · subst e; exact upd_self _ _ _
      · rw [upd_ne _ _ (by omega)]; exact ih l (by omega))
  exact this k hk

theorem nvRowStep_out (s : Sys K) (i : ℕ) (T : ℕ → ℕ) {r : ℕ} (h0 : r ≠ s.iv i)
    (h : ¬ (s.iv i ≤ r ∧ r < s.iv i + s.jnv i)) : nvRowStep s i T r = T r := by
  unfold nvRowStep
  apply fwd_inv (P := fun (Q : ℕ → ℕ) => Q r = _)
  · exact upd_ne _ _ h0
  · intro k Q h1 hk ih
    rw [upd_ne _ _ (by omega)]; exact ih

theorem nvSubtreeFromRow_spec [CommRing K] {s : Sys K} (h : s.Packed) (hf : s.Full) :
    ∀ i, 1 ≤ i → i < s.n → ∀ k, k < s.jnv i → nvSubtreeFromRow s (s.iv i + k) = s.nvSub i - k := by
  unfold nvSubtreeFromRow
  apply fwd_ind (P := fun m (T : ℕ → ℕ) => ∀ i, 1 ≤ i → i < m → ∀ k, k < s.jnv i →
    T (s.iv i + k) = s.nvSub i - k) h.par.1
  · intro i a b; omega
  · intro m T m1 hm ih i i1 hi k hk
    by_cases e : i = m
    · subst e
      exact nvRowStep_in s i T hk
    · have him : i < m := by omega
      have := h.mono i1 him hm
      rw [nvRowStep_out s m T (by omega) (by omega)]; exact ih i i1 him k hk

/-- Rows in a depth-first order: the rows below row `r` are the `sz r - 1` rows that follow it. -/
structure Lam (N : ℕ) (sz : ℕ → ℕ) : Prop where
  pos : ∀ r < N, 1 ≤ sz r
  le : ∀ r < N, r + sz r ≤ N
  nest : ∀ r c, r < N → r < c → c < r + sz r → c + sz c ≤ r + sz r

/-- row `c` is strictly below row `r` -/
def Below (sz : ℕ → ℕ) (r c : ℕ) : Prop := r < c ∧ c < r + sz r

instance (sz : ℕ → ℕ) (r c : ℕ) : Decidable (Below sz r c) := inferInstanceAs (Decidable (_ ∧ _))

theorem Below.trans {N : ℕ} {sz : ℕ → ℕ} (h : Lam N sz) {r c k : ℕ} (hr : r < N) (a : Below sz r c) (b : Below sz c k) :
    Below sz r k := by
  have := h.nest r c hr a.1 a.2
  exact ⟨by have := a.1; have := b.1; omega, by have := b.2; omega⟩

/-- for a depth-first model, `nvSubtree_fromRow` describes the tree of rows -/
theorem anc_iff_below [CommRing K] {s : Sys K} (h : s.Packed) (hf : s.Full) (hc : Compact s.par s.n) {r c : ℕ}
    (hr : r < s.nv) (hcv : c < s.nv) :
    anc s.rpar (r + 1) (c + 1) ↔ r ≤ c ∧ c < r + nvSubtreeFromRow s r := by
  obtain ⟨i, k, hi1, hi, hk, rfl⟩ := h.cover hr
  obtain ⟨j, l, hj1, hj, hl, rfl⟩ := h.cover hcv
  rw [anc_row h hf hi1 hi hk j hj1 hj l hl, nvSubtreeFromRow_spec h hf i hi1 hi k hk]
  have hsub := h.nvSub_iff hc hi1 hi hj1 hj hl
  have hkk : k < s.nvSub i := by
    have := (h.nvSub_iff hc hi1 hi hi1 hi hk).2 (anc_refl h.par hi); omega
  by_cases e : i = j
  · subst e
    have := hsub.2 (anc_refl h.par hi)
    constructor
    · rintro (⟨-, e⟩ | ⟨e, -⟩)
      · omega
      · exact absurd rfl e
    · intro hh; left; exact ⟨rfl, by omega⟩
  · constructor
    · rintro (⟨e', -⟩ | ⟨-, ha⟩)
      · exact absurd e' e
      · have h1 := hsub.2 ha
        have hlt : i < j := lt_of_le_of_ne (anc_le h.par j hj ha) e
        have := h.mono hi1 hlt hj
        omega
    · intro hh
      right
      exact ⟨e, hsub.1 (by omega)⟩

theorem lam_rows [CommRing K] {s : Sys K} (h : s.Packed) (hf : s.Full) (hc : Compact s.par s.n) :
    Lam s.nv (nvSubtreeFromRow s) := by
  have hp := rpar_ok h hf
  have hpos : ∀ r < s.nv, 1 ≤ nvSubtreeFromRow s r := by
    intro r hr
    have := (anc_iff_below h hf hc hr hr).1 (anc_refl hp (by omega))
    omega
  have hle : ∀ r < s.nv, r + nvSubtreeFromRow s r ≤ s.nv := by
    intro r hr
    obtain ⟨i, k, hi1, hi, hk, rfl⟩ := h.cover hr
    rw [nvSubtreeFromRow_spec h hf i hi1 hi k hk]
    obtain ⟨m, hlast, hm⟩ := lastChild_ok h.par i hi1 hi
    have hmi := anc_le h.par m hm.1.1 hm.1.2
    have := h.le_nv (show 1 ≤ m by omega) hm.1.1
    have him : s.iv i ≤ s.iv m := by
      rcases Nat.lt_or_ge i m with h' | h'
      · have := h.mono hi1 h' hm.1.1; omega
      · have : i = m := by omega
        rw [this]
    unfold Sys.nvSub
    rw [hlast]
    simp only [Int.toNat_natCast]
    omega
  refine ⟨hpos, hle, ?_⟩
  intro r c hr hrc hcr
  have hcv : c < s.nv := by have := hle r hr; omega
  have hl := hle c hcv
  have hp1 := hpos c hcv
  set k := c + nvSubtreeFromRow s c - 1 with hk
  have h1 := (anc_iff_below h hf hc hcv (show k < s.nv by omega)).2 ⟨by omega, by omega⟩
  have h2 := (anc_iff_below h hf hc hr hcv).2 ⟨by omega, hcr⟩
  have := (anc_iff_below h hf hc hr (show k < s.nv by omega)).1 (anc_trans hp h2 _ (by omega) h1)
  omega

/-- strict ancestors of a row are the rows it is below of -/
theorem anc_rpar_below [CommRing K] {s : Sys K} (h : s.Packed) (hf : s.Full) (hc : Compact s.par s.n) {r c : ℕ}
    (hcv : c < s.nv) : anc s.rpar (r + 1) (s.rpar (c + 1)) ↔ Below (nvSubtreeFromRow s) r c := by
  have hp := rpar_ok h hf
  have hpc := hp.2 (c + 1) (by omega) (by omega)
  have hst := anc_step (i := r + 1) (show 1 ≤ c + 1 by omega) hpc
  unfold Below
  constructor
  · intro ha
    have hlt := anc_le hp _ (by omega) ha
    have hr : r < s.nv := by omega
    have := (anc_iff_below h hf hc hr hcv).1 (hst.2 (Or.inr ha))
    omega
  · rintro ⟨h1, h2⟩
    have := (anc_iff_below h hf hc (by omega) hcv).2 ⟨by omega, h2⟩
    rcases hst.1 this with e | e
    · omega
    · exact e

/-! ## the factorisation -/

section
variable [Field K]

/-- What `decompose` leaves in `U`, `D`, `Dinv`. -/
structure CholOk (N : ℕ) (sz : ℕ → ℕ) (M : ℕ → ℕ → K) (k : ℕ) (U0 : ℕ → ℕ → K) (d : Chol K) : Prop where
  D : ∀ j, k ≤ j → j < N → d.D j = M j j - ∑ c ∈ Ico (j + 1) (j + sz j), d.U j c * (d.U j c * d.D c)
  Dinv : ∀ j, k ≤ j → j < N → d.Dinv j = 1 / d.D j
  U : ∀ i j, k ≤ j → j < N → Below sz i j →
    d.U i j = (M i j - ∑ c ∈ Ico (j + 1) (j + sz j), d.U i c * (d.U j c * d.D c)) * d.Dinv j
  out : ∀ i j, ¬ (k ≤ j ∧ j < N ∧ Below sz i j) → d.U i j = U0 i j

variable {s : Sys K}

theorem cholStep_U (h : s.Packed) (hf : s.Full) (hc : Compact s.par s.n) (M : ℕ → ℕ → K) {j : ℕ} (hj : j < s.nv)
    (d : Chol K) (i c : ℕ) : (cholStep s M j d).U i c =
      if Below (nvSubtreeFromRow s) i j ∧ c = j then
        (M i j - ∑ c ∈ Ico (j + 1) (j + nvSubtreeFromRow s j), d.U i c * (d.U j c * d.D c)) * (cholStep s M j d).Dinv j
      else d.U i c := by
  have hl := lam_rows h hf hc
  have hpos := hl.pos j hj
  have e : j + 1 + (nvSubtreeFromRow s j - 1) = j + nvSubtreeFromRow s j := by omega
  have hp := rpar_ok h hf
  have hpj := hp.2 (j + 1) (by omega) (by omega)
  unfold cholStep
  simp only [e]
  rw [parentsFromRow_eq h hf hj]
  classical
  rw [rowLoop_eq h hf (fun i row => upd row j
        ((M i j - ∑ c ∈ Ico (j + 1) (j + nvSubtreeFromRow s j), row c * (d.U j c * d.D c)) *
          upd d.Dinv j (1 / upd d.D j (M j j - ∑ c ∈ Ico (j + 1) (j + nvSubtreeFromRow s j),
            d.U j c * (d.U j c * d.D c)) j) j)) (s.rpar (j + 1)) (by omega) (by omega) d.U i]
  by_cases hb : Below (nvSubtreeFromRow s) i j
  · rw [if_pos ((anc_rpar_below h hf hc hj).2 hb)]
    by_cases hcj : c = j
    · subst hcj; rw [if_pos ⟨hb, rfl⟩, upd_self]
    · rw [if_neg (by tauto), upd_ne _ _ hcj]
  · rw [if_neg (fun ha => hb ((anc_rpar_below h hf hc hj).1 ha)), if_neg (by tauto)]

theorem decompose_ok (h : s.Packed) (hf : s.Full) (hc : Compact s.par s.n) (M : ℕ → ℕ → K) (d : Chol K) :
    CholOk s.nv (nvSubtreeFromRow s) M 0 d.U (decompose s M d) := by
  have hl := lam_rows h hf hc
  unfold decompose
  apply downTo_ind (P := fun k d' => CholOk s.nv (nvSubtreeFromRow s) M k d.U d')
  · exact ⟨fun j a b => by omega, fun j a b => by omega, fun i j a b => by omega, fun i j _ => rfl⟩
  · intro j d' hj ih
    have hpos := hl.pos j hj
    have e : j + 1 + (nvSubtreeFromRow s j - 1) = j + nvSubtreeFromRow s j := by omega
    have hU := cholStep_U h hf hc M hj d'
    -- columns after `j` are not written
    have hUc : ∀ i c, c ≠ j → (cholStep s M j d').U i c = d'.U i c := by
      intro i c hcj; rw [hU, if_neg (by tauto)]
    have hD : ∀ c, c ≠ j → (cholStep s M j d').D c = d'.D c := fun c hcj => upd_ne _ _ hcj
    have hDi : ∀ c, c ≠ j → (cholStep s M j d').Dinv c = d'.Dinv c := fun c hcj => upd_ne _ _ hcj
    have hDj : (cholStep s M j d').D j = M j j - ∑ c ∈ Ico (j + 1) (j + nvSubtreeFromRow s j),
        d'.U j c * (d'.U j c * d'.D c) := by
      unfold cholStep; simp only [e]; exact upd_self _ _ _
    have hDij : (cholStep s M j d').Dinv j = 1 / (cholStep s M j d').D j := by
      unfold cholStep; exact upd_self _ _ _
    have hsum : ∀ j', j ≤ j' → ∀ i i', ∑ c ∈ Ico (j' + 1) (j' + nvSubtreeFromRow s j'),
        (cholStep s M j d').U i c * ((cholStep s M j d').U i' c * (cholStep s M j d').D c)
        = ∑ c ∈ Ico (j' + 1) (j' + nvSubtreeFromRow s j'), d'.U i c * (d'.U i' c * d'.D c) := by
      intro j' hj' i i'
      apply sum_congr rfl
      intro c hcm
      rw [mem_Ico] at hcm
      rw [hUc _ _ (by omega), hUc _ _ (by omega), hD _ (by omega)]
    refine ⟨?_, ?_, ?_, ?_⟩
    · intro j' a b
      rw [hsum j' a]
      by_cases ej : j' = j
      · subst ej; exact hDj
      · rw [hD _ ej]; exact ih.D j' (by omega) b
    · intro j' a b
      by_cases ej : j' = j
      · subst ej; exact hDij
      · rw [hDi _ ej, hD _ ej]; exact ih.Dinv j' (by omega) b
    · intro i j' a b hb
      rw [hsum j' a]
      by_cases ej : j' = j
      · subst ej; rw [hU, if_pos ⟨hb, rfl⟩]
      · rw [hUc _ _ ej, hDi _ ej]; exact ih.U i j' (by omega) b hb
    · intro i j' hn
      by_cases ej : j' = j
      · subst ej
        rw [hU, if_neg (by rintro ⟨hb, -⟩; exact hn ⟨le_rfl, hj, hb⟩)]
        exact ih.out i j' (by omega)
      · rw [hUc _ _ ej]
        exact ih.out i j' (by rintro ⟨a, b, c⟩; exact hn ⟨by omega, b, c⟩)

/-- `U` is unit upper triangular, with zeros but at the entries of the tree -/
def UnitSp (N : ℕ) (sz : ℕ → ℕ) (U : ℕ → ℕ → K) : Prop :=
  ∀ r < N, ∀ c < N, ¬ Below sz r c → U r c = if r = c then 1 else 0

/-- a product with a row of `U` -/
theorem UnitSp.row {N : ℕ} {sz : ℕ → ℕ} (h : Lam N sz) {U : ℕ → ℕ → K} (hU : UnitSp N sz U) {r : ℕ} (hr : r < N)
    (x : ℕ → K) : ∑ k ∈ range N, U r k * x k = x r + ∑ c ∈ Ico (r + 1) (r + sz r), U r c * x c := by
  have hle := h.le r hr
  have hpos := h.pos r hr
  have hsub : insert r (Ico (r + 1) (r + sz r)) ⊆ range N := by
    intro c hc
    rw [mem_insert, mem_Ico] at hc
    rw [mem_range]; omega
  rw [← sum_subset hsub]
  · rw [sum_insert (by simp), hU r hr r hr (by unfold Below; omega), if_pos rfl, one_mul]
  · intro c hc hnc
    rw [mem_range] at hc
    rw [mem_insert, mem_Ico] at hnc
    rw [hU r hr c hc (by unfold Below; omega), if_neg (by omega), zero_mul]

/-- a product with a column of `U` -/
theorem UnitSp.col {N : ℕ} {sz : ℕ → ℕ} {U : ℕ → ℕ → K} (hU : UnitSp N sz U) {c : ℕ} (hc : c < N)
    (x : ℕ → K) : ∑ k ∈ range N, U k c * x k
      = x c + ∑ k ∈ range N, if Below sz k c then U k c * x k else 0 := by
  have e : ∀ k ∈ range N, U k c * x k = (if k = c then x k else 0) + if Below sz k c then U k c * x k else 0 := by
    intro k hk
    rw [mem_range] at hk
    by_cases hb : Below sz k c
    · rw [if_pos hb, if_neg (by have := hb.1; omega), zero_add]
    · rw [if_neg hb, hU k hk c hc hb, add_zero]; split <;> simp
  rw [sum_congr rfl e, sum_add_distrib]
  congr 1
  rw [sum_ite_eq' (range N) c, if_pos (mem_range.2 hc)]

/-- entry of the product `U D Uᵀ` -/
theorem chol_factor {N : ℕ} {sz : ℕ → ℕ} (h : Lam N sz) {M U0 : ℕ → ℕ → K} {d : Chol K} (hd : CholOk N sz M 0 U0 d)
    (hU : UnitSp N sz d.U) (hM : ∀ r c, r < c → c < N → ¬ Below sz r c → M r c = 0)
    {r c : ℕ} (hrc : r ≤ c) (hc : c < N) (hD : r = c ∨ d.D c ≠ 0) :
    ∑ k ∈ range N, d.U r k * d.D k * d.U c k = M r c := by
  have hr : r < N := by omega
  have e0 : ∑ k ∈ range N, d.U r k * d.D k * d.U c k = ∑ k ∈ range N, d.U c k * (d.U r k * d.D k) :=
    sum_congr rfl fun k _ => by ring
  rw [e0, hU.row h hc]
  have e1 : ∑ k ∈ Ico (c + 1) (c + sz c), d.U c k * (d.U r k * d.D k)
      = ∑ k ∈ Ico (c + 1) (c + sz c), d.U r k * (d.U c k * d.D k) := sum_congr rfl fun k _ => by ring
  rw [e1]
  by_cases hb : Below sz r c
  · have hDc : d.D c ≠ 0 := by
      rcases hD with e | e
      · have := hb.1; omega
      · exact e
    have hu := hd.U r c (by omega) hc hb
    rw [hd.Dinv c (by omega) hc] at hu
    have : d.U r c * d.D c = M r c - ∑ k ∈ Ico (c + 1) (c + sz c), d.U r k * (d.U c k * d.D k) := by
      rw [hu]; field_simp
    rw [this]; ring
  · by_cases e : r = c
    · subst e
      rw [hU r hr r hr hb, if_pos rfl]
      have := hd.D r (by omega) hr
      linear_combination this
    · rw [hU r hr c hc hb, if_neg e, hM r c (by omega) hc hb, zero_mul, zero_add]
      apply sum_eq_zero
      intro k hk
      rw [mem_Ico] at hk
      have hle := h.le c hc
      rw [hU r hr k (by omega) (fun hk' => hb ⟨by omega, by have := hk'.2; omega⟩), if_neg (by omega), zero_mul]

/-! ## products and solves -/

theorem Uv_spec {s : Sys K} (h : Lam s.nv (nvSubtreeFromRow s)) {U : ℕ → ℕ → K} (hU : UnitSp s.nv (nvSubtreeFromRow s) U)
    (v : ℕ → K) {r : ℕ} (hr : r < s.nv) : cholUv s U v r = ∑ k ∈ range s.nv, U r k * v k := by
  have key : ∀ r, cholUv s U v r = if r < s.nv - 1 then
      v r + ∑ c ∈ Ico (r + 1) (r + 1 + (nvSubtreeFromRow s r - 1)), U r c * v c else v r := by
    unfold cholUv
    apply upTo_ind (P := fun m (w : ℕ → K) => ∀ r, w r = if r < m then
      v r + ∑ c ∈ Ico (r + 1) (r + 1 + (nvSubtreeFromRow s r - 1)), U r c * v c else v r)
    · intro r; rw [if_neg (by omega)]
    · intro k w hk ih r
      by_cases e : r = k
      · subst e
        rw [upd_self, if_pos (by omega), ih r, if_neg (by omega)]
        congr 1
        apply sum_congr rfl
        intro c hc
        rw [mem_Ico] at hc
        rw [ih c, if_neg (by omega)]
      · rw [upd_ne _ _ e, ih r]
        by_cases h' : r < k
        · rw [if_pos h', if_pos (by omega)]
        · rw [if_neg h', if_neg (by omega)]
  rw [key, hU.row h hr]
  have hpos := h.pos r hr
  have hle := h.le r hr
  have e : r + 1 + (nvSubtreeFromRow s r - 1) = r + nvSubtreeFromRow s r := by omega
  rw [e]
  split
  · rfl
  · have : nvSubtreeFromRow s r = 1 := by omega
    rw [this, Ico_self, sum_empty, add_zero]

theorem Uiv_spec {s : Sys K} (h : Lam s.nv (nvSubtreeFromRow s)) {U : ℕ → ℕ → K} (hU : UnitSp s.nv (nvSubtreeFromRow s) U)
    (v : ℕ → K) {r : ℕ} (hr : r < s.nv) : ∑ k ∈ range s.nv, U r k * cholUiv s U v k = v r := by
  have key : ∀ r, (r < s.nv - 1 → cholUiv s U v r
        + ∑ c ∈ Ico (r + 1) (r + 1 + (nvSubtreeFromRow s r - 1)), U r c * cholUiv s U v c = v r) ∧
      (¬ r < s.nv - 1 → cholUiv s U v r = v r) := by
    unfold cholUiv
    have := downTo_ind (n := s.nv - 1) (d := v) (step := fun k v => upd v k (v k - ∑ c ∈ Ico (k + 1) (k + 1 + (nvSubtreeFromRow s k - 1)), U k c * v c))
      (P := fun m (w : ℕ → K) => ∀ r, (m ≤ r → r < s.nv - 1 →
        w r + ∑ c ∈ Ico (r + 1) (r + 1 + (nvSubtreeFromRow s r - 1)), U r c * w c = v r) ∧
        (¬ (m ≤ r ∧ r < s.nv - 1) → w r = v r)) ?_ ?_
    · intro r
      exact ⟨(this r).1 (by omega), fun hr => (this r).2 (by omega)⟩
    · intro r; exact ⟨fun a b => by omega, fun _ => rfl⟩
    · intro k w hk ih r
      have hsum : ∀ r, k ≤ r → ∀ y, ∑ c ∈ Ico (r + 1) (r + 1 + (nvSubtreeFromRow s r - 1)), U r c * upd w k y c
          = ∑ c ∈ Ico (r + 1) (r + 1 + (nvSubtreeFromRow s r - 1)), U r c * w c := by
        intro r hr y
        apply sum_congr rfl
        intro c hc
        rw [mem_Ico] at hc
        rw [upd_ne _ _ (by omega)]
      constructor
      · intro a b
        rw [hsum r a]
        by_cases e : r = k
        · subst e
          rw [upd_self, (ih r).2 (by omega)]; ring
        · rw [upd_ne _ _ e]; exact (ih r).1 (by omega) b
      · intro hn
        rw [upd_ne _ _ (by omega)]; exact (ih r).2 (by omega)
  rw [hU.row h hr]
  have hpos := h.pos r hr
  have hle := h.le r hr
  have e : r + 1 + (nvSubtreeFromRow s r - 1) = r + nvSubtreeFromRow s r := by omega
  by_cases hn : r < s.nv - 1
  · have := (key r).1 hn; rwa [e] at this
  · have : nvSubtreeFromRow s r = 1 := by omega
    rw [this, Ico_self, sum_empty, add_zero]; exact (key r).2 hn

/-- `addSeg` over the rows below `k` -/
theorem addSeg_below {sz : ℕ → ℕ} {k : ℕ} (hpos : 1 ≤ sz k) (v : ℕ → K) (f : ℕ → K) (c : ℕ) :
    addSeg v (k + 1) (sz k - 1) (fun l => f (k + 1 + l)) c = v c + if Below sz k c then f c else 0 := by
  unfold addSeg
  by_cases hb : Below sz k c
  · have := hb.1
    have := hb.2
    rw [if_pos (by omega), if_pos hb]
    have : k + 1 + (c - (k + 1)) = c := by omega
    simp only [this]
  · rw [if_neg (by unfold Below at hb; omega), if_neg hb, add_zero]

/-- the last row has nothing below -/
theorem Lam.last {N : ℕ} {sz : ℕ → ℕ} (h : Lam N sz) {k c : ℕ} (hc : c < N) (hk : N - 1 ≤ k) : ¬ Below sz k c := by
  unfold Below; omega

theorem Utv_spec {s : Sys K} (h : Lam s.nv (nvSubtreeFromRow s)) {U : ℕ → ℕ → K} (hU : UnitSp s.nv (nvSubtreeFromRow s) U)
    (v : ℕ → K) {c : ℕ} (hc : c < s.nv) : cholUtv s U v c = ∑ k ∈ range s.nv, U k c * v k := by
  have key : ∀ c, cholUtv s U v c = v c + ∑ k ∈ Ico 0 (s.nv - 1),
      if Below (nvSubtreeFromRow s) k c then U k c * v k else 0 := by
    unfold cholUtv
    apply downTo_ind (P := fun m (w : ℕ → K) => ∀ c, w c = v c + ∑ k ∈ Ico m (s.nv - 1),
      if Below (nvSubtreeFromRow s) k c then U k c * v k else 0)
    · intro c; rw [Ico_self, sum_empty, add_zero]
    · intro m w hm ih c
      have hpos := h.pos m (by omega)
      have hwm : w m = v m := by
        rw [ih m, sum_eq_zero, add_zero]
        intro k hk
        rw [mem_Ico] at hk
        rw [if_neg (by unfold Below; omega)]
      rw [addSeg_below hpos w (fun c => U m c * w m) c, ih c, hwm, sum_eq_sum_Ico_succ_bot hm]
      ring
  rw [key, hU.col hc, ← range_eq_Ico]
  congr 1
  obtain ⟨N, hN⟩ : ∃ N, s.nv = N + 1 := ⟨s.nv - 1, by omega⟩
  rw [hN, sum_range_succ, if_neg (h.last hc (by omega)), add_zero]
  rfl

/-- what a forward elimination loop with `m` turns computes -/
theorem elim_spec {s : Sys K} (h : Lam s.nv (nvSubtreeFromRow s)) (U : ℕ → ℕ → K) (v : ℕ → K) {m : ℕ} (hm : m ≤ s.nv) :
    ∀ w, w = upTo (fun k v => addSeg v (k + 1) (nvSubtreeFromRow s k - 1) (fun l => -(U k (k + 1 + l) * v k))) m v →
    ∀ c, w c + ∑ k ∈ range m, (if Below (nvSubtreeFromRow s) k c then U k c * w k else 0) = v c := by
  rintro w rfl
  apply upTo_ind (P := fun m (w : ℕ → K) => ∀ c, w c + ∑ k ∈ range m,
      (if Below (nvSubtreeFromRow s) k c then U k c * w k else 0) = v c)
  · intro c; rw [range_zero, sum_empty, add_zero]
  · intro k w hk ih c
    have hpos := h.pos k (by omega)
    have hval := addSeg_below hpos w (fun c => -(U k c * w k))
    have hle : ∀ r ≤ k, addSeg w (k + 1) (nvSubtreeFromRow s k - 1) (fun l => -(U k (k + 1 + l) * w k)) r = w r := by
      intro r hr
      rw [hval, if_neg (by unfold Below; omega), add_zero]
    have hsum : ∑ r ∈ range (k + 1), (if Below (nvSubtreeFromRow s) r c then
        U r c * addSeg w (k + 1) (nvSubtreeFromRow s k - 1) (fun l => -(U k (k + 1 + l) * w k)) r else 0)
        = ∑ r ∈ range (k + 1), if Below (nvSubtreeFromRow s) r c then U r c * w r else 0 := by
      apply sum_congr rfl
      intro r hr
      rw [mem_range] at hr
      rw [hle r (by omega)]
    rw [hsum, hval, sum_range_succ, ← ih c]
    split <;> ring

theorem Utiv_spec {s : Sys K} (h : Lam s.nv (nvSubtreeFromRow s)) {U : ℕ → ℕ → K} (hU : UnitSp s.nv (nvSubtreeFromRow s) U)
    (v : ℕ → K) {c : ℕ} (hc : c < s.nv) : ∑ k ∈ range s.nv, U k c * cholUtiv s U v k = v c := by
  have key := elim_spec h U v (show s.nv - 1 ≤ s.nv by omega) (cholUtiv s U v) rfl c
  rw [hU.col hc, ← key]
  congr 1
  obtain ⟨N, hN⟩ : ∃ N, s.nv = N + 1 := ⟨s.nv - 1, by omega⟩
  rw [hN, sum_range_succ, if_neg (h.last hc (by omega)), add_zero]
  rfl

theorem Mv_spec {s : Sys K} (h : Lam s.nv (nvSubtreeFromRow s)) {M : ℕ → ℕ → K}
    (hM : ∀ r c, r < c → c < s.nv → ¬ Below (nvSubtreeFromRow s) r c → M r c = 0) (vin vout : ℕ → K) {r : ℕ}
    (hr : r < s.nv) : cholMv s M vin vout r = ∑ c ∈ range s.nv, symUpper M r c * vin c := by
  have key : ∀ c, 0 ≤ c → c < s.nv → cholMv s M vin vout c
      = (∑ e ∈ Ico c (c + nvSubtreeFromRow s c), M c e * vin e)
        + ∑ k ∈ Ico 0 s.nv, if Below (nvSubtreeFromRow s) k c then M k c * vin k else 0 := by
    unfold cholMv
    apply downTo_ind (P := fun m (w : ℕ → K) => ∀ c, m ≤ c → c < s.nv → w c
      = (∑ e ∈ Ico c (c + nvSubtreeFromRow s c), M c e * vin e)
        + ∑ k ∈ Ico m s.nv, if Below (nvSubtreeFromRow s) k c then M k c * vin k else 0)
    · intro c a b; omega
    · intro m w hm ih c hc hcn
      have hpos := h.pos m hm
      rw [addSeg_below hpos _ (fun c => M m c * vin m) c, sum_eq_sum_Ico_succ_bot hm]
      by_cases e : c = m
      · subst e
        rw [upd_self, sum_eq_zero (s := Ico (c + 1) s.nv)]
        · ring
        · intro k hk
          rw [mem_Ico] at hk
          rw [if_neg (by unfold Below; omega)]
      · rw [upd_ne _ _ e, ih c (by omega) hcn]; ring
  rw [key r (by omega) hr, ← range_eq_Ico]
  have hle := h.le r hr
  have e1 : ∑ e ∈ Ico r (r + nvSubtreeFromRow s r), M r e * vin e
      = ∑ e ∈ range s.nv, if r ≤ e then M r e * vin e else 0 := by
    rw [← sum_filter]
    have : Ico r (r + nvSubtreeFromRow s r) ⊆ (range s.nv).filter (fun e => r ≤ e) := by
      intro c hc
      rw [mem_Ico] at hc
      rw [mem_filter, mem_range]; omega
    apply sum_subset this
    intro c hc hn
    rw [mem_filter, mem_range] at hc
    rw [mem_Ico] at hn
    have := h.pos r hr
    rw [hM r c (by omega) hc.1 (by unfold Below; omega), zero_mul]
  rw [e1, ← sum_add_distrib]
  apply sum_congr rfl
  intro c hc
  rw [mem_range] at hc
  unfold symUpper
  by_cases hrc : r ≤ c
  · rw [if_pos hrc, if_pos hrc, if_neg (by unfold Below; omega), add_zero]
  · rw [if_neg hrc, if_neg hrc, zero_add]
    split
    · rfl
    · rename_i hb
      rw [hM c r (by omega) hr hb, zero_mul]

/-! ## the inverse -/

/-- `U y = e_col` with `y` zero after `col`: what the first loop of `Miunit` computes -/
theorem miunit_first {s : Sys K} (h : Lam s.nv (nvSubtreeFromRow s)) {U : ℕ → ℕ → K}
    (hU : UnitSp s.nv (nvSubtreeFromRow s) U) {col : ℕ} (hcol : col < s.nv) (v : ℕ → K) :
    ∀ y, y = downTo (fun k v => upd v k
      (-∑ c ∈ Ico (k + 1) (k + 1 + min col (nvSubtreeFromRow s k - 1)), U k c * v c)) (min col (s.nv - 1))
        (putSeg (upd v col 1) (col + 1) (s.nv - col - 1) (fun _ => 0)) →
    ∀ r < s.nv, (∑ k ∈ range s.nv, U r k * y k = if r = col then 1 else 0) ∧ (col < r → y r = 0) := by
  intro y hy
  have hmin : min col (s.nv - 1) = col := by omega
  rw [hmin] at hy
  have h0 : ∀ r, col ≤ r → r < s.nv → putSeg (upd v col 1) (col + 1) (s.nv - col - 1) (fun _ => (0 : K)) r
      = if r = col then 1 else 0 := by
    intro r h1 h2
    unfold putSeg
    by_cases e : r = col
    · subst e; rw [if_neg (by omega), if_pos rfl, upd_self]
    · rw [if_pos (by omega), if_neg e]
  have key : ∀ r, 0 ≤ r → r < s.nv → (col ≤ r → y r = if r = col then 1 else 0) ∧
      (r < col → y r = -∑ c ∈ Ico (r + 1) (r + 1 + min col (nvSubtreeFromRow s r - 1)), U r c * y c) := by
    rw [hy]
    apply downTo_ind (P := fun m (y : ℕ → K) => ∀ r, m ≤ r → r < s.nv → (col ≤ r → y r = if r = col then 1 else 0) ∧
      (r < col → y r = -∑ c ∈ Ico (r + 1) (r + 1 + min col (nvSubtreeFromRow s r - 1)), U r c * y c))
    · intro r h1 h2
      exact ⟨fun _ => h0 r h1 h2, fun hh => by omega⟩
    · intro k w hk ih r h1 h2
      constructor
      · intro hc
        rw [upd_ne _ _ (by omega)]; exact (ih r (by omega) h2).1 hc
      · intro hc
        have hs : ∀ x, ∑ c ∈ Ico (r + 1) (r + 1 + min col (nvSubtreeFromRow s r - 1)), U r c * upd w k x c
            = ∑ c ∈ Ico (r + 1) (r + 1 + min col (nvSubtreeFromRow s r - 1)), U r c * w c := by
          intro x
          apply sum_congr rfl
          intro c hcm
          rw [mem_Ico] at hcm
          rw [upd_ne _ _ (by omega)]
        rw [hs]
        by_cases e : r = k
        · subst e; rw [upd_self]
        · rw [upd_ne _ _ e]; exact (ih r (by omega) h2).2 hc
  intro r hr
  have hle := h.le r hr
  have hpos := h.pos r hr
  have hz : ∀ c, col < c → c < s.nv → y c = 0 := by
    intro c h1 h2
    rw [(key c (by omega) h2).1 (by omega), if_neg (by omega)]
  refine ⟨?_, fun hh => hz r hh hr⟩
  rw [hU.row h hr]
  by_cases hlt : r < col
  · rw [if_neg (by omega), (key r (by omega) hr).2 hlt, neg_add_eq_zero]
    apply sum_subset
    · intro c hc
      rw [mem_Ico] at hc ⊢; omega
    · intro c hc hn
      rw [mem_Ico] at hc hn
      rw [hz c (by omega) (by omega), mul_zero]
  · rw [(key r (by omega) hr).1 (by omega), sum_eq_zero, add_zero]
    intro c hc
    rw [mem_Ico] at hc
    rw [hz c (by omega) (by omega), mul_zero]

/-- unit upper triangular matrices have no kernel -/
theorem UnitSp.inj {N : ℕ} {sz : ℕ → ℕ} (h : Lam N sz) {U : ℕ → ℕ → K} (hU : UnitSp N sz U) {x y : ℕ → K}
    (he : ∀ r < N, ∑ k ∈ range N, U r k * x k = ∑ k ∈ range N, U r k * y k) : ∀ r < N, x r = y r := by
  have key : ∀ m r, r < N → N - r ≤ m → x r = y r := by
    intro m
    induction m with
    | zero => intro r hr hm; omega
    | succ m ih =>
      intro r hr hm
      have e := he r hr
      rw [hU.row h hr, hU.row h hr] at e
      have hle := h.le r hr
      have : ∑ c ∈ Ico (r + 1) (r + sz r), U r c * x c = ∑ c ∈ Ico (r + 1) (r + sz r), U r c * y c := by
        apply sum_congr rfl
        intro c hc
        rw [mem_Ico] at hc
        rw [ih c (by omega) (by omega)]
      rw [this] at e
      exact add_right_cancel e
  exact fun r hr => key N r hr (by omega)

/-- entries up to `col` of the result of `Miunit` are those of `solve(e_col)` -/
theorem miunit_spec {s : Sys K} (h : Lam s.nv (nvSubtreeFromRow s)) {d : Chol K}
    (hU : UnitSp s.nv (nvSubtreeFromRow s) d.U) {col : ℕ} (hcol : col < s.nv) (v : ℕ → K) {r : ℕ} (hr : r ≤ col) :
    cholMiunit s d col v r = cholSolve s d (fun k => if k = col then 1 else 0) r := by
  unfold cholMiunit
  generalize hy : downTo (fun k v => upd v k
      (-∑ c ∈ Ico (k + 1) (k + 1 + min col (nvSubtreeFromRow s k - 1)), d.U k c * v c)) (min col (s.nv - 1))
        (putSeg (upd v col 1) (col + 1) (s.nv - col - 1) (fun _ => 0)) = y
  have hy1 := miunit_first h hU hcol v y hy.symm
  -- the same first solve
  have hy2 : ∀ r < s.nv, y r = cholUiv s d.U (fun k => if k = col then 1 else 0) r := by
    apply hU.inj h
    intro r hr
    rw [(hy1 r hr).1, Uiv_spec h hU _ hr]
  generalize hz : upTo (fun k v => addSeg v (k + 1) (nvSubtreeFromRow s k - 1)
    (fun l => -(d.U k (k + 1 + l) * v k))) (col + 1) (fun r => if r < col + 1 then y r * d.Dinv r else y r) = z
  have e1 := elim_spec h d.U _ (show col + 1 ≤ s.nv by omega) z hz.symm
  have e2 := elim_spec h d.U _ (show s.nv - 1 ≤ s.nv by omega) (cholSolve s d (fun k => if k = col then 1 else 0)) rfl
  induction r using Nat.strong_induction_on with
  | _ r ih =>
    have a := e1 r
    have b := e2 r
    rw [if_pos (by omega), hy2 r (by omega)] at a
    rw [if_pos (by omega)] at b
    rw [← b] at a
    have hs : ∀ (w : ℕ → K) m, r ≤ m → ∑ k ∈ range m, (if Below (nvSubtreeFromRow s) k r then d.U k r * w k else 0)
        = ∑ k ∈ range r, (if Below (nvSubtreeFromRow s) k r then d.U k r * w k else 0) := by
      intro w m hm
      symm
      apply sum_subset
      · intro c hc; rw [mem_range] at *; omega
      · intro c hc hn
        rw [mem_range] at hn
        rw [if_neg (by unfold Below; omega)]
    rw [hs z _ (by omega), hs _ (s.nv - 1) (by omega)] at a
    have : ∑ k ∈ range r, (if Below (nvSubtreeFromRow s) k r then d.U k r * z k else 0)
        = ∑ k ∈ range r, (if Below (nvSubtreeFromRow s) k r then
            d.U k r * cholSolve s d (fun k => if k = col then 1 else 0) k else 0) := by
      apply sum_congr rfl
      intro k hk
      rw [mem_range] at hk
      rw [ih k hk (by omega)]
    rw [this] at a
    exact add_right_cancel a

theorem minv_upper {s : Sys K} (d : Chol K) (X : ℕ → ℕ → K) :
    ∀ r < s.nv, ∀ c < s.nv, r ≤ c → ∃ v, cholMinv s d X r c = cholMiunit s d c v r := by
  have key : ∀ r c, r < s.nv → c < s.nv → ∃ v, upTo (fun col (Minv : ℕ → ℕ → K) =>
    let x := cholMiunit s d col (fun r => Minv r col)
    fun r c => if c = col ∧ r < s.nv then x r else Minv r c) s.nv X r c = cholMiunit s d c v r := by
    intro r c hr hc
    refine upTo_ind (P := fun m (Y : ℕ → ℕ → K) => c < m → ∃ v, Y r c = cholMiunit s d c v r) ?_ ?_ hc
    · intro hc; omega
    · intro k Y hk ih hck
      by_cases e : c = k
      · subst e
        refine ⟨fun r => Y r c, ?_⟩
        rw [if_pos ⟨rfl, hr⟩]
      · obtain ⟨v, hv⟩ := ih (by omega)
        refine ⟨v, ?_⟩
        rw [if_neg (by tauto)]; exact hv
  intro r hr c hc hrc
  obtain ⟨v, hv⟩ := key r c hr hc
  refine ⟨v, ?_⟩
  unfold cholMinv
  simp only
  rw [if_neg (by omega)]; exact hv

theorem minv_lower {s : Sys K} (d : Chol K) (X : ℕ → ℕ → K) {r c : ℕ} (hr : r < s.nv) (hrc : c < r) :
    cholMinv s d X r c = cholMinv s d X c r := by
  unfold cholMinv
  simp only
  rw [if_pos ⟨hrc, hr⟩, if_neg (by omega)]

/-- a right inverse is a left inverse, on functions -/
theorem inv_comm {N : ℕ} {A B : ℕ → ℕ → K}
    (h : ∀ r < N, ∀ c < N, ∑ k ∈ range N, A r k * B k c = if r = c then 1 else 0) :
    ∀ r < N, ∀ c < N, ∑ k ∈ range N, B r k * A k c = if r = c then 1 else 0 := by
  have h1 : (Matrix.of fun (i j : Fin N) => A i j) * (Matrix.of fun (i j : Fin N) => B i j) = 1 := by
    ext i j
    rw [Matrix.mul_apply, Matrix.one_apply]
    have := h i i.2 j j.2
    rw [← Fin.sum_univ_eq_sum_range (fun k => A i k * B k j)] at this
    simp only [Matrix.of_apply]
    rw [this]
    simp only [Fin.ext_iff]
  have h2 := mul_eq_one_comm.1 h1
  intro r hr c hc
  have := congrFun (congrFun h2 ⟨r, hr⟩) ⟨c, hc⟩
  rw [Matrix.mul_apply, Matrix.one_apply] at this
  rw [← Fin.sum_univ_eq_sum_range (fun k => B r k * A k c)]
  simp only [Matrix.of_apply, Fin.mk.injEq] at this
  exact this

end
end Pin
