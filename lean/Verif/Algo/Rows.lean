import Verif.Algo.World

/-!
# The rows of the joint velocity vector as a tree

`DataTpl::computeParents_fromRow` (`multibody/data.hxx:243-322`) builds, for every row of the joint velocity
vector, the row that precedes it on the way to the universe (`-1` when there is none). Several algorithms walk
this table with `for (j = start; j >= 0; j = parents_fromRow[j])`.

The tables `non_mimic_parents_fromRow` and `mimic_parents_fromRow` are not modelled: without mimic joint the
first is equal to `parents_fromRow` and a walk of the second from the first row of a joint visits nothing;
likewise `idx_vExtended` is `idx_v` and `idx_vExtended_to_idx_v_fromRow` is the identity.
-/

namespace Pin
open Finset
variable {K : Type*}

/-- One turn of the loop of `computeParents_fromRow`, `multibody/data.hxx:248-262, 299-301`. -/
def parRowStep (s : Sys K) (i : ℕ) (P : ℕ → ℤ) : ℕ → ℤ :=
  let P := upd P (s.iv i)
    (if s.par i > 0 then (s.iv (s.par i) : ℤ) + s.jnv (s.par i) - 1 else -1)
  fwd (fun row P => upd P (s.iv i + row) ((s.iv i : ℤ) + row - 1)) (s.jnv i) P

/-- `data.parents_fromRow`, `multibody/data.hxx:243-322`. The vector is created with `-1`
(`multibody/data.hxx:80`). -/
def parentsFromRow (s : Sys K) : ℕ → ℤ := fwd (parRowStep s) s.n (fun _ => -1)

/-- `for (j = start; j >= 0; j = P[j]) step(j)`; `fuel` bounds the number of turns, which is harmless as
`P[j] < j` (`rowLoop_eq`). -/
def rowLoop {D : Type*} (P : ℕ → ℤ) (step : ℕ → D → D) : ℕ → ℤ → D → D
  | 0, _, d => d
  | f + 1, j, d => if 0 ≤ j then rowLoop P step f (P j.toNat) (step j.toNat d) else d

/-- every joint has at least one degree of freedom -/
def Sys.Full (s : Sys K) : Prop := ∀ i, 1 ≤ i → i < s.n → 1 ≤ s.jnv i

/-- an invariant of the body is an invariant of the loop -/
theorem fwd_inv {D : Type*} {step : ℕ → D → D} {n : ℕ} {d : D} (P : D → Prop) (h0 : P d)
    (hs : ∀ i d, 1 ≤ i → i < n → P d → P (step i d)) : P (fwd step n d) := by
  rcases Nat.eq_zero_or_pos n with rfl | h
  · exact h0
  · exact fwd_ind (P := fun _ d => P d) h h0 hs

theorem parRowStep_first (s : Sys K) (i : ℕ) (P : ℕ → ℤ) :
    parRowStep s i P (s.iv i) = if s.par i > 0 then (s.iv (s.par i) : ℤ) + s.jnv (s.par i) - 1 else -1 := by
  unfold parRowStep
  apply fwd_inv (P := fun (Q : ℕ → ℤ) => Q (s.iv i) = _)
  · exact upd_self _ _ _
  · intro k Q h1 _ ih
    rw [upd_ne _ _ (by omega)]; exact ih

theorem parRowStep_out (s : Sys K) (i : ℕ) (P : ℕ → ℤ) {r : ℕ} (h0 : r ≠ s.iv i)
    (h : ¬ (s.iv i ≤ r ∧ r < s.iv i + s.jnv i)) : parRowStep s i P r = P r := by
  unfold parRowStep
  apply fwd_inv (P := fun (Q : ℕ → ℤ) => Q r = _)
  · exact upd_ne _ _ h0
  · intro k Q h1 hk ih
    rw [upd_ne _ _ (by omega)]; exact ih

theorem parRowStep_next (s : Sys K) (i : ℕ) (P : ℕ → ℤ) {k : ℕ} (h1 : 1 ≤ k) (hk : k < s.jnv i) :
    parRowStep s i P (s.iv i + k) = (s.iv i : ℤ) + k - 1 := by
  unfold parRowStep
  have := fwd_ind (P := fun m (Q : ℕ → ℤ) => ∀ l, 1 ≤ l → l < m → Q (s.iv i + l) = (s.iv i : ℤ) + l - 1)
    (step := fun row (P : ℕ → ℤ) => upd P (s.iv i + row) ((s.iv i : ℤ) + row - 1)) (n := s.jnv i)
    (d := upd P (s.iv i) (if s.par i > 0 then (s.iv (s.par i) : ℤ) + s.jnv (s.par i) - 1 else -1))
    (by omega) (fun l a b => by omega) (by
      intro m Q m1 _ ih l l1 hl
      by_cases e : l = m
      · subst e; exact upd_self _ _ _
      · rw [upd_ne _ _ (by omega)]; exact ih l l1 (by omega))
  exact this k h1 hk

section
variable {s : Sys K}

theorem parentsFromRow_spec [CommRing K] (h : s.Packed) (hf : s.Full) :
    ∀ i, 1 ≤ i → i < s.n →
      parentsFromRow s (s.iv i) = (if s.par i > 0 then (s.iv (s.par i) : ℤ) + s.jnv (s.par i) - 1 else -1) ∧
      ∀ k, 1 ≤ k → k < s.jnv i → parentsFromRow s (s.iv i + k) = (s.iv i : ℤ) + k - 1 := by
  unfold parentsFromRow
  apply fwd_ind (P := fun m (P : ℕ → ℤ) => ∀ i, 1 ≤ i → i < m →
    P (s.iv i) = (if s.par i > 0 then (s.iv (s.par i) : ℤ) + s.jnv (s.par i) - 1 else -1) ∧
      ∀ k, 1 ≤ k → k < s.jnv i → P (s.iv i + k) = (s.iv i : ℤ) + k - 1) h.par.1
  · intro i a b; omega
  · intro m P m1 hm ih i i1 hi
    by_cases e : i = m
    · subst e
      exact ⟨parRowStep_first s i P, fun k k1 hk => parRowStep_next s i P k1 hk⟩
    · have him : i < m := by omega
      have := h.mono i1 him hm
      have hfi := hf i i1 (by omega)
      obtain ⟨a, b⟩ := ih i i1 him
      refine ⟨?_, fun k k1 hk => ?_⟩
      · rw [parRowStep_out s m P (by omega) (by omega)]; exact a
      · rw [parRowStep_out s m P (by omega) (by omega)]; exact b k k1 hk

/-- the tree of rows: row `r` is node `r + 1`, node `0` is the universe -/
def Sys.rpar (s : Sys K) (m : ℕ) : ℕ := (parentsFromRow s (m - 1) + 1).toNat

variable [CommRing K]

/-- node of the last row of joint `i`, `0` for the universe -/
def Sys.rlast (s : Sys K) (i : ℕ) : ℕ := if i = 0 then 0 else s.iv i + s.jnv i

theorem rpar_first (h : s.Packed) (hf : s.Full) {i : ℕ} (h1 : 1 ≤ i) (hi : i < s.n) :
    s.rpar (s.iv i + 1) = s.rlast (s.par i) := by
  unfold Sys.rpar Sys.rlast
  rw [Nat.add_sub_cancel, (parentsFromRow_spec h hf i h1 hi).1]
  split <;> split <;> omega

theorem rpar_next (h : s.Packed) (hf : s.Full) {i k : ℕ} (h1 : 1 ≤ i) (hi : i < s.n) (k1 : 1 ≤ k)
    (hk : k < s.jnv i) : s.rpar (s.iv i + k + 1) = s.iv i + k := by
  unfold Sys.rpar
  rw [Nat.add_sub_cancel, (parentsFromRow_spec h hf i h1 hi).2 k k1 hk]
  omega

theorem parentsFromRow_eq (h : s.Packed) (hf : s.Full) {r : ℕ} (hr : r < s.nv) :
    parentsFromRow s r = (s.rpar (r + 1) : ℤ) - 1 := by
  obtain ⟨i, k, h1, hi, hk, rfl⟩ := h.cover hr
  have e : s.rpar (s.iv i + k + 1) = (parentsFromRow s (s.iv i + k) + 1).toNat := by
    unfold Sys.rpar; rw [Nat.add_sub_cancel]
  rw [e]
  have : -1 ≤ parentsFromRow s (s.iv i + k) := by
    obtain ⟨a, b⟩ := parentsFromRow_spec h hf i h1 hi
    rcases Nat.eq_zero_or_pos k with rfl | k1
    · rw [Nat.add_zero, a]; split <;> omega
    · rw [b k k1 hk]; omega
  omega

theorem rpar_ok (h : s.Packed) (hf : s.Full) : ParOk s.rpar (s.nv + 1) := by
  refine ⟨by omega, ?_⟩
  intro m m1 hm
  obtain ⟨i, k, h1, hi, hk, e⟩ := h.cover (show m - 1 < s.nv by omega)
  have : m = s.iv i + k + 1 := by omega
  subst this
  rcases Nat.eq_zero_or_pos k with rfl | k1
  · rw [Nat.add_zero, rpar_first h hf h1 hi]
    unfold Sys.rlast
    split
    · omega
    · have := h.mono (show 1 ≤ s.par i by omega) (h.par.2 i h1 hi) hi; omega
  · rw [rpar_next h hf h1 hi k1 hk]; omega

theorem rlast_lt (h : s.Packed) {i : ℕ} (hi : i < s.n) : s.rlast i < s.nv + 1 := by
  unfold Sys.rlast
  split
  · omega
  · have := h.le_nv (show 1 ≤ i by omega) hi; omega

theorem rlast_eq (hf : s.Full) {i : ℕ} (h1 : 1 ≤ i) (hi : i < s.n) :
    s.rlast i = s.iv i + (s.jnv i - 1) + 1 := by
  have := hf i h1 hi
  unfold Sys.rlast
  rw [if_neg (by omega)]; omega

/-- the rows above a row: those of the same joint that come first, and those of the ancestors -/
theorem anc_row (h : s.Packed) (hf : s.Full) {a k : ℕ} (ha1 : 1 ≤ a) (ha : a < s.n) (hk : k < s.jnv a) :
    ∀ i, 1 ≤ i → i < s.n → ∀ l, l < s.jnv i →
      (anc s.rpar (s.iv a + k + 1) (s.iv i + l + 1) ↔ (a = i ∧ k ≤ l) ∨ (a ≠ i ∧ anc s.par a i)) := by
  have hp := rpar_ok h hf
  intro i
  induction i using Nat.strong_induction_on with
  | _ i ih =>
    intro h1 hi l hl
    have hpi := h.par.2 i h1 hi
    have hb := h.le_nv h1 hi
    induction l with
    | zero =>
      rw [anc_step (by omega) (hp.2 _ (by omega) (by omega)), Nat.add_zero, rpar_first h hf h1 hi]
      rcases Nat.eq_zero_or_pos (s.par i) with hz | hz
      · have e0 : s.rlast (s.par i) = 0 := by unfold Sys.rlast; rw [if_pos hz]
        rw [e0, anc_zero]
        have hn : anc s.par a i ↔ a = i := by
          rw [anc_step h1 hpi, hz, anc_zero]; omega
        rw [hn]
        constructor
        · rintro (e | e)
          · have := h.inj ha1 ha h1 hi hk hl (by omega); exact Or.inl ⟨this.1, by omega⟩
          · omega
        · rintro (⟨rfl, e⟩ | ⟨e, e'⟩)
          · left; omega
          · exact absurd e' e
      · rw [rlast_eq hf hz (by omega), ih _ hpi hz (by omega) _ (by have := hf _ hz (by omega); omega),
          anc_step h1 hpi]
        have hfa := hf _ hz (show s.par i < s.n by omega)
        constructor
        · rintro (e | ⟨rfl, e⟩ | ⟨e, e'⟩)
          · have := h.inj ha1 ha h1 hi hk hl (by omega); exact Or.inl ⟨this.1, by omega⟩
          · exact Or.inr ⟨by omega, Or.inr (anc_refl h.par (by omega))⟩
          · refine Or.inr ⟨?_, Or.inr e'⟩
            rintro rfl
            have := anc_le h.par _ (show s.par a < s.n by omega) e'; omega
        · rintro (⟨rfl, e⟩ | ⟨e, e' | e'⟩)
          · left; omega
          · exact absurd e' e
          · right
            by_cases eq : a = s.par i
            · subst eq; left; exact ⟨rfl, by omega⟩
            · right; exact ⟨eq, e'⟩
    | succ l ihl =>
      have hr := rpar_next h hf h1 hi (show 1 ≤ l + 1 by omega) hl
      rw [anc_step (by omega) (hp.2 _ (by omega) (by omega)), hr]
      have e2 : s.iv i + (l + 1) = s.iv i + l + 1 := by omega
      have ihl' := ihl (by omega)
      rw [e2]
      refine Iff.trans (or_congr Iff.rfl ihl') ?_
      constructor
      · rintro (e | ⟨rfl, e⟩ | e)
        · have := h.inj ha1 ha h1 hi hk hl (by omega); exact Or.inl ⟨this.1, by omega⟩
        · exact Or.inl ⟨rfl, by omega⟩
        · exact Or.inr e
      · rintro (⟨rfl, e⟩ | e)
        · by_cases e3 : k = l + 1
          · left; omega
          · right; left; exact ⟨rfl, by omega⟩
        · exact Or.inr (Or.inr e)

/-- the rows met when walking up from the last row of joint `i` are those of its support -/
theorem anc_rlast (h : s.Packed) (hf : s.Full) {a k : ℕ} (ha1 : 1 ≤ a) (ha : a < s.n) (hk : k < s.jnv a)
    {i : ℕ} (hi : i < s.n) : anc s.rpar (s.iv a + k + 1) (s.rlast i) ↔ anc s.par a i := by
  rcases Nat.eq_zero_or_pos i with rfl | h1
  · have e0 : s.rlast 0 = 0 := rfl
    rw [e0, anc_zero, anc_zero]; omega
  · rw [rlast_eq hf h1 hi, anc_row h hf ha1 ha hk i h1 hi _ (by have := hf i h1 hi; omega)]
    constructor
    · rintro (⟨rfl, -⟩ | ⟨-, e⟩)
      · exact anc_refl h.par hi
      · exact e
    · intro e
      by_cases eq : a = i
      · subst eq; left; exact ⟨rfl, by omega⟩
      · exact Or.inr ⟨eq, e⟩

/-- A walk whose body rewrites one column: exactly the columns on the way are rewritten. -/
theorem rowLoop_eq {α : Type*} (h : s.Packed) (hf : s.Full) (g : ℕ → α → α) {fuel : ℕ} :
    ∀ m, m ≤ fuel → m < s.nv + 1 → ∀ (X : ℕ → α) (r : ℕ) [Decidable (anc s.rpar (r + 1) m)],
      rowLoop (parentsFromRow s) (fun j X => upd X j (g j (X j))) fuel ((m : ℤ) - 1) X r
        = if anc s.rpar (r + 1) m then g r (X r) else X r := by
  have hp := rpar_ok h hf
  induction fuel with
  | zero =>
    intro m hm _ X r _
    have : m = 0 := by omega
    subst this
    rw [if_neg (by rw [anc_zero]; omega)]; rfl
  | succ f ih =>
    intro m hm hmn X r _
    unfold rowLoop
    rcases Nat.eq_zero_or_pos m with rfl | m1
    · rw [if_neg (by omega), if_neg (by rw [anc_zero]; omega)]
    · have hpm := hp.2 m m1 hmn
      have e : (((m : ℤ) - 1).toNat) = m - 1 := by omega
      rw [if_pos (by omega), e, parentsFromRow_eq h hf (by omega)]
      have e2 : m - 1 + 1 = m := by omega
      rw [e2]
      classical
      rw [ih _ (by omega) (by omega)]
      have hs := anc_step (i := r + 1) m1 hpm
      by_cases er : r = m - 1
      · subst er
        have hno : ¬ anc s.rpar (m - 1 + 1) (s.rpar m) := by
          intro hc; have := anc_le hp _ (by omega) hc; omega
        rw [if_neg hno, if_pos (hs.2 (Or.inl (by omega))), upd_self]
      · rw [upd_ne _ _ er]
        by_cases hc : anc s.rpar (r + 1) (s.rpar m)
        · rw [if_pos hc, if_pos (hs.2 (Or.inr hc))]
        · rw [if_neg hc, if_neg]
          intro h'
          rcases hs.1 h' with h' | h'
          · omega
          · exact hc h'

end

end Pin
