import Verif.Algo.Workspace
import Mathlib.Algebra.BigOperators.Intervals
import Mathlib.Tactic.Ring
import Mathlib.Tactic.Linarith

/-! # Lemmas on the enumerations of the reachable workspace -/

namespace Pin
namespace Workspace

/-- `x 0 < x 1 < … < x (k-1) < n`: a choice of `k` among `n`. -/
def IsComb (n k : ℕ) (x : ℕ → ℕ) : Prop :=
  (∀ i < k, x i < n) ∧ ∀ i, i + 1 < k → x i < x (i + 1)

/-- The first `k` indices agree. -/
def Agree (k : ℕ) (x y : ℕ → ℕ) : Prop := ∀ i < k, x i = y i

/-- `x` comes before `y` in lexicographic order. -/
def Before (k : ℕ) (x y : ℕ → ℕ) : Prop := ∃ d < k, (∀ i < d, x i = y i) ∧ x d < y d

variable {n k m : ℕ} {x y : ℕ → ℕ}

theorem findJ_none : ∀ {m}, findJ n k x m = none → ∀ i < m, x i = n - k + i
  | 0, _, i, hi => absurd hi (by omega)
  | m + 1, h, i, hi => by
    simp only [findJ] at h
    split at h
    · rename_i e
      rcases Nat.lt_succ_iff_lt_or_eq.mp hi with h' | rfl
      · exact findJ_none h i h'
      · exact e
    · simp at h

theorem findJ_some : ∀ {m j}, findJ n k x m = some j →
    j < m ∧ x j ≠ n - k + j ∧ ∀ i, j < i → i < m → x i = n - k + i
  | 0, _, h => by simp [findJ] at h
  | m + 1, j, h => by
    simp only [findJ] at h
    split at h
    · rename_i e
      obtain ⟨a, b, c⟩ := findJ_some h
      refine ⟨by omega, b, fun i h1 h2 => ?_⟩
      rcases Nat.lt_succ_iff_lt_or_eq.mp h2 with h' | rfl
      · exact c i h1 h'
      · exact e
    · rename_i e
      simp only [Option.some.injEq] at h
      subst h
      exact ⟨by omega, e, fun i h1 h2 => absurd h2 (by omega)⟩

theorem fill_eq (x : ℕ → ℕ) (j : ℕ) : ∀ c i, fill x j c i = if j < i ∧ i ≤ j + c then x j + (i - j) else x i
  | 0, i => by simp only [fill]; rw [if_neg (by omega)]
  | c + 1, i => by
    simp only [fill, Function.update_apply, fill_eq x j c]
    by_cases h : i = j + c + 1
    · subst h
      by_cases hc : c = 0
      · subst hc; simp
      · have h1 : j < j + c ∧ j + c ≤ j + c := by omega
        have h2 : j < j + c + 1 ∧ j + c + 1 ≤ j + (c + 1) := by omega
        rw [if_pos rfl, if_pos h1, if_pos h2]; omega
    · rw [if_neg h]
      by_cases h2 : j < i ∧ i ≤ j + c
      · rw [if_pos h2, if_pos (by omega)]
      · rw [if_neg h2, if_neg (by omega)]

theorem spread_eq : ∀ {c}, (∀ i < c, x i < x (i + 1)) → spread x c = x
  | 0, _ => rfl
  | c + 1, h => by
    simp only [spread]
    rw [spread_eq (c := c) (fun i hi => h i (by omega)), if_neg (by have := h c (by omega); omega)]

theorem IsComb.lower (h : IsComb n k x) : ∀ i < k, ∀ d, i + d < k → x i + d ≤ x (i + d) := by
  intro i _ d
  induction d with
  | zero => intro _; simp
  | succ d ih => intro hd; have := ih (by omega); have := h.2 (i + d) (by omega); show x i + (d + 1) ≤ x (i + d + 1); omega

theorem IsComb.upper (h : IsComb n k x) (hk : k ≤ n) (i : ℕ) (hi : i < k) : x i ≤ n - k + i := by
  have h1 := h.lower i hi (k - 1 - i) (by omega)
  have h2 := h.1 (i + (k - 1 - i)) (by omega)
  omega

theorem next_some {j : ℕ} (h : IsComb n k x) (e : findJ n k x k = some j) (i : ℕ) :
    nextComb n k x i = if i < j then x i else if i < k then x j + 1 + (i - j) else x i := by
  obtain ⟨a, b, c⟩ := findJ_some e
  have ef : ∀ i, fill (Function.update x j (x j + 1)) j (k - 1 - j) i
      = if i < j then x i else if i < k then x j + 1 + (i - j) else x i := by
    intro i
    rw [fill_eq]
    by_cases h1 : i < j
    · rw [if_neg (by omega), if_pos h1, Function.update_of_ne (by omega)]
    · rw [if_neg h1]
      by_cases h2 : i = j
      · subst h2; rw [if_neg (by omega), if_pos a]; simp
      · by_cases h3 : i < k
        · rw [if_pos (by omega), if_pos h3]; simp
        · rw [if_neg (by omega), if_neg h3, Function.update_of_ne h2]
  simp only [nextComb, e]
  rw [spread_eq, ef]
  intro i hi
  rw [ef, ef]
  by_cases h1 : i + 1 < j
  · rw [if_pos (by omega), if_pos h1]; exact h.2 i (by omega)
  · rw [if_neg h1, if_pos (by omega : i + 1 < k)]
    by_cases h2 : i < j
    · rw [if_pos h2]
      have := h.2 i (by omega)
      have e : i + 1 = j := by omega
      rw [e] at this ⊢; omega
    · rw [if_neg h2, if_pos (by omega)]; omega

theorem next_comb (h : IsComb n k x) (hk : k ≤ n) : IsComb n k (nextComb n k x) := by
  cases e : findJ n k x k with
  | none => simpa [nextComb, e] using h
  | some j =>
    obtain ⟨a, b, c⟩ := findJ_some e
    have hj := h.upper hk j a
    refine ⟨fun i hi => ?_, fun i hi => ?_⟩
    · rw [next_some h e]
      by_cases h1 : i < j
      · rw [if_pos h1]; exact h.1 i hi
      · rw [if_neg h1, if_pos hi]; omega
    · rw [next_some h e, next_some h e]
      by_cases h1 : i + 1 < j
      · rw [if_pos (by omega), if_pos h1]; exact h.2 i (by omega)
      · rw [if_neg h1, if_pos hi]
        by_cases h2 : i < j
        · rw [if_pos h2]
          have := h.2 i (by omega)
          have e : i + 1 = j := by omega
          rw [e] at this ⊢; omega
        · rw [if_neg h2, if_pos (by omega)]; omega

/-- Pointwise at most, on the first `k` indices: equal or before. -/
theorem agree_or_before (h : ∀ i < k, x i ≤ y i) : Agree k x y ∨ Before k x y := by
  classical
  by_cases hd : ∃ d, d < k ∧ x d ≠ y d
  · right
    refine ⟨Nat.find hd, (Nat.find_spec hd).1, fun i hi => ?_, ?_⟩
    · by_contra hne
      exact Nat.find_min hd hi ⟨by have := (Nat.find_spec hd).1; omega, hne⟩
    · have := h _ (Nat.find_spec hd).1
      have := (Nat.find_spec hd).2
      omega
  · left
    intro i hi
    by_contra hne
    exact hd ⟨i, hi, hne⟩

theorem no_gap (h : IsComb n k x) (hy : IsComb n k y) (hk : k ≤ n) (hxy : Before k x y) :
    Agree k (nextComb n k x) y ∨ Before k (nextComb n k x) y := by
  obtain ⟨d, hd, he, hlt⟩ := hxy
  have hyd := hy.upper hk d hd
  cases e : findJ n k x k with
  | none => have := findJ_none e d hd; omega
  | some j =>
    obtain ⟨a, b, c⟩ := findJ_some e
    by_cases h1 : j < d
    · have := c d h1 hd; omega
    by_cases h2 : d = j
    · subst h2
      apply agree_or_before
      intro i hi
      rw [next_some h e]
      by_cases h3 : i < d
      · rw [if_pos h3, he i h3]
      · rw [if_neg h3, if_pos hi]
        have := hy.lower d hd (i - d) (by omega)
        rw [Nat.add_sub_of_le (by omega)] at this
        omega
    · right
      refine ⟨d, hd, fun i hi => ?_, ?_⟩
      · rw [next_some h e, if_pos (by omega), he i hi]
      · rw [next_some h e, if_pos (by omega)]; exact hlt

/-- Number of combinations after `x` in lexicographic order. -/
def after (n k : ℕ) (x : ℕ → ℕ) : ℕ := ∑ i ∈ Finset.range k, (n - 1 - x i).choose (k - i)

theorem hockey (a : ℕ) : ∀ b, b ≤ a + 1 → ∑ t ∈ Finset.range b, (a - t).choose (b - t) + 1 = (a + 1).choose b := by
  induction a with
  | zero =>
    intro b hb
    obtain rfl | rfl : b = 0 ∨ b = 1 := by omega
    · simp
    · simp
  | succ a ih =>
    intro b hb
    cases b with
    | zero => simp
    | succ b =>
      rw [Finset.sum_range_succ', Nat.choose_succ_succ']
      have := ih b (by omega)
      simp only [Nat.add_sub_add_right, Nat.sub_zero]
      omega

theorem after_next {j : ℕ} (h : IsComb n k x) (hk : k ≤ n) (e : findJ n k x k = some j) :
    after n k (nextComb n k x) + 1 = after n k x := by
  obtain ⟨a, b, c⟩ := findJ_some e
  have hj := h.upper hk j a
  have hs : ∀ f : ℕ → ℕ, ∑ i ∈ Finset.range k, f i
      = ∑ i ∈ Finset.range j, f i + ∑ t ∈ Finset.range (k - j), f (j + t) := by
    intro f
    rw [← Finset.sum_range_add, Nat.add_sub_of_le a.le]
  have h1 : ∑ i ∈ Finset.range j, (n - 1 - nextComb n k x i).choose (k - i)
      = ∑ i ∈ Finset.range j, (n - 1 - x i).choose (k - i) :=
    Finset.sum_congr rfl fun i hi => by
      rw [next_some h e, if_pos (Finset.mem_range.mp hi)]
  have h2 : ∑ t ∈ Finset.range (k - j), (n - 1 - nextComb n k x (j + t)).choose (k - (j + t))
      = ∑ t ∈ Finset.range (k - j), (n - 2 - x j - t).choose (k - j - t) :=
    Finset.sum_congr rfl fun t ht => by
      have := Finset.mem_range.mp ht
      rw [next_some h e, if_neg (by omega), if_pos (by omega)]
      congr 1 <;> omega
  have h3 : ∑ t ∈ Finset.range (k - j), (n - 1 - x (j + t)).choose (k - (j + t))
      = (n - 1 - x j).choose (k - j) := by
    rw [show k - j = (k - j - 1) + 1 from by omega, Finset.sum_range_succ']
    have : ∑ t ∈ Finset.range (k - j - 1), (n - 1 - x (j + (t + 1))).choose (k - (j + (t + 1))) = 0 :=
      Finset.sum_eq_zero fun t ht => by
        have := Finset.mem_range.mp ht
        rw [c (j + (t + 1)) (by omega) (by omega)]
        exact Nat.choose_eq_zero_of_lt (by omega)
    rw [this, Nat.zero_add]
    congr 1
    omega
  have h4 := hockey (n - 2 - x j) (k - j) (by omega)
  rw [show n - 2 - x j + 1 = n - 1 - x j from by omega] at h4
  simp only [after]
  rw [hs, hs fun i => (n - 1 - x i).choose (k - i), h1, h2, h3]
  omega

theorem after_none (e : findJ n k x k = none) : after n k x = 0 :=
  Finset.sum_eq_zero fun i hi => by
    have hi := Finset.mem_range.mp hi
    rw [findJ_none e i hi]
    exact Nat.choose_eq_zero_of_lt (by omega)

theorem spread_first {k : ℕ} (hk : 2 ≤ k) : ∀ c ≤ k - 1, ∀ i,
    spread (Function.update (fun _ => 0) (k - 1) 1) c i
      = if i ≤ c then i else if i = k - 1 then 1 else 0
  | 0, _, i => by
    simp only [spread, Function.update_apply]
    split_ifs <;> omega
  | c + 1, hc, i => by
    simp only [spread]
    have ih := spread_first hk c (by omega)
    have e0 : spread (Function.update (fun _ => 0) (k - 1) 1) c c = c := by rw [ih, if_pos le_rfl]
    have e1 : spread (Function.update (fun _ => 0) (k - 1) 1) c (c + 1) = if c + 1 = k - 1 then 1 else 0 := by
      rw [ih, if_neg (by omega)]
    rw [e0, e1]
    by_cases hb : (if c + 1 = k - 1 then 1 else 0) ≤ c
    · rw [if_pos hb, Function.update_apply]
      by_cases hi : i = c + 1
      · rw [if_pos hi, if_pos (by omega), hi]
      · rw [if_neg hi, ih]
        by_cases h2 : i ≤ c
        · rw [if_pos h2, if_pos (show i ≤ c + 1 by omega)]
        · rw [if_neg h2, if_neg (show ¬i ≤ c + 1 by omega)]
    · rw [if_neg hb, ih]
      have hc0 : c + 1 = k - 1 ∧ c = 0 := by
        split at hb <;> omega
      by_cases h2 : i ≤ c
      · rw [if_pos h2, if_pos (show i ≤ c + 1 by omega)]
      · rw [if_neg h2]
        by_cases hi : i = k - 1
        · rw [if_pos hi, if_pos (show i ≤ c + 1 by omega)]; omega
        · rw [if_neg hi, if_neg (show ¬i ≤ c + 1 by omega)]

theorem combAt_zero (hk : 2 ≤ k) (hn : k ≤ n) (i : ℕ) (hi : i < k) : combAt n k 0 i = i := by
  have e : findJ n k (fun _ => 0) k = some (k - 1) := by
    obtain ⟨k', rfl⟩ : ∃ k', k = k' + 1 := ⟨k - 1, by omega⟩
    simp only [findJ]
    rw [if_neg (by omega)]; rfl
  simp only [combAt, nextComb, e, Nat.sub_self, fill, Nat.zero_add]
  rw [spread_first hk _ le_rfl, if_pos (by omega)]

theorem after_congr (h : Agree k x y) : after n k x = after n k y :=
  Finset.sum_congr rfl fun i hi => by rw [h i (Finset.mem_range.mp hi)]

theorem combAt_ok (hk : 2 ≤ k) (hn : k ≤ n) : ∀ c, c < n.choose k →
    IsComb n k (combAt n k c) ∧ after n k (combAt n k c) + c + 1 = n.choose k ∧
    ∀ y, IsComb n k y → Before k (combAt n k c) y ∨ ∃ c' ≤ c, Agree k (combAt n k c') y
  | 0, _ => by
    have h0 := combAt_zero hk hn
    have hc : IsComb n k (combAt n k 0) :=
      ⟨fun i hi => by rw [h0 i hi]; omega, fun i hi => by rw [h0 i (by omega), h0 _ hi]; omega⟩
    refine ⟨hc, ?_, fun y hy => ?_⟩
    · rw [after_congr (y := fun i => i) h0]
      have := hockey (n - 1) k (by omega)
      rw [show n - 1 + 1 = n from by omega] at this
      simp only [after]; omega
    · rcases agree_or_before (k := k) (x := combAt n k 0) (y := y) (fun i hi => by
        rw [h0 i hi]
        have := hy.lower 0 (by omega) i (by omega)
        rw [Nat.zero_add] at this; omega) with h | h
      · exact Or.inr ⟨0, le_rfl, h⟩
      · exact Or.inl h
  | c + 1, hc => by
    obtain ⟨h1, h2, h3⟩ := combAt_ok hk hn c (by omega)
    have hne : findJ n k (combAt n k c) k ≠ none := fun e => by have := after_none e; omega
    obtain ⟨j, e⟩ := Option.ne_none_iff_exists'.mp hne
    have h4 := after_next h1 hn e
    refine ⟨next_comb h1 hn, ?_, fun y hy => ?_⟩
    · show after n k (nextComb n k (combAt n k c)) + (c + 1) + 1 = _
      omega
    · rcases h3 y hy with h | ⟨c', hc', h⟩
      · rcases no_gap h1 hy hn h with h | h
        · exact Or.inr ⟨c + 1, le_rfl, h⟩
        · exact Or.inl h
      · exact Or.inr ⟨c', by omega, h⟩

theorem after_zero_max (h : IsComb n k x) (hn : k ≤ n) (h0 : after n k x = 0) : ∀ i < k, x i = n - k + i := by
  cases e : findJ n k x k with
  | none => exact findJ_none e
  | some j => have := after_next h hn e; omega

/-- Big-endian value of the first `r` digits in base `m`. -/
def val (m : ℕ) (x : ℕ → ℕ) : ℕ → ℕ
  | 0 => 0
  | i + 1 => val m x i * m + x i

theorem val_congr : ∀ {r}, Agree r x y → val m x r = val m y r
  | 0, _ => rfl
  | r + 1, h => by simp only [val]; rw [val_congr (r := r) (fun i hi => h i (by omega)), h r (by omega)]

theorem nextProd_ge : ∀ (r : ℕ) (x : ℕ → ℕ) (i : ℕ), r ≤ i → nextProd m x r i = x i
  | 0, _, _, _ => rfl
  | r + 1, x, i, hi => by
    simp only [nextProd]
    split
    · rw [Function.update_of_ne (by omega)]
    · rw [nextProd_ge r _ i (by omega), Function.update_of_ne (by omega)]

theorem val_lt (hm : 0 < m) : ∀ r, (∀ i < r, x i < m) → val m x r < m ^ r
  | 0, _ => by simp [val]
  | r + 1, h => by
    have h1 := val_lt hm r (fun i hi => h i (by omega))
    have h2 := h r (by omega)
    simp only [val, pow_succ]
    nlinarith

theorem nextProd_ok (hm : 0 < m) : ∀ (r : ℕ) (x : ℕ → ℕ), (∀ i < r, x i < m) →
    (∀ i < r, nextProd m x r i < m) ∧ val m (nextProd m x r) r = (val m x r + 1) % m ^ r
  | 0, x, _ => ⟨fun i hi => absurd hi (by omega), by simp [val, Nat.mod_one]⟩
  | r + 1, x, h => by
    have hr := h r (by omega)
    have hv := val_lt hm r (fun i hi => h i (by omega))
    simp only [nextProd]
    split
    · rename_i hlt
      refine ⟨fun i hi => ?_, ?_⟩
      · rw [Function.update_apply]; split
        · omega
        · exact h i hi
      · simp only [val, Function.update_self]
        rw [val_congr (y := x) (fun i hi => Function.update_of_ne (by omega) _ _), Nat.mod_eq_of_lt]
        · ring
        · have := Nat.mul_le_mul_right m hv
          rw [pow_succ]
          rw [Nat.succ_mul] at this
          omega
    · rename_i hge
      have e : x r = m - 1 := by omega
      obtain ⟨a, b⟩ := nextProd_ok hm r (Function.update x r 0) (fun i hi => by
        rw [Function.update_of_ne (by omega)]; exact h i (by omega))
      have er : nextProd m (Function.update x r 0) r r = 0 := by
        rw [nextProd_ge r _ r le_rfl, Function.update_self]
      refine ⟨fun i hi => ?_, ?_⟩
      · rcases Nat.lt_succ_iff_lt_or_eq.mp hi with h' | rfl
        · exact a i h'
        · rw [er]; exact hm
      · simp only [val]
        rw [er, b, val_congr (y := x) (fun i hi => Function.update_of_ne (by omega) _ _), e, pow_succ,
          ← Nat.mul_mod_mul_right, Nat.add_zero]
        congr 1
        obtain ⟨m', rfl⟩ : ∃ m', m = m' + 1 := ⟨m - 1, by omega⟩
        simp; ring

theorem val_inj (hm : 0 < m) : ∀ r, (∀ i < r, x i < m) → (∀ i < r, y i < m) → val m x r = val m y r → Agree r x y
  | 0, _, _, _ => fun i hi => absurd hi (by omega)
  | r + 1, hx, hy, h => by
    simp only [val] at h
    have h1 : x r = y r := by
      have := congrArg (· % m) h
      simpa [Nat.mul_add_mod', Nat.mod_eq_of_lt (hx r (by omega)), Nat.mod_eq_of_lt (hy r (by omega))] using this
    have h2 : val m x r = val m y r := by
      rw [h1] at h
      exact Nat.eq_of_mul_eq_mul_right hm (by omega)
    intro i hi
    rcases Nat.lt_succ_iff_lt_or_eq.mp hi with h' | rfl
    · exact val_inj hm r (fun i hi => hx i (by omega)) (fun i hi => hy i (by omega)) h2 i h'
    · exact h1

theorem val_zero : ∀ r, val m (fun _ => 0) r = 0
  | 0 => rfl
  | r + 1 => by simp [val, val_zero r]

theorem prodAt_ok (hm : 0 < m) (r : ℕ) : ∀ p, (∀ i < r, prodAt m r p i < m) ∧ val m (prodAt m r p) r = p % m ^ r
  | 0 => ⟨fun _ _ => hm, by simp [prodAt, val_zero]⟩
  | p + 1 => by
    obtain ⟨a, b⟩ := prodAt_ok hm r p
    obtain ⟨a', b'⟩ := nextProd_ok hm r _ a
    exact ⟨a', by rw [prodAt, b', b, Nat.mod_add_mod]⟩
end Workspace
end Pin
