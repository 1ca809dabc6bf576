import Verif.Model.Ancestor

/-! # Lemmas on `findCommonAncestor` and `getRelativePlacement` -/

namespace Pin
namespace Model
variable {K P : Type*}

/-- two strictly increasing lists; `i1`, `i2` are the positions of `j1`, `j2`, no common entry is beyond them -/
structure CaInv (s1 s2 : List ℕ) (j1 j2 i1 i2 : ℕ) : Prop where
  at1 : s1[i1]? = some j1
  at2 : s2[i2]? = some j2
  le : ∀ b, b ∈ s1 → b ∈ s2 → b ≤ j1 ∧ b ≤ j2

theorem sorted_lt {l : List ℕ} (hs : l.Pairwise (· < ·)) {i j a b : ℕ} (hi : l[i]? = some a) (hj : l[j]? = some b) :
    a < b ↔ i < j := by
  obtain ⟨hi', rfl⟩ := List.getElem?_eq_some_iff.1 hi
  obtain ⟨hj', rfl⟩ := List.getElem?_eq_some_iff.1 hj
  have h := List.pairwise_iff_getElem.1 hs
  constructor
  · intro hab
    rcases lt_trichotomy i j with h1 | h1 | h1
    · exact h1
    · subst h1; omega
    · have := h j i hj' hi' h1; omega
  · exact fun h1 => h i j hi' hj' h1

theorem step_back {l : List ℕ} (hs : l.Pairwise (· < ·)) (h0 : l[0]? = some 0) {i j c : ℕ} (hi : l[i]? = some j)
    (hc : c < j) : ∃ k a, i = k + 1 ∧ l[k]? = some a ∧ ∀ b ∈ l, b ≤ c → b ≤ a := by
  cases i with
  | zero => rw [h0] at hi; cases hi; omega
  | succ k =>
    obtain ⟨hi', -⟩ := List.getElem?_eq_some_iff.1 hi
    refine ⟨k, l[k], rfl, List.getElem?_eq_getElem (by omega), ?_⟩
    intro b hb hbc
    obtain ⟨n, hn, rfl⟩ := List.mem_iff_getElem.1 hb
    have h1 : n < k + 1 := (sorted_lt hs (List.getElem?_eq_getElem hn) hi).1 (by omega)
    by_contra hcon
    have h2 := (sorted_lt hs (List.getElem?_eq_getElem (by omega : k < l.length)) (List.getElem?_eq_getElem hn)).1 (by omega)
    omega

theorem caLoop_ok {s1 s2 : List ℕ} (hs1 : s1.Pairwise (· < ·)) (hs2 : s2.Pairwise (· < ·)) (h01 : s1[0]? = some 0)
    (h02 : s2[0]? = some 0) : ∀ n j1 j2 i1 i2, n = i1 + i2 → CaInv s1 s2 j1 j2 i1 i2 →
    ∃ a k1 k2, caLoop s1 s2 j1 j2 i1 i2 = some (a, k1, k2) ∧ CaInv s1 s2 a a k1 k2 := by
  intro n
  induction n using Nat.strong_induction_on with
  | _ n ih =>
    intro j1 j2 i1 i2 hn h
    unfold caLoop
    by_cases he : j1 = j2
    · subst he
      rw [if_pos rfl]
      exact ⟨_, _, _, rfl, h⟩
    · rw [if_neg he]
      by_cases hg : j1 > j2
      · rw [if_pos hg]
        obtain ⟨k, a, rfl, ha, hb⟩ := step_back hs1 h01 h.at1 hg
        dsimp only
        rw [ha]
        dsimp only
        exact ih (k + i2) (by omega) _ _ _ _ rfl ⟨ha, h.at2, fun b h1 h2 => ⟨hb b h1 (h.le b h1 h2).2, (h.le b h1 h2).2⟩⟩
      · rw [if_neg hg]
        obtain ⟨k, a, rfl, ha, hb⟩ := step_back hs2 h02 h.at2 (by omega : j1 < j2)
        dsimp only
        rw [ha]
        dsimp only
        exact ih (i1 + k) (by omega) _ _ _ _ rfl ⟨h.at1, ha, fun b h1 h2 => ⟨(h.le b h1 h2).1, hb b h2 (h.le b h1 h2).1⟩⟩

section
variable [Field K] [LinearOrder K] [HasEps K]

theorem supports_get {m : Model K P} (h : Inv m) {j : ℕ} (hj : j < m.njoints) :
    m.supports[j]? = some (m.supports.getD j []) := by
  have : j < m.supports.length := by rw [h.lens.supports]; exact hj
  simp [List.getD, List.getElem?_eq_getElem this]

theorem supports_zero {m : Model K P} (h : Inv m) {j : ℕ} (hj : j < m.njoints) :
    (m.supports.getD j [])[0]? = some 0 := by
  rw [← List.head?_eq_getElem?]; exact supports_head h j hj

theorem supports_last {m : Model K P} (h : Inv m) {j : ℕ} (hj : j < m.njoints) :
    (m.supports.getD j [])[(m.supports.getD j []).length - 1]? = some j := by
  rw [← List.getLast?_eq_getElem?]; exact supports_getLast h j hj

/-- Ancestors of a joint are ordered: the one with the smaller index is an ancestor of the other. -/
theorem Anc.total {m : Model K P} (h : Inv m) {a b : ℕ} : ∀ j, j < m.njoints → Anc m.parents a j →
    Anc m.parents b j → b ≤ a → Anc m.parents b a := by
  intro j
  induction j using Nat.strong_induction_on with
  | _ j ih =>
    intro hj ha hb hle
    cases ha with
    | refl => exact hb
    | up h1 h2 ha' =>
      have hlt := h.par j h1 hj
      cases hb with
      | refl =>
        have := mem_supports_le h _ (by omega) _ ((mem_supports_iff h _ _ (by omega)).2 ha')
        omega
      | up _ _ hb' => exact ih _ hlt (by omega) ha' hb' hle

theorem findCommonAncestor_ok {m : Model K P} (h : Inv m) {j1 j2 : ℕ} (h1 : j1 < m.njoints) (h2 : j2 < m.njoints) :
    ∃ a i1 i2, m.findCommonAncestor j1 j2 = .ok () (a, i1, i2) ∧
      (m.supports.getD j1 [])[i1]? = some a ∧ (m.supports.getD j2 [])[i2]? = some a ∧
      ∀ b, b ∈ m.supports.getD j1 [] → b ∈ m.supports.getD j2 [] → b ≤ a := by
  unfold findCommonAncestor
  rw [if_neg (not_not.2 h1), if_neg (not_not.2 h2)]
  by_cases h0 : j1 = 0 ∨ j2 = 0
  · rw [if_pos h0]
    refine ⟨0, 0, 0, rfl, supports_zero h h1, supports_zero h h2, ?_⟩
    intro b hb1 hb2
    have e1 := mem_supports_le h _ h1 b hb1
    have e2 := mem_supports_le h _ h2 b hb2
    omega
  · rw [if_neg h0, supports_get h h1, supports_get h h2]
    dsimp only
    have n1 := List.length_pos_of_ne_nil (supports_ne_nil h j1 h1)
    have n2 := List.length_pos_of_ne_nil (supports_ne_nil h j2 h2)
    rw [if_neg (by omega)]
    obtain ⟨a, k1, k2, e, hi⟩ := caLoop_ok (supports_sorted h j1 h1) (supports_sorted h j2 h2) (supports_zero h h1)
      (supports_zero h h2) _ j1 j2 _ _ rfl
      ⟨supports_last h h1, supports_last h h2, fun b hb1 hb2 =>
        ⟨mem_supports_le h _ h1 b hb1, mem_supports_le h _ h2 b hb2⟩⟩
    rw [e]
    exact ⟨a, k1, k2, rfl, hi.at1, hi.at2, fun b hb1 hb2 => (hi.le b hb1 hb2).1⟩

/-! ## climbing to the ancestor -/

theorem supports_par {m : Model K P} (h : Inv m) {j : ℕ} (hj : j < m.njoints) {i a b : ℕ}
    (ha : (m.supports.getD j [])[i]? = some a) (hb : (m.supports.getD j [])[i + 1]? = some b) :
    1 ≤ b ∧ b < m.njoints ∧ m.parents.getD b 0 = a := by
  have hc := List.isChain_iff_getElem.1 (supports_chain h j hj)
  obtain ⟨h1, rfl⟩ := List.getElem?_eq_some_iff.1 hb
  obtain ⟨h2, rfl⟩ := List.getElem?_eq_some_iff.1 ha
  have := hc i (by omega)
  refine ⟨this.1, ?_, this.2⟩
  have := mem_supports_le h j hj _ (List.getElem_mem h1)
  omega

theorem climb_ok {m : Model K P} (h : Inv m) {liMi oMi : ℕ → SE3 K}
    (ho : ∀ j, 1 ≤ j → j < m.njoints → oMi j = oMi (m.parents.getD j 0) * liMi j)
    {r : ℕ} (hr : r < m.njoints) {stop a : ℕ} (hstop : (m.supports.getD r [])[stop]? = some a) :
    ∀ n M c, stop ≤ n → (m.supports.getD r [])[n]? = some c → oMi c * M = oMi r →
    ∃ M', climb liMi (m.supports.getD r []) stop (n + 1) M = some M' ∧ oMi a * M' = oMi r := by
  intro n
  induction n with
  | zero =>
    intro M c hn hc hM
    have : stop = 0 := by omega
    subst this
    rw [hstop] at hc; cases hc
    exact ⟨M, by simp [climb], hM⟩
  | succ k ih =>
    intro M c hn hc hM
    rcases Nat.eq_or_lt_of_le hn with he | hlt
    · subst he
      rw [hstop] at hc; cases hc
      exact ⟨M, by simp [climb], hM⟩
    · obtain ⟨hl, -⟩ := List.getElem?_eq_some_iff.1 hc
      have hk : (m.supports.getD r [])[k]? = some (m.supports.getD r [])[k] :=
        List.getElem?_eq_getElem (by omega)
      obtain ⟨p1, p2, p3⟩ := supports_par h hr hk hc
      have e : climb liMi (m.supports.getD r []) stop (k + 1 + 1) M
          = climb liMi (m.supports.getD r []) stop (k + 1) (liMi c * M) := by
        rw [climb, if_pos hlt, hc]
      rw [e]
      refine ih _ _ (by omega) hk ?_
      rw [← p3, ← SE3.mul_assoc, ← ho c p1 p2, hM]

theorem actInvSE3_eq (A B : SE3 K) : A.actInvSE3 B = A.inv * B := by
  ext1
  · rfl
  · simp only [SE3.actInvSE3, SE3.inv, SE3.mul_trans, M3.mulVec_sub]; abel

theorem actInvSE3_left {A B C : SE3 K} (h : A.Valid) :
    (A * B).actInvSE3 (A * C) = B.actInvSE3 C := by
  ext1
  · change (A.rot * B.rot).tr * (A.rot * C.rot) = B.rot.tr * C.rot
    rw [M3.tr_mul, M3.mul_assoc', ← M3.mul_assoc' A.rot.tr, h.tr_mul, M3.one_mul']
  · change (A.rot * B.rot).tr.mulVec ((A.trans + A.rot.mulVec C.trans) - (A.trans + A.rot.mulVec B.trans))
      = B.rot.tr.mulVec (C.trans - B.trans)
    rw [M3.tr_mul, M3.mulVec_mulVec, add_sub_add_left_eq_sub, ← M3.mulVec_sub, h.tr_mulVec_mulVec]

end
end Model
end Pin
