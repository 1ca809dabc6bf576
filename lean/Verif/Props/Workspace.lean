import Verif.Algo.WorkspaceLemmas
import Verif.Algo.WorkspaceVel
import Mathlib.Data.Finset.Sort
import Mathlib.Data.Finset.Powerset
import Mathlib.Data.Nat.ModEq

/-! # C85 — enumerations of the reachable workspace

`reachableWorkspace` visits every choice of `facet_dims` degrees of freedom among `nv`, and for each of
them every choice of bounds for the others and every choice of samples. -/

namespace Pin
open Workspace

/-- The set of degrees of freedom chosen at turn `c` of the loop over the combinations. -/
def Workspace.chosen (n k c : ℕ) : Finset ℕ := (Finset.range k).image (combAt n k c)

/-- The increasing enumeration of a set of `k` indices below `n`. -/
theorem Workspace.exists_comb {n k : ℕ} {s : Finset ℕ} (hs : s ∈ Finset.powersetCard k (Finset.range n)) :
    ∃ y, IsComb n k y ∧ (Finset.range k).image y = s := by
  obtain ⟨h1, h2⟩ := Finset.mem_powersetCard.mp hs
  let y : ℕ → ℕ := fun i => if h : i < k then s.orderEmbOfFin h2 ⟨i, h⟩ else 0
  have hy : ∀ i (h : i < k), y i = s.orderEmbOfFin h2 ⟨i, h⟩ := fun i h => dif_pos h
  refine ⟨y, ⟨fun i hi => ?_, fun i hi => ?_⟩, ?_⟩
  · rw [hy i hi]; exact Finset.mem_range.mp (h1 (Finset.orderEmbOfFin_mem s h2 _))
  · rw [hy i (by omega), hy _ hi]
    exact (s.orderEmbOfFin h2).strictMono (by simp [Fin.lt_def])
  · ext a
    simp only [Finset.mem_image, Finset.mem_range]
    constructor
    · rintro ⟨i, hi, rfl⟩; rw [hy i hi]; exact Finset.orderEmbOfFin_mem s h2 _
    · intro ha
      have : a ∈ Set.range (s.orderEmbOfFin h2) := by rw [Finset.range_orderEmbOfFin]; exact ha
      obtain ⟨i, rfl⟩ := this
      exact ⟨i, i.2, hy i i.2⟩

/-- With at least two sampled degrees of freedom, the turns of the loop visit every set of `k` degrees
of freedom among `n`, each at exactly one turn, as increasing indices. -/
theorem C85_combinations {n k : ℕ} (hk : 2 ≤ k) (hn : k ≤ n) :
    (∀ c < n.choose k, (∀ i, i + 1 < k → combAt n k c i < combAt n k c (i + 1)) ∧
      chosen n k c ∈ Finset.powersetCard k (Finset.range n)) ∧
    ∀ s ∈ Finset.powersetCard k (Finset.range n), ∃! c, c < n.choose k ∧ chosen n k c = s := by
  have hmem : ∀ c < n.choose k, chosen n k c ∈ Finset.powersetCard k (Finset.range n) := by
    intro c hc
    obtain ⟨h1, -, -⟩ := combAt_ok hk hn c hc
    refine Finset.mem_powersetCard.mpr ⟨fun a ha => ?_, ?_⟩
    · obtain ⟨i, hi, rfl⟩ := Finset.mem_image.mp ha
      exact Finset.mem_range.mpr (h1.1 i (Finset.mem_range.mp hi))
    · rw [chosen, Finset.card_image_of_injOn, Finset.card_range]
      intro i hi j hj e
      have hi := Finset.mem_range.mp (Finset.mem_coe.mp hi)
      have hj := Finset.mem_range.mp (Finset.mem_coe.mp hj)
      rcases lt_trichotomy i j with h | h | h
      · have := h1.lower i hi (j - i) (by omega)
        rw [Nat.add_sub_of_le h.le] at this; omega
      · exact h
      · have := h1.lower j hj (i - j) (by omega)
        rw [Nat.add_sub_of_le h.le] at this; omega
  have hsurj : ∀ s ∈ Finset.powersetCard k (Finset.range n), ∃ c < n.choose k, chosen n k c = s := by
    intro s hs
    obtain ⟨y, hy, rfl⟩ := exists_comb hs
    have hpos : 0 < n.choose k := Nat.choose_pos hn
    obtain ⟨h1, h2, h3⟩ := combAt_ok hk hn (n.choose k - 1) (by omega)
    rcases h3 y hy with ⟨d, hd, -, hlt⟩ | ⟨c, hc, h⟩
    · have := after_zero_max h1 hn (by omega) d hd
      have := hy.upper hn d hd
      omega
    · exact ⟨c, by omega, Finset.image_congr fun i hi => h i (Finset.mem_range.mp (Finset.mem_coe.mp hi))⟩
  refine ⟨fun c hc => ⟨(combAt_ok hk hn c hc).1.2, hmem c hc⟩, fun s hs => ?_⟩
  have hinj : Set.InjOn (chosen n k) (Finset.range (n.choose k)) := by
    rw [← Finset.card_image_iff]
    have : (Finset.range (n.choose k)).image (chosen n k) = Finset.powersetCard k (Finset.range n) := by
      ext s
      simp only [Finset.mem_image, Finset.mem_range]
      exact ⟨fun ⟨c, hc, e⟩ => e ▸ hmem c hc, fun h => hsurj s h⟩
    rw [this, Finset.card_powersetCard, Finset.card_range, Finset.card_range]
  obtain ⟨c, hc, e⟩ := hsurj s hs
  exact ⟨c, ⟨hc, e⟩, fun c' h => hinj (by simpa using h.1) (by simpa using hc) (h.2.trans e.symm)⟩

/-- In every `m ^ r` consecutive calls of `productCombination`, wherever they start, every choice of `r`
elements among `m` is read exactly once. (The indices are not reset between facets.) -/
theorem C85_products {m r : ℕ} (hm : 0 < m) (y : ℕ → ℕ) (hy : ∀ i < r, y i < m) (p₀ : ℕ) :
    ∃! p, (p₀ ≤ p ∧ p < p₀ + m ^ r) ∧ ∀ i < r, prodAt m r p i = y i := by
  have hN : 0 < m ^ r := Nat.pow_pos hm
  have hv := val_lt hm r hy
  have iff : ∀ p, (∀ i < r, prodAt m r p i = y i) ↔ p % m ^ r = val m y r := by
    intro p
    obtain ⟨a, b⟩ := prodAt_ok hm r p
    rw [← b]
    exact ⟨fun h => val_congr h, fun h => val_inj hm r a hy h⟩
  have hlt := Nat.mod_lt p₀ hN
  refine ⟨p₀ + (val m y r + (m ^ r - p₀ % m ^ r)) % m ^ r, ⟨⟨Nat.le_add_right _ _, ?_⟩, ?_⟩, ?_⟩
  · have := Nat.mod_lt (val m y r + (m ^ r - p₀ % m ^ r)) hN
    omega
  · rw [iff, Nat.add_mod_mod, ← Nat.mod_add_mod,
      show p₀ % m ^ r + (val m y r + (m ^ r - p₀ % m ^ r)) = val m y r + m ^ r from by omega,
      Nat.add_mod_right, Nat.mod_eq_of_lt hv]
  · rintro p ⟨⟨h1, h2⟩, h3⟩
    rw [iff] at h3
    generalize hq : p₀ + (val m y r + (m ^ r - p₀ % m ^ r)) % m ^ r = q
    have hq1 : p₀ ≤ q ∧ q < p₀ + m ^ r := by
      have := Nat.mod_lt (val m y r + (m ^ r - p₀ % m ^ r)) hN
      rw [← hq]
      exact ⟨Nat.le_add_right _ _, by omega⟩
    have hq2 : q % m ^ r = val m y r := by
      rw [← hq, Nat.add_mod_mod, ← Nat.mod_add_mod,
        show p₀ % m ^ r + (val m y r + (m ^ r - p₀ % m ^ r)) = val m y r + m ^ r from by omega,
        Nat.add_mod_right, Nat.mod_eq_of_lt hv]
    have key : ∀ a b : ℕ, a ≤ b → b < a + m ^ r → a % m ^ r = b % m ^ r → a = b := by
      intro a b hab hb e
      have hd : m ^ r ∣ b - a := (Nat.modEq_iff_dvd' hab).mp e
      have := Nat.eq_zero_of_dvd_of_lt hd (by omega)
      omega
    rcases le_total p q with h | h
    · exact key p q h (by omega) (by omega)
    · exact (key q p h (by omega) (by omega)).symm

/-- Three sampled degrees of freedom among seven (the default `facet_dims` on an arm): 35 turns, starting
with 0, 1, 2; and a choice of two bounds. -/
example : (2 ≤ 3 ∧ 3 ≤ 7 ∧ Nat.choose 7 3 = 35) ∧ chosen 7 3 0 = {0, 1, 2} ∧ chosen 7 3 34 = {4, 5, 6} ∧
    ∀ i < 2, prodAt 2 2 7 i = 1 := by
  refine ⟨by decide, by decide +kernel, by decide +kernel, by decide +kernel⟩

theorem Workspace.velocity_eq {A : Type*} [Field A] {n k m : ℕ} (hn : k ≤ n) (ub lb : ℕ → A)
    (g₀ : Gather A) (qv : ℕ → A) (c p ng : ℕ) (h : IsComb n k (combAt n k c)) (hk : 0 < k) (a : ℕ) (ha : a < n) :
    velocity n k m ub lb g₀ qv c p ng a = if a ∈ chosen n k c then
      (ub a - lb a) * ((prodAt m k ((c * 2 ^ (n - k) + p) * m ^ k + ng) (cnt k (combAt n k c) a) : ℕ) / m) + lb a
    else if prodAt 2 (n - k) (c * 2 ^ (n - k) + p) (off k (combAt n k c) a) = 0 then ub a else lb a := by
  have hh := hit_iff h hk a
  obtain ⟨-, -, g1, g2⟩ := gather_ok h hk hn ub lb g₀ n le_rfl
  simp only [velocity]
  rw [(jointVel_ok h hk hn _ _ qv n le_rfl).2.2 a ha]
  by_cases e : Hit k (combAt n k c) a
  · obtain ⟨e1, e2⟩ := hit_lt h hk e
    have hc : cnt k (combAt n k c) a < cnt k (combAt n k c) n := by
      by_contra hge
      have := (cnt_ok h hk n).2.2.2 _ (by omega) e1
      omega
    rw [if_pos e, if_pos (show a ∈ chosen n k c from hh.mp e), (g1 _ hc).1, (g1 _ hc).2, e2]
  · rw [if_neg e, if_neg (show a ∉ chosen n k c from fun h' => e (hh.mpr h')), (g2 a ha e).1, (g2 a ha e).2]
    split_ifs <;> ring

/-- The velocity formed at any turn is inside the box: at a sample of the range of the sampled degrees of
freedom, strictly below its end, and at one of the two bounds of every other. -/
theorem C85_box {n k m : ℕ} (hk : 2 ≤ k) (hn : k ≤ n) (hm : 0 < m) (ub lb : ℕ → ℚ) (g₀ : Gather ℚ)
    (qv : ℕ → ℚ) (c p ng : ℕ) (hc : c < n.choose k) (a : ℕ) (ha : a < n) :
    (a ∈ chosen n k c → ∃ j < m, velocity n k m ub lb g₀ qv c p ng a = lb a + (ub a - lb a) * (j / m)) ∧
    (a ∉ chosen n k c → velocity n k m ub lb g₀ qv c p ng a = ub a ∨
      velocity n k m ub lb g₀ qv c p ng a = lb a) := by
  have h := (combAt_ok hk hn c hc).1
  have e := velocity_eq (m := m) hn ub lb g₀ qv c p ng h (by omega) a ha
  constructor
  · intro hm'
    rw [if_pos hm'] at e
    refine ⟨_, (prodAt_ok hm k ((c * 2 ^ (n - k) + p) * m ^ k + ng)).1 _ (hit_lt h (by omega) ((hit_iff h (by omega) a).mpr hm')).1, ?_⟩
    rw [e, add_comm]
  · intro hm'
    rw [if_neg hm'] at e
    rw [e]
    split_ifs <;> simp

/-- Every face is visited: for every set `s` of `k` degrees of freedom, every choice `b` of a bound for
the others and every choice `x` of a sample for those in `s`, some turn of the three loops forms that
velocity, whatever the previous turns left in the arrays. -/
theorem C85_faces {A : Type*} [Field A] {n k m : ℕ} (hk : 2 ≤ k) (hn : k ≤ n) (ub lb : ℕ → A)
    (s : Finset ℕ) (hs : s ∈ Finset.powersetCard k (Finset.range n)) (b : ℕ → Bool) (x : ℕ → ℕ)
    (hx : ∀ a ∈ s, x a < m) :
    ∃ c < n.choose k, ∃ p < 2 ^ (n - k), ∃ ng < m ^ k, ∀ g₀ qv, ∀ a < n,
      velocity n k m ub lb g₀ qv c p ng a =
        if a ∈ s then lb a + (ub a - lb a) * ((x a : A) / m) else if b a then ub a else lb a := by
  classical
  obtain ⟨c, ⟨hc, rfl⟩, -⟩ := (C85_combinations hk hn).2 s hs
  have h := (combAt_ok hk hn c hc).1
  have hk0 : 0 < k := by omega
  have hxi : ∀ i < k, x (combAt n k c i) < m := fun i hi =>
    hx _ (Finset.mem_image.mpr ⟨i, Finset.mem_range.mpr hi, rfl⟩)
  have hm : 0 < m := by have := hxi 0 hk0; omega
  obtain ⟨P, ⟨⟨p1, p2⟩, p3⟩, -⟩ := C85_products (m := 2) (r := n - k) (by omega)
    (fun j => if ∃ a, ¬ Hit k (combAt n k c) a ∧ off k (combAt n k c) a = j ∧ b a = true then 0 else 1)
    (fun j _ => by split_ifs <;> omega) (c * 2 ^ (n - k))
  obtain ⟨R, ⟨⟨r1, r2⟩, r3⟩, -⟩ := C85_products hm (fun i => x (combAt n k c i)) hxi (P * m ^ k)
  refine ⟨c, hc, P - c * 2 ^ (n - k), by omega, R - P * m ^ k, by omega, fun g₀ qv a ha => ?_⟩
  rw [velocity_eq hn ub lb g₀ qv c _ _ h hk0 a ha, Nat.add_sub_of_le p1, Nat.add_sub_of_le r1]
  have hh : Hit k (combAt n k c) a ↔ a ∈ chosen n k c := hit_iff h hk0 a
  by_cases e : a ∈ chosen n k c
  · obtain ⟨e1, e2⟩ := hit_lt h hk0 (hh.mpr e)
    rw [if_pos e, if_pos e, r3 _ e1, e2, add_comm]
  · have he : ¬ Hit k (combAt n k c) a := fun h' => e (hh.mp h')
    rw [if_neg e, if_neg e, p3 _ (off_lt h hk0 hn ha he)]
    by_cases hb : b a = true
    · rw [if_pos (if_pos ⟨a, he, rfl, hb⟩), if_pos hb]
    · rw [if_neg hb, if_neg]
      rw [if_neg]
      · exact one_ne_zero
      · rintro ⟨a', h1, h2, h3⟩
        rcases lt_trichotomy a' a with l | rfl | l
        · have := off_mono h hk0 h1 a l; omega
        · exact hb h3
        · have := off_mono h hk0 he a' l; omega

/-- Four degrees of freedom, two of them sampled three times: a face and a sample on it. -/
example : ∃ c < Nat.choose 4 2, ∃ p < 2 ^ (4 - 2), ∃ ng < 3 ^ 2, ∀ g₀ qv, ∀ a < 4,
    velocity 4 2 3 (fun i => (i + 2 : ℚ)) (fun i => -(i : ℚ)) g₀ qv c p ng a =
      if a ∈ ({1, 3} : Finset ℕ) then -(a : ℚ) + ((a + 2 : ℚ) - -(a : ℚ)) * (((fun a => a % 3) a : ℕ) / (3 : ℕ))
      else if (fun a => a == 0) a then (a + 2 : ℚ) else -(a : ℚ) :=
  C85_faces (by omega) (by omega) _ _ _ (by decide) _ (fun a => a % 3) (by decide)

theorem Workspace.combAt_one {n : ℕ} (hn : 2 ≤ n) : ∀ c, combAt n 1 c 0 = min (c + 1) (n - 1) := by
  have step : ∀ x : ℕ → ℕ, nextComb n 1 x 0 = if x 0 = n - 1 then x 0 else x 0 + 1 := by
    intro x
    by_cases h : x 0 = n - 1 <;> simp [nextComb, findJ, spread, fill, h]
  intro c
  induction c with
  | zero => rw [combAt, step, if_neg (by omega)]; omega
  | succ c ih => rw [combAt, step, ih]; split <;> omega

/-- With `facet_dims = 1` the first degree of freedom is never the sampled one, whatever the model, and
the last one is sampled at two turns: `generateCombination` moves on from the initial zero, which is
already a combination. -/
theorem C85_single_counterexample {n : ℕ} (hn : 2 ≤ n) :
    (∀ c, chosen n 1 c ≠ {0}) ∧ chosen n 1 (n - 2) = chosen n 1 (n - 1) ∧ n - 1 < n.choose 1 := by
  have e : ∀ c, chosen n 1 c = {min (c + 1) (n - 1)} := fun c => by
    simp [chosen, combAt_one hn]
  refine ⟨fun c h => ?_, ?_, by simp; omega⟩
  · rw [e, Finset.singleton_inj] at h; omega
  · rw [e, e, Finset.singleton_inj]; omega
end Pin
