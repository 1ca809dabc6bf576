import Verif.LieGroup.Random
import Verif.LieGroup.Examples

/-!
# C74: random configurations
-/

namespace Pin.Lie
open Pin Model Real

/-! ## Specification -/

/-- the coordinate is that of a vector space or of a translation: the limits apply to it -/
def Limited (m : Model ℝ LJ) (k : ℕ) : Prop := ∃ s ∈ slotsOf m, ∃ i < s.g.bounded, k = s.iq + i

/-- `lo` and `hi` are finite and ordered limits `a` and `b` whose difference times `RAND_MAX` does not overflow -/
structure GoodLimits (big R : ℝ) (m : Model ℝ LJ) (lo hi : ℕ → Fl) (a b : ℕ → ℝ) : Prop where
  lower : ∀ k, Limited m k → lo k = .fin (a k)
  upper : ∀ k, Limited m k → hi k = .fin (b k)
  range : ∀ k, Limited m k → -big ≤ a k ∧ a k ≤ b k ∧ b k ≤ big
  diff : ∀ k, Limited m k → b k - a k ≤ big ∧ (b k - a k) * R ≤ big

/-! ## Theorems -/

section
variable {p0 : LJ} {m : Model ℝ LJ} {big R : ℝ} {lo hi : ℕ → Fl} {a b : ℕ → ℝ}

theorem bounded_le (g : LG) : g.bounded ≤ g.nq := by cases g <;> simp [LG.bounded, LG.nq]

theorem unit_congr {g : LG} {q q' : ℕ → ℝ} (h : ∀ k < g.nq, q k = q' k) : g.Unit q ↔ g.Unit q' := by
  cases g with
  | vec n => exact Iff.rfl
  | so2 => show LG.sqn q 0 2 = 1 ↔ LG.sqn q' 0 2 = 1; rw [sqn_congr h (by simp [LG.nq])]
  | so3 => show LG.sqn q 0 4 = 1 ↔ LG.sqn q' 0 4 = 1; rw [sqn_congr h (by simp [LG.nq])]
  | se2 => show LG.sqn q 2 2 = 1 ↔ LG.sqn q' 2 2 = 1; rw [sqn_congr h (by simp [LG.nq])]
  | se3 => show LG.sqn q 3 4 = 1 ↔ LG.sqn q' 3 4 = 1; rw [sqn_congr h (by simp [LG.nq])]

theorem slot_limited {s : Slot} (hs : s ∈ slotsOf m) {i : ℕ} (hi : i < s.g.bounded) : Limited m (s.iq + i) := ⟨s, hs, i, hi, rfl⟩

/-- **C74 (exception).** `randomConfiguration` throws exactly when a coordinate to which limits apply has an infinite lower
or upper limit, whatever the numbers drawn. -/
theorem C74_throws (m : Model ℝ LJ) (big R : ℝ) (lo hi : ℕ → Fl) (r : ℕ → ℝ) (out : ℕ → Fl) :
    randomConfiguration big R m lo hi r out = none ↔ ∃ k, Limited m k ∧ (lo k = .ninf ∨ hi k = .pinf) := by
  unfold randomConfiguration
  rw [randomSlots_none]
  constructor
  · rintro ⟨s, hs, i, hi, h⟩; exact ⟨s.iq + i, slot_limited hs hi, h⟩
  · rintro ⟨k, ⟨s, hs, i, hi, rfl⟩, h⟩; exact ⟨s, hs, i, hi, h⟩

/-- a joint drawn within good limits: it is finite, within the limits and normalised -/
theorem random_good {g : LG} {lo hi : ℕ → Fl} {a b : ℕ → ℝ} {r : ℕ → ℝ} {x : ℕ → Fl} (hR : 0 < R) (hr : ∀ j, 0 ≤ r j ∧ r j ≤ R)
    (hl : ∀ i < g.bounded, lo i = .fin (a i) ∧ hi i = .fin (b i) ∧ (-big ≤ a i ∧ a i ≤ b i ∧ b i ≤ big) ∧
      b i - a i ≤ big ∧ (b i - a i) * R ≤ big) (h : g.random big R lo hi r = some x) :
    ∃ q : ℕ → ℝ, (∀ k < g.nq, x k = .fin (q k)) ∧ (∀ i < g.bounded, q i = a i + (b i - a i) * r i / R ∧ a i ≤ q i ∧ q i ≤ b i) ∧
      g.Unit q := by
  have hb : ∀ i < g.bounded, x i = .fin (a i + (b i - a i) * r i / R) ∧ a i ≤ a i + (b i - a i) * r i / R ∧
      a i + (b i - a i) * r i / R ≤ b i := by
    intro i hi'
    obtain ⟨e1, e2, ⟨h1, h2, h3⟩, h4, h5⟩ := hl i hi'
    rw [random_bounded h hi', e1, e2]
    exact coord_value hR h1 h2 h3 h5 h4 (hr i).1 (hr i).2
  cases g with
  | vec n => exact ⟨fun i => a i + (b i - a i) * r i / R, fun k hk => (hb k hk).1, fun i hi => ⟨rfl, (hb i hi).2⟩, trivial⟩
  | so2 =>
    rw [LG.random, Option.some.injEq] at h
    refine ⟨fun k => if k = 0 then (so2Random R (r 0)).1 else (so2Random R (r 0)).2, fun k _ => by rw [← h], ?_, ?_⟩
    · intro i hi; exact absurd hi (by simp [LG.bounded])
    · show LG.sqn _ 0 2 = 1
      rw [sqn_so2]
      exact so2Random_unit R (r 0)
  | so3 =>
    rw [LG.random, Option.some.injEq] at h
    refine ⟨fun k => qcoef (uniformRandom R (r 0) (r 1) (r 2)) k, fun k _ => by rw [← h], ?_, ?_⟩
    · intro i hi; exact absurd hi (by simp [LG.bounded])
    · show LG.sqn _ 0 4 = 1
      rw [sqn_so3]
      exact uniformRandom_unit (r 1) (r 2) hR (hr 0).1 (hr 0).2
  | se2 =>
    rw [LG.random, Option.map_eq_some_iff] at h
    obtain ⟨y, hy, rfl⟩ := h
    refine ⟨fun k => if k < 2 then a k + (b k - a k) * r k / R else if k = 2 then (so2Random R (r 2)).1 else (so2Random R (r 2)).2,
      fun k hk => ?_, fun i hi => ?_, ?_⟩
    · by_cases h2 : k < 2
      · have := (hb k h2).1
        simp only [if_pos h2] at this ⊢; exact this
      · simp only [if_neg h2]
    · have hi : i < 2 := hi
      simp only [if_pos hi]; exact ⟨trivial, (hb i hi).2⟩
    · show LG.sqn _ 2 2 = 1
      rw [sqn_se2]
      exact so2Random_unit R (r 2)
  | se3 =>
    rw [LG.random, Option.map_eq_some_iff] at h
    obtain ⟨y, hy, rfl⟩ := h
    refine ⟨fun k => if k < 3 then a k + (b k - a k) * r k / R else qcoef (uniformRandom R (r 3) (r 4) (r 5)) (k - 3),
      fun k hk => ?_, fun i hi => ?_, ?_⟩
    · by_cases h2 : k < 3
      · have := (hb k h2).1
        simp only [if_pos h2] at this ⊢; exact this
      · simp only [if_neg h2]
    · have hi : i < 3 := hi
      simp only [if_pos hi]; exact ⟨trivial, (hb i hi).2⟩
    · show LG.sqn _ 3 4 = 1
      have := uniformRandom_unit (r 4) (r 5) hR (hr 3).1 (hr 3).2
      unfold LG.sqn
      simpa [Finset.sum_range_succ, qcoef, Quat.sqNorm] using this

/-- **C74 (range).** With limits that are finite, ordered and not at the ends of the range of the numbers, whatever the numbers
drawn, `randomConfiguration` returns a finite configuration within the limits, with unit complex numbers and quaternions;
it writes nothing else, and calls `rand()` a number of times that depends only on the model. -/
theorem C74_range (h : Reach p0 m) (hp : PayloadOk m) (hR : 0 < R) (hl : GoodLimits big R m lo hi a b) {r : ℕ → ℝ}
    (hr : ∀ j, 0 ≤ r j ∧ r j ≤ R) (out : ℕ → Fl) :
    ∃ q : ℕ → ℝ, ∃ o, randomConfiguration big R m lo hi r out = some (o, ((slotsOf m).map fun s => s.g.draws).sum) ∧
      (∀ k < m.nq, o k = .fin (q k)) ∧ (∀ k, m.nq ≤ k → o k = out k) ∧
      (∀ k, Limited m k → a k ≤ q k ∧ q k ≤ b k) ∧ ∀ s ∈ slotsOf m, s.g.Unit fun k => q (s.iq + k) := by
  have ht := (slotsOf_tiles h.inv hp).1
  cases hc : randomConfiguration big R m lo hi r out with
  | none =>
    obtain ⟨k, hk, e⟩ := (C74_throws m big R lo hi r out).1 hc
    rw [hl.lower k hk, hl.upper k hk] at e
    rcases e with e | e <;> cases e
  | some ot =>
    obtain ⟨o, t⟩ := ot
    obtain ⟨h1, h2, h3⟩ := randomSlots_spec ht hc
    have hs : ∀ s ∈ slotsOf m, ∃ q : ℕ → ℝ, (∀ k < s.g.nq, o (s.iq + k) = .fin (q k)) ∧
        (∀ i < s.g.bounded, a (s.iq + i) ≤ q i ∧ q i ≤ b (s.iq + i)) ∧ s.g.Unit q := by
      intro s hs
      obtain ⟨u, x, hx, ho⟩ := h1 s hs
      obtain ⟨q, q1, q2, q3⟩ := random_good (a := fun k => a (s.iq + k)) (b := fun k => b (s.iq + k)) hR
        (fun j => hr (u + j)) (fun i hi => ⟨hl.lower _ (slot_limited hs hi), hl.upper _ (slot_limited hs hi),
          hl.range _ (slot_limited hs hi), hl.diff _ (slot_limited hs hi)⟩) hx
      exact ⟨q, fun k hk => by rw [ho k hk, q1 k hk], fun i hi => (q2 i hi).2, q3⟩
    refine ⟨fun k => match o k with | .fin x => x | _ => 0, o, by rw [h3, Nat.zero_add], fun k hk => ?_,
      fun k hk => h2 k (Or.inr hk), ?_, fun s hs' => ?_⟩
    · obtain ⟨i, ⟨s, hs1, hs2, hs3⟩, -⟩ := ht.cover (Nat.zero_le k) hk
      obtain ⟨q, q1, -⟩ := hs s (List.mem_of_getElem? hs1)
      have := q1 (k - s.iq) (by omega)
      rw [show s.iq + (k - s.iq) = k by omega] at this
      dsimp only
      rw [this]
    · rintro k ⟨s, hs', i, hi, rfl⟩
      obtain ⟨q, q1, q2, -⟩ := hs s hs'
      have e := q1 i (lt_of_lt_of_le hi (bounded_le _))
      dsimp only
      rw [e]
      exact q2 i hi
    · obtain ⟨q, q1, -, q3⟩ := hs s hs'
      refine (unit_congr (fun k hk => ?_)).2 q3
      dsimp only
      rw [q1 k hk]

/-- the draws that give a joint configuration -/
theorem random_reaches (g : LG) {lo hi : ℕ → Fl} {a b : ℕ → ℝ} (hR : 0 < R)
    (hl : ∀ i < g.bounded, lo i = .fin (a i) ∧ hi i = .fin (b i) ∧ (-big ≤ a i ∧ a i ≤ b i ∧ b i ≤ big) ∧
      b i - a i ≤ big ∧ (b i - a i) * R ≤ big) {q : ℕ → ℝ} (hq : ∀ i < g.bounded, a i ≤ q i ∧ q i ≤ b i) (hu : g.Unit q) :
    ∃ r : ℕ → ℝ, (∀ j, 0 ≤ r j ∧ r j ≤ R) ∧ ∃ x, g.random big R lo hi r = some x ∧ ∀ k < g.nq, x k = .fin (q k) := by
  have hd : ∃ d : ℕ → ℝ, (∀ j, 0 ≤ d j ∧ d j ≤ R) ∧ ∀ i < g.bounded, a i + (b i - a i) * d i / R = q i := by
    refine ⟨fun i => if i < g.bounded ∧ a i < b i then (q i - a i) / (b i - a i) * R else 0, fun j => ?_, fun i hi => ?_⟩
    · dsimp only
      split
      · rename_i hc
        have h0 : 0 < b j - a j := by linarith [hc.2]
        have h1 := hq j hc.1
        constructor
        · have : 0 ≤ q j - a j := by linarith
          positivity
        · have : (q j - a j) / (b j - a j) ≤ 1 := by rw [div_le_one h0]; linarith
          nlinarith
      · exact ⟨le_rfl, hR.le⟩
    · dsimp only
      have h1 := hq i hi
      split
      · rename_i hc
        have h0 : b i - a i ≠ 0 := by have := hc.2; intro e; linarith
        field_simp
        ring
      · rename_i hc
        have : b i ≤ a i := not_lt.1 fun h => hc ⟨hi, h⟩
        rw [mul_zero, zero_div]; linarith
  obtain ⟨d, d1, d2⟩ := hd
  have hsome : ∀ r : ℕ → ℝ, ∃ x, g.random big R lo hi r = some x := by
    intro r
    cases hc : g.random big R lo hi r with
    | some x => exact ⟨x, rfl⟩
    | none =>
      obtain ⟨i, hi, e⟩ := (random_none g).1 hc
      rw [(hl i hi).1, (hl i hi).2.1] at e
      rcases e with e | e <;> cases e
  have hb : ∀ (r : ℕ → ℝ) x, (∀ j, 0 ≤ r j ∧ r j ≤ R) → g.random big R lo hi r = some x → (∀ i < g.bounded, r i = d i) →
      ∀ i < g.bounded, x i = .fin (q i) := by
    intro r x hr hx he i hi'
    obtain ⟨e1, e2, ⟨h1, h2, h3⟩, h4, h5⟩ := hl i hi'
    rw [random_bounded hx hi', e1, e2, (coord_value hR h1 h2 h3 h5 h4 (hr i).1 (hr i).2).1, he i hi', d2 i hi']
  cases g with
  | vec n =>
    obtain ⟨x, hx⟩ := hsome d
    exact ⟨d, d1, x, hx, hb d x d1 hx fun _ _ => rfl⟩
  | so2 =>
    have hu : LG.sqn q 0 2 = 1 := hu
    rw [sqn_so2] at hu
    obtain ⟨r, r0, r1, e1, e2⟩ := so2Random_reaches hR hu
    refine ⟨fun _ => r, fun _ => ⟨r0, r1⟩, _, rfl, fun k hk => ?_⟩
    have hk : k < 2 := hk
    rw [e1, e2]
    interval_cases k <;> rfl
  | so3 =>
    have hu : LG.sqn q 0 4 = 1 := hu
    rw [sqn_so3] at hu
    obtain ⟨r1, r2, r3, h1, h2, h3, e⟩ := uniformRandom_reaches hR hu
    refine ⟨fun j => if j = 0 then r1 else if j = 1 then r2 else r3, fun j => ?_, _, rfl, fun k hk => ?_⟩
    · dsimp only; split
      · exact h1
      · split
        · exact h2
        · exact h3
    · have hk : k < 4 := hk
      simp only [if_true, one_ne_zero, if_false, show ¬ (2 = 0) by omega, show ¬ (2 = 1) by omega]
      rw [e]
      interval_cases k <;> rfl
  | se2 =>
    have hu : LG.sqn q 2 2 = 1 := hu
    rw [sqn_se2] at hu
    obtain ⟨r, r0, r1, e1, e2⟩ := so2Random_reaches hR hu
    have hr : ∀ j, 0 ≤ (fun j => if j < 2 then d j else r) j ∧ (fun j => if j < 2 then d j else r) j ≤ R := by
      intro j; dsimp only; split
      · exact d1 j
      · exact ⟨r0, r1⟩
    obtain ⟨x, hx⟩ := hsome fun j => if j < 2 then d j else r
    refine ⟨_, hr, x, hx, fun k hk => ?_⟩
    by_cases h2 : k < 2
    · exact hb _ x hr hx (fun i hi => if_pos hi) k h2
    · have hk : k < 4 := hk
      rw [LG.random, Option.map_eq_some_iff] at hx
      obtain ⟨y, -, rfl⟩ := hx
      simp only [if_neg h2, lt_irrefl, if_false]
      rw [e1, e2]
      have : k = 2 ∨ k = 3 := by omega
      rcases this with rfl | rfl <;> rfl
  | se3 =>
    have hu : LG.sqn q 3 4 = 1 := hu
    have hq4 : (quatAt q 3).sqNorm = 1 := by
      rw [← hu]
      simp [LG.sqn, Finset.sum_range_succ, quatAt, Quat.sqNorm]
    obtain ⟨r1, r2, r3, h1, h2, h3, e⟩ := uniformRandom_reaches hR hq4
    have hr : ∀ j, 0 ≤ (fun j => if j < 3 then d j else if j = 3 then r1 else if j = 4 then r2 else r3) j ∧
        (fun j => if j < 3 then d j else if j = 3 then r1 else if j = 4 then r2 else r3) j ≤ R := by
      intro j; dsimp only; split
      · exact d1 j
      · split
        · exact h1
        · split
          · exact h2
          · exact h3
    obtain ⟨x, hx⟩ := hsome fun j => if j < 3 then d j else if j = 3 then r1 else if j = 4 then r2 else r3
    refine ⟨_, hr, x, hx, fun k hk => ?_⟩
    by_cases h3 : k < 3
    · exact hb _ x hr hx (fun i hi => if_pos hi) k h3
    · have hk : k < 7 := hk
      rw [LG.random, Option.map_eq_some_iff] at hx
      obtain ⟨y, -, rfl⟩ := hx
      simp only [if_neg h3, lt_irrefl, if_false, if_true, show ¬ 4 < 3 by omega, show ¬ 5 < 3 by omega,
        show ¬ (4 = 3) by omega, show ¬ (5 = 3) by omega, show ¬ (5 = 4) by omega]
      rw [e]
      have : k = 3 ∨ k = 4 ∨ k = 5 ∨ k = 6 := by omega
      rcases this with rfl | rfl | rfl | rfl <;> rfl

theorem randomSlots_reaches (hR : 0 < R) {q : ℕ → ℝ} {l : List Slot} {c d : ℕ} (ht : Tiles Slot.iq (fun s => s.g.nq) c l d)
    (hl : ∀ s ∈ l, ∀ i < s.g.bounded, lo (s.iq + i) = .fin (a (s.iq + i)) ∧ hi (s.iq + i) = .fin (b (s.iq + i)) ∧
      (-big ≤ a (s.iq + i) ∧ a (s.iq + i) ≤ b (s.iq + i) ∧ b (s.iq + i) ≤ big) ∧
      b (s.iq + i) - a (s.iq + i) ≤ big ∧ (b (s.iq + i) - a (s.iq + i)) * R ≤ big)
    (hq : ∀ s ∈ l, ∀ i < s.g.bounded, a (s.iq + i) ≤ q (s.iq + i) ∧ q (s.iq + i) ≤ b (s.iq + i))
    (hu : ∀ s ∈ l, s.g.Unit fun k => q (s.iq + k)) (t : ℕ) (out : ℕ → Fl) :
    ∃ r : ℕ → ℝ, (∀ j, 0 ≤ r j ∧ r j ≤ R) ∧ ∃ o t', randomSlots big R lo hi r l out t = some (o, t') ∧
      ∀ k, c ≤ k → k < d → o k = .fin (q k) := by
  induction l generalizing c t out with
  | nil =>
    refine ⟨fun _ => 0, fun _ => ⟨le_rfl, hR.le⟩, out, t, rfl, fun k h1 h2 => ?_⟩
    have : c = d := ht
    omega
  | cons s l ih =>
    obtain ⟨h1, h2⟩ := ht
    obtain ⟨r1, hr1, x, hx, ex⟩ := random_reaches (big := big) s.g (lo := fun k => lo (s.iq + k)) (hi := fun k => hi (s.iq + k))
      (a := fun k => a (s.iq + k)) (b := fun k => b (s.iq + k)) hR (hl s List.mem_cons_self)
      (hq s List.mem_cons_self) (hu s List.mem_cons_self)
    obtain ⟨r2, hr2, o, t', ho, eo⟩ := ih h2 (fun s hs => hl s (List.mem_cons_of_mem _ hs))
      (fun s hs => hq s (List.mem_cons_of_mem _ hs)) (fun s hs => hu s (List.mem_cons_of_mem _ hs)) (t + s.g.draws)
      (writeF out s.iq s.g.nq x)
    have hr : ∀ j, 0 ≤ (fun j => if j < t + s.g.draws then r1 (j - t) else r2 j) j ∧
        (fun j => if j < t + s.g.draws then r1 (j - t) else r2 j) j ≤ R := by
      intro j; dsimp only; split
      · exact hr1 _
      · exact hr2 _
    have e1 : s.g.random big R (fun k => lo (s.iq + k)) (fun k => hi (s.iq + k))
        (fun j => (fun j => if j < t + s.g.draws then r1 (j - t) else r2 j) (t + j)) = some x := by
      rw [← hx]
      refine random_congr s.g fun j hj => ?_
      dsimp only
      rw [if_pos (by omega)]
      congr 1; omega
    have e2 : randomSlots big R lo hi (fun j => if j < t + s.g.draws then r1 (j - t) else r2 j) (s :: l) out t = some (o, t') := by
      rw [randomSlots, e1, ← ho]
      refine randomSlots_congr l _ _ fun j hj => ?_
      rw [if_neg (by omega)]
    refine ⟨_, hr, o, t', e2, fun k hk hk' => ?_⟩
    have hsp := (randomSlots_spec h2 ho).2.1
    dsimp only at hsp
    by_cases hks : k < c + s.g.nq
    · rw [hsp k (Or.inl (by omega))]
      simp only [writeF]
      rw [if_pos (by omega), ex (k - s.iq) (by omega)]
      congr 2; omega
    · exact eo k (not_lt.1 hks) hk'

/-- **C74 (coverage).** Every configuration within the limits whose complex numbers and quaternions are unit is the result of
`randomConfiguration` for some numbers drawn between 0 and `RAND_MAX` (real numbers: the integers that `rand()` returns give a
grid of configurations). -/
theorem C74_coverage (h : Reach p0 m) (hp : PayloadOk m) (hR : 0 < R) (hl : GoodLimits big R m lo hi a b) {q : ℕ → ℝ}
    (hq : ∀ k, Limited m k → a k ≤ q k ∧ q k ≤ b k) (hu : ∀ s ∈ slotsOf m, s.g.Unit fun k => q (s.iq + k)) (out : ℕ → Fl) :
    ∃ r : ℕ → ℝ, (∀ j, 0 ≤ r j ∧ r j ≤ R) ∧ ∃ o t, randomConfiguration big R m lo hi r out = some (o, t) ∧
      ∀ k < m.nq, o k = .fin (q k) := by
  obtain ⟨r, hr, o, t, ho, e⟩ := randomSlots_reaches hR (slotsOf_tiles h.inv hp).1
    (fun s hs i hi => ⟨hl.lower _ (slot_limited hs hi), hl.upper _ (slot_limited hs hi), hl.range _ (slot_limited hs hi),
      hl.diff _ (slot_limited hs hi)⟩) (fun s hs i hi => hq _ (slot_limited hs hi)) hu 0 out
  exact ⟨r, hr, o, t, ho, fun k hk => e k (Nat.zero_le _) hk⟩

/-- a joint coordinate whose limits are the ends of the range is never drawn finite -/
theorem not_finite (h : Reach p0 m) (hp : PayloadOk m) (hbig : 0 < big) {k : ℕ} (hk : Limited m k) (hlo : lo k = .fin (-big))
    (hhi : hi k = .fin big) {r : ℕ → ℝ} {out o : ℕ → Fl} {t : ℕ} (hc : randomConfiguration big R m lo hi r out = some (o, t)) :
    ¬ (o k).Finite := by
  obtain ⟨s, hs, i, hi', rfl⟩ := hk
  obtain ⟨h1, -, -⟩ := randomSlots_spec (slotsOf_tiles h.inv hp).1 hc
  obtain ⟨u, x, hx, ho⟩ := h1 s hs
  rw [ho i (lt_of_lt_of_le hi' (bounded_le _)), random_bounded hx hi', hlo, hhi]
  exact coord_overflow hbig

end

/-! ## witnesses -/

section
open Ex

theorem modL_limits (k : ℕ) (hk : k < 18) : modL.lowerPositionLimit.getD k 0 = -2 ∧ modL.upperPositionLimit.getD k 0 = 3 := by
  have e1 : modL.lowerPositionLimit = List.replicate 18 (-2) := rfl
  have e2 : modL.upperPositionLimit = List.replicate 18 3 := rfl
  rw [e1, e2]
  interval_cases k <;> exact ⟨rfl, rfl⟩

theorem limited_lt {k : ℕ} (h : Limited modL k) : k < 18 := by
  obtain ⟨s, hs, i, hi, rfl⟩ := h
  have := ((slotsOf_tiles modL_reach.inv modL_ok).1.mem hs).2
  have hn : modL.nq = 18 := rfl
  have hb := bounded_le s.g
  omega

/-- the limits of the example are good for `RAND_MAX = 2 ^ 31 - 1`, even in single precision -/
theorem modL_good : GoodLimits (2 ^ 127) (2 ^ 31 - 1) modL (fun k => .fin (modL.lowerPositionLimit.getD k 0))
    (fun k => .fin (modL.upperPositionLimit.getD k 0)) (fun _ => -2) (fun _ => 3) where
  lower k hk := by rw [(modL_limits k (limited_lt hk)).1]
  upper k hk := by rw [(modL_limits k (limited_lt hk)).2]
  range _ _ := by norm_num
  diff _ _ := by norm_num

/-- `randomConfiguration(model)` on the example: eighteen finite coordinates, the slider within its limits -/
example {r : ℕ → ℝ} (hr : ∀ j, 0 ≤ r j ∧ r j ≤ 2 ^ 31 - 1) (out : ℕ → Fl) : ∃ q : ℕ → ℝ, ∃ o,
    randomConfigurationModel (2 ^ 127) (2 ^ 31 - 1) modL r out = some (o, 14) ∧ (∀ k < 18, o k = .fin (q k)) ∧
      -2 ≤ q 17 ∧ q 17 ≤ 3 := by
  obtain ⟨q, o, h1, h2, -, h3, -⟩ := C74_range modL_reach modL_ok (by norm_num) modL_good hr out
  refine ⟨q, o, ?_, h2, h3 17 ⟨⟨.vec 1, 17, 13⟩, by rw [modL_slots]; simp, 0, by simp [LG.bounded], rfl⟩⟩
  rw [modL_slots] at h1
  exact h1

/-- arguments of an `addJoint` call without limits, `model.hxx:190-210`: they are the ends of the range of the numbers -/
def noLimits (big : ℝ) (parent : ℕ) (J : LJ) (name : String) : JointArgs ℝ LJ :=
  ⟨parent, ⟨J, J.nq, J.nv, J.nv, none⟩, 1, name, List.replicate J.nv big, List.replicate J.nv big,
    List.replicate J.nq (-big), List.replicate J.nq big, List.replicate J.nv 0, List.replicate J.nv 0⟩

/-- a prismatic joint added without limits -/
noncomputable def slide (big : ℝ) : Model ℝ LJ :=
  (lRun (empty .mimic) [noLimits big 0 (.simple (.vec 1)) "slider"]).getD (empty .mimic)

theorem slide_some (big : ℝ) : lRun (empty .mimic) [noLimits big 0 (.simple (.vec 1)) "slider"] = some (slide big) := rfl

theorem slide_slots (big : ℝ) : slotsOf (slide big) = [⟨.vec 1, 0, 0⟩] := by
  unfold slotsOf
  have : (slide big).joints = [⟨⟨.mimic, 0, 0, 0, none⟩, 0, 0, 0, 0⟩, ⟨⟨.simple (.vec 1), 1, 1, 1, none⟩, 1, 0, 0, 0⟩] := rfl
  rw [this]
  simp [LJ.slots]

theorem slide_ok (big : ℝ) : PayloadOk (slide big) := by
  have : (slide big).joints = [⟨⟨.mimic, 0, 0, 0, none⟩, 0, 0, 0, 0⟩, ⟨⟨.simple (.vec 1), 1, 1, 1, none⟩, 1, 0, 0, 0⟩] := rfl
  intro e he
  rw [this] at he
  simp only [List.drop_succ_cons, List.drop_zero, List.mem_cons, List.not_mem_nil, or_false] at he
  subst he
  refine ⟨rfl, rfl, ?_⟩
  simp

/-- `randomConfiguration(model)` on a model with a joint added without limits throws no exception and returns an infinite or NaN
coordinate, whatever the numbers drawn: `addJoint` sets the limits to plus and minus the largest finite number, which the test
on infinities accepts, and their difference overflows. -/
theorem C74_default_limits_counterexample (big R : ℝ) (hbig : 0 < big) : ∃ m : Model ℝ LJ, Reach .mimic m ∧ PayloadOk m ∧ m.nq = 1 ∧
    ∀ (r : ℕ → ℝ) (out : ℕ → Fl), ∃ o t, randomConfigurationModel big R m r out = some (o, t) ∧ ¬ (o 0).Finite := by
  have hr : Reach .mimic (slide big) := lRun_reach _ _ _ .init (slide_some big)
  have hlim : Limited (slide big) 0 := ⟨⟨.vec 1, 0, 0⟩, by rw [slide_slots]; simp, 0, by simp [LG.bounded], rfl⟩
  have e1 : (slide big).lowerPositionLimit = [-big] := rfl
  have e2 : (slide big).upperPositionLimit = [big] := rfl
  refine ⟨slide big, hr, slide_ok big, rfl, fun r out => ?_⟩
  cases hc : randomConfigurationModel big R (slide big) r out with
  | none =>
    obtain ⟨k, -, e⟩ := (C74_throws _ _ _ _ _ _ _).1 hc
    rcases e with e | e <;> cases e
  | some ot => exact ⟨ot.1, ot.2, rfl, not_finite hr (slide_ok big) hbig hlim (by rw [e1]; rfl) (by rw [e2]; rfl) hc⟩

/-- the exception for an infinite limit -/
example (r : ℕ → ℝ) (out : ℕ → Fl) : randomConfiguration 100 7 modL (fun _ => .fin 0) (fun k => if k = 17 then .pinf else .fin 1) r out = none :=
  (C74_throws _ _ _ _ _ _ _).2 ⟨17, ⟨⟨.vec 1, 17, 13⟩, by rw [modL_slots]; simp, 0, by simp [LG.bounded], rfl⟩, Or.inr rfl⟩

/-- no exception for an infinite limit on a quaternion -/
example (r : ℕ → ℝ) (out : ℕ → Fl) : randomConfiguration 100 7 modL (fun _ => .fin 0) (fun k => if k = 14 then .pinf else .fin 1) r out ≠ none := by
  rw [Ne, C74_throws]
  rintro ⟨k, ⟨s, hs, i, hi, rfl⟩, e⟩
  rw [modL_slots] at hs
  rcases e with e | e
  · cases e
  · split at e
    · rename_i h
      simp only [List.mem_cons, List.not_mem_nil, or_false] at hs
      rcases hs with rfl | rfl | rfl | rfl | rfl <;> simp [LG.bounded] at hi h <;> omega
    · cases e

end
end Pin.Lie
