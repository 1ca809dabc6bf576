import Mathlib.Tactic.Linarith
import Verif.Geom.Spec

/-! # Lemmas on the collision-pair registry -/

namespace Pin
namespace GeomModel

/-- an unordered pair -/
abbrev sy (p : CPair) : Sym2 ℕ := s(p.1, p.2)

theorem mem_upperPairs {n : ℕ} {p : CPair} : p ∈ upperPairs n ↔ p.1 < p.2 ∧ p.2 < n := by
  unfold upperPairs
  simp only [List.mem_flatMap, List.mem_range, List.mem_map, List.mem_range']
  constructor
  · rintro ⟨i, hi, j, ⟨k, hk, rfl⟩, rfl⟩
    simp only; omega
  · rintro ⟨h1, h2⟩
    exact ⟨p.1, by omega, p.2, ⟨p.2 - (p.1 + 1), by omega, by omega⟩, rfl⟩

theorem nodup_upperPairs (n : ℕ) : (upperPairs n).Nodup := by
  unfold upperPairs
  rw [List.nodup_flatMap]
  refine ⟨fun i _ => (List.nodup_range' ..).map (fun a b h => (Prod.mk.inj h).2), ?_⟩
  refine List.nodup_range.imp ?_
  intro a b hab x ha hb
  simp only [List.mem_map] at ha hb
  obtain ⟨_, _, rfl⟩ := ha
  obtain ⟨_, _, h⟩ := hb
  exact hab (Prod.mk.inj h).1.symm

/-- the loop of `removeCollisionPair` -/
theorem shift_fold (index : ℤ) : ∀ (L : List CPair) (m : ℕ → ℕ → ℤ), L.Nodup → (∀ p ∈ L, p.1 < p.2) →
    (∀ a b, a < b → ((L.foldl (shiftEntry index) m) a b = if (a, b) ∈ L ∧ m a b > index then m a b - 1 else m a b) ∧
      ((L.foldl (shiftEntry index) m) b a = if (a, b) ∈ L ∧ m a b > index then m a b - 1 else m b a)) ∧
    ∀ a, (L.foldl (shiftEntry index) m) a a = m a a := by
  intro L
  induction L with
  | nil => intro m _ _; simp
  | cons p L ih =>
    intro m hn hl
    have hp := hl p (List.mem_cons_self ..)
    have hpL : p ∉ L := (List.nodup_cons.1 hn).1
    obtain ⟨h1, h2⟩ := ih (shiftEntry index m p) (List.nodup_cons.1 hn).2 (fun q hq => hl q (List.mem_cons_of_mem _ hq))
    have hs : ∀ a b, a < b → shiftEntry index m p a b
        = if (a, b) = p ∧ m a b > index then m a b - 1 else m a b := by
      intro a b hab
      unfold shiftEntry
      by_cases hc : m p.1 p.2 > index
      · simp only [hc, if_true, setEntry]
        by_cases e : a = p.1 ∧ b = p.2
        · obtain ⟨rfl, rfl⟩ := e
          have : ¬ (p.1 = p.2) := by omega
          simp [this, hc]
        · have e' : (a, b) ≠ p := by rintro rfl; exact e ⟨rfl, rfl⟩
          have e2 : ¬ (a = p.2 ∧ b = p.1) := by omega
          simp [e, e', e2]
      · simp only [hc, if_false]
        by_cases e : (a, b) = p
        · subst e; simp [hc]
        · simp [e]
    have hs' : ∀ a b, a < b → shiftEntry index m p b a
        = if (a, b) = p ∧ m a b > index then m a b - 1 else m b a := by
      intro a b hab
      unfold shiftEntry
      by_cases hc : m p.1 p.2 > index
      · simp only [hc, if_true, setEntry]
        by_cases e : b = p.2 ∧ a = p.1
        · obtain ⟨rfl, rfl⟩ := e
          have : ¬ (p.2 = p.1) := by omega
          simp [this, hc]
        · have e' : (a, b) ≠ p := by rintro rfl; exact e ⟨rfl, rfl⟩
          have e2 : ¬ (b = p.1 ∧ a = p.2) := by omega
          simp [e, e', e2]
      · simp only [hc, if_false]
        by_cases e : (a, b) = p
        · subst e; simp [hc]
        · simp [e]
    refine ⟨fun a b hab => ?_, fun a => ?_⟩
    · rw [List.foldl_cons, (h1 a b hab).1, (h1 a b hab).2, hs a b hab, hs' a b hab]
      by_cases e : (a, b) = p
      · subst e
        by_cases hc : m a b > index <;> simp [hpL, hc]
      · simp [e]
    · rw [List.foldl_cons, h2]
      unfold shiftEntry
      by_cases hc : m p.1 p.2 > index
      · have e1 : ¬ (a = p.2 ∧ a = p.1) := by omega
        have e2 : ¬ (a = p.1 ∧ a = p.2) := by omega
        simp [hc, setEntry, e1, e2]
      · simp [hc]

/-- the registry is consistent -/
structure Inv (g : GeomModel) : Prop where
  len : g.objects.length = g.ngeoms
  dim : g.ngeoms ≤ g.dim
  valid : ∀ p ∈ g.pairs, p.1 ≠ p.2 ∧ p.1 < g.ngeoms ∧ p.2 < g.ngeoms
  nodup : (g.pairs.map sy).Nodup
  pos : ∀ (k : ℕ) (p : CPair), g.pairs[k]? = some p → g.map p.1 p.2 = k ∧ g.map p.2 p.1 = k
  neg : ∀ a b, a < g.dim → b < g.dim → (∀ p ∈ g.pairs, sy p ≠ s(a, b)) → g.map a b = -1

theorem sy_eq {p : CPair} {a b : ℕ} : sy p = s(a, b) ↔ (p.1 = a ∧ p.2 = b) ∨ (p.1 = b ∧ p.2 = a) := by
  unfold sy; rw [Sym2.eq_iff]

namespace Inv
variable {g : GeomModel}

theorem map_of_mem (h : g.Inv) {k : ℕ} {p : CPair} (hk : g.pairs[k]? = some p) {a b : ℕ} (he : sy p = s(a, b)) :
    g.map a b = k := by
  rcases sy_eq.1 he with ⟨rfl, rfl⟩ | ⟨rfl, rfl⟩
  · exact (h.pos k p hk).1
  · exact (h.pos k p hk).2

theorem cases (h : g.Inv) {a b : ℕ} (ha : a < g.dim) (hb : b < g.dim) :
    ((∀ p ∈ g.pairs, sy p ≠ s(a, b)) ∧ g.map a b = -1) ∨
    ∃ (k : ℕ) (p : CPair), g.pairs[k]? = some p ∧ sy p = s(a, b) ∧ g.map a b = k := by
  by_cases hc : ∃ p ∈ g.pairs, sy p = s(a, b)
  · obtain ⟨p, hp, he⟩ := hc
    obtain ⟨k, hk⟩ := List.mem_iff_getElem?.1 hp
    exact Or.inr ⟨k, p, hk, he, h.map_of_mem hk he⟩
  · have : ∀ p ∈ g.pairs, sy p ≠ s(a, b) := fun p hp he => hc ⟨p, hp, he⟩
    exact Or.inl ⟨this, h.neg a b ha hb this⟩

theorem empty : GeomModel.empty.Inv := by
  refine ⟨rfl, le_rfl, ?_, List.nodup_nil, ?_, ?_⟩ <;> simp [GeomModel.empty]

theorem addObject (h : g.Inv) (junk : ℤ) (o : GObj) : ∃ g', g.addGeometryObject junk o = .ok g' g.ngeoms ∧ g'.Inv ∧
    g'.pairs = g.pairs ∧ g'.ngeoms = g.ngeoms + 1 ∧ g'.objects = g.objects ++ [o] := by
  refine ⟨_, rfl, ⟨?_, le_rfl, ?_, h.nodup, ?_, ?_⟩, rfl, rfl, rfl⟩
  · simp [h.len]
  · intro p hp
    obtain ⟨h1, h2, h3⟩ := h.valid p hp
    exact ⟨h1, Nat.lt_succ_of_lt h2, Nat.lt_succ_of_lt h3⟩
  · intro k p hk
    obtain ⟨h1, h2, h3⟩ := h.valid p (List.mem_iff_getElem?.2 ⟨k, hk⟩)
    obtain ⟨e1, e2⟩ := h.pos k p hk
    have hd := h.dim
    constructor
    · change growMap junk g.dim g.map (g.ngeoms + 1) p.1 p.2 = _
      unfold growMap
      rw [if_neg (by omega), if_pos (by omega), e1]
    · change growMap junk g.dim g.map (g.ngeoms + 1) p.2 p.1 = _
      unfold growMap
      rw [if_neg (by omega), if_pos (by omega), e2]
  · intro a b ha hb hn
    change a < g.ngeoms + 1 at ha
    change b < g.ngeoms + 1 at hb
    change growMap junk g.dim g.map (g.ngeoms + 1) a b = _
    unfold growMap
    have hd := h.dim
    by_cases e : a = g.ngeoms + 1 - 1 ∨ b = g.ngeoms + 1 - 1
    · rw [if_pos e]
    · rw [if_neg e, if_pos (by omega)]
      exact h.neg a b (by omega) (by omega) hn

theorem exist (h : g.Inv) {a b : ℕ} (ha : a < g.ngeoms) (hb : b < g.ngeoms) :
    ∃ x, g.existCollisionPair (a, b) = some x ∧ (x = true ↔ ∃ p ∈ g.pairs, sy p = s(a, b)) := by
  have hd := h.dim
  unfold existCollisionPair
  rw [if_pos ⟨by simp only; omega, by simp only; omega⟩]
  refine ⟨_, rfl, ?_⟩
  rcases h.cases (a := a) (b := b) (by omega) (by omega) with ⟨hn, e⟩ | ⟨k, p, hk, he, e⟩
  · simp only [e]
    constructor
    · intro hc; simp at hc
    · rintro ⟨p, hp, he⟩; exact absurd he (hn p hp)
  · simp only [e]
    constructor
    · intro _; exact ⟨p, List.mem_iff_getElem?.2 ⟨k, hk⟩, he⟩
    · intro _
      rw [bne_iff_ne]; omega

theorem find (h : g.Inv) {a b : ℕ} (ha : a < g.ngeoms) (hb : b < g.ngeoms) :
    ∃ k, g.findCollisionPair (a, b) = some k ∧
      (((∀ p ∈ g.pairs, sy p ≠ s(a, b)) ∧ k = g.pairs.length) ∨ ∃ p, g.pairs[k]? = some p ∧ sy p = s(a, b)) := by
  have hd := h.dim
  unfold findCollisionPair
  rw [if_pos ⟨by simp only; omega, by simp only; omega⟩]
  refine ⟨_, rfl, ?_⟩
  rcases h.cases (a := a) (b := b) (by omega) (by omega) with ⟨hn, e⟩ | ⟨k, p, hk, he, e⟩
  · left; exact ⟨hn, by simp [e]⟩
  · right
    refine ⟨p, ?_, he⟩
    simp only [e]
    rw [if_neg (by omega), Int.toNat_natCast, hk]

/-- `addCollisionPair` -/
theorem addPair (h : g.Inv) {p : CPair} (hp : p.1 ≠ p.2) :
    (¬ (p.1 < g.ngeoms ∧ p.2 < g.ngeoms) ∧ g.addCollisionPair p = .throw g) ∨
    ((p.1 < g.ngeoms ∧ p.2 < g.ngeoms) ∧ (∃ r ∈ g.pairs, sy r = sy p) ∧ g.addCollisionPair p = .ok g ()) ∨
    ((p.1 < g.ngeoms ∧ p.2 < g.ngeoms) ∧ (∀ r ∈ g.pairs, sy r ≠ sy p) ∧ ∃ g', g.addCollisionPair p = .ok g' () ∧ g'.Inv ∧
      g'.pairs = g.pairs ++ [p] ∧ g'.ngeoms = g.ngeoms ∧ g'.objects = g.objects) := by
  unfold addCollisionPair
  by_cases h1 : p.1 < g.ngeoms
  swap
  · left; exact ⟨fun hh => h1 hh.1, by rw [if_pos h1]⟩
  by_cases h2 : p.2 < g.ngeoms
  swap
  · left; exact ⟨fun hh => h2 hh.2, by rw [if_neg (by simpa using h1), if_pos h2]⟩
  right
  rw [if_neg (by simpa using h1), if_neg (by simpa using h2)]
  obtain ⟨x, ex, hx⟩ := h.exist h1 h2
  have ex' : g.existCollisionPair p = some x := ex
  rw [ex']
  cases x with
  | true => exact Or.inl ⟨⟨h1, h2⟩, hx.1 rfl, rfl⟩
  | false =>
    right
    have hn : ∀ r ∈ g.pairs, sy r ≠ sy p := fun r hr he => by simpa using hx.2 ⟨r, hr, he⟩
    refine ⟨⟨h1, h2⟩, hn, _, rfl, ⟨h.len, h.dim, ?_, ?_, ?_, ?_⟩, rfl, rfl, rfl⟩
    · intro r hr
      rcases List.mem_append.1 hr with hr | hr
      · exact h.valid r hr
      · rw [List.mem_singleton.1 hr]; exact ⟨hp, h1, h2⟩
    · change ((g.pairs ++ [p]).map sy).Nodup
      rw [List.map_append, List.nodup_append]
      refine ⟨h.nodup, List.nodup_singleton _, ?_⟩
      intro a ha b hb
      rw [List.mem_map] at ha
      obtain ⟨r, hr, rfl⟩ := ha
      rw [List.map_singleton, List.mem_singleton] at hb
      subst hb
      exact hn r hr
    · intro k r hk
      simp only [setEntry]
      change (g.pairs ++ [p])[k]? = some r at hk
      rw [List.getElem?_append] at hk
      by_cases hkl : k < g.pairs.length
      · rw [if_pos hkl] at hk
        obtain ⟨e1, e2⟩ := h.pos k r hk
        have hr : r ∈ g.pairs := List.mem_iff_getElem?.2 ⟨k, hk⟩
        have hne := hn r hr
        have a1 : ¬ (r.1 = p.1 ∧ r.2 = p.2) := fun e => hne (sy_eq.2 (Or.inl e))
        have a2 : ¬ (r.1 = p.2 ∧ r.2 = p.1) := fun e => hne (sy_eq.2 (Or.inr e))
        have a3 : ¬ (r.2 = p.1 ∧ r.1 = p.2) := fun e => a2 ⟨e.2, e.1⟩
        have a4 : ¬ (r.2 = p.2 ∧ r.1 = p.1) := fun e => a1 ⟨e.2, e.1⟩
        simp only [if_neg a1, if_neg a2, if_neg a3, if_neg a4]
        exact ⟨e1, e2⟩
      · rw [if_neg hkl] at hk
        have hk0 : k - g.pairs.length = 0 := by
          by_contra hh
          rw [List.getElem?_eq_none (by simp; omega)] at hk
          simp at hk
        rw [hk0] at hk
        simp only [List.getElem?_cons_zero, Option.some.injEq] at hk
        subst hk
        have hkk : k = g.pairs.length := by omega
        have a1 : ¬ (p.2 = p.1 ∧ p.1 = p.2) := fun e => hp e.2
        simp [hkk, a1]
    · intro a b ha hb hnn
      have hlast : sy p ≠ s(a, b) := hnn p (by simp)
      have a1 : ¬ (a = p.1 ∧ b = p.2) := fun e => hlast (sy_eq.2 (Or.inl ⟨e.1.symm, e.2.symm⟩))
      have a2 : ¬ (a = p.2 ∧ b = p.1) := fun e => hlast (sy_eq.2 (Or.inr ⟨e.2.symm, e.1.symm⟩))
      simp only [setEntry, if_neg a1, if_neg a2]
      exact h.neg a b ha hb fun r hr => hnn r (by simp [hr])

theorem removeAll (hl : g.objects.length = g.ngeoms) (hd : g.ngeoms ≤ g.dim) : g.removeAllCollisionPairs.Inv := by
  refine ⟨hl, hd, ?_, List.nodup_nil, ?_, fun _ _ _ _ _ => rfl⟩ <;> simp [removeAllCollisionPairs]

theorem addPairs : ∀ (L : List CPair) {g : GeomModel}, g.Inv → (∀ p ∈ L, p.1 ≠ p.2 ∧ p.1 < g.ngeoms ∧ p.2 < g.ngeoms) →
    ((g.pairs ++ L).map sy).Nodup → ∃ g', g.addPairs L = .ok g' () ∧ g'.Inv ∧ g'.pairs = g.pairs ++ L ∧
      g'.ngeoms = g.ngeoms ∧ g'.objects = g.objects := by
  intro L
  induction L with
  | nil => intro g h _ _; exact ⟨g, rfl, h, by simp, rfl, rfl⟩
  | cons p L ih =>
    intro g h hv hn
    obtain ⟨v1, v2, v3⟩ := hv p (List.mem_cons_self ..)
    have hfresh : ∀ r ∈ g.pairs, sy r ≠ sy p := by
      intro r hr he
      rw [List.map_append, List.nodup_append] at hn
      exact hn.2.2 (sy r) (List.mem_map_of_mem hr) (sy p) (List.mem_map_of_mem (List.mem_cons_self ..)) he
    rcases h.addPair v1 with ⟨hc, _⟩ | ⟨_, ⟨r, hr, he⟩, _⟩ | ⟨_, _, g', e, hi, hpq, hng, ho⟩
    · exact absurd ⟨v2, v3⟩ hc
    · exact absurd he (hfresh r hr)
    · obtain ⟨g'', e'', hi'', hp'', hng'', ho''⟩ := ih hi
        (fun q hq => by rw [hng]; exact hv q (List.mem_cons_of_mem _ hq))
        (by rw [hpq, List.append_assoc]; exact hn)
      refine ⟨g'', ?_, hi'', ?_, by rw [hng'', hng], by rw [ho'', ho]⟩
      · unfold GeomModel.addPairs
        have : CPair.mk? p.1 p.2 = some p := if_pos v1
        rw [this]
        simp only [e, e'']
      · rw [hp'', hpq, List.append_assoc]; rfl

theorem addFiltered (hl : g.objects.length = g.ngeoms) (hd : g.ngeoms ≤ g.dim) (f : CPair → Bool) :
    ∃ g', g.removeAllCollisionPairs.addPairs ((upperPairs g.ngeoms).filter f) = .ok g' () ∧ g'.Inv ∧
      g'.pairs = (upperPairs g.ngeoms).filter f ∧ g'.ngeoms = g.ngeoms ∧ g'.objects = g.objects := by
  obtain ⟨g', e, hi, hp, hng, ho⟩ := addPairs ((upperPairs g.ngeoms).filter f) (removeAll hl hd)
    (by
      intro p hp
      have := mem_upperPairs.1 (List.mem_of_mem_filter hp)
      change p.1 ≠ p.2 ∧ p.1 < g.ngeoms ∧ p.2 < g.ngeoms
      omega)
    (by
      change (([] ++ (upperPairs g.ngeoms).filter f).map sy).Nodup
      rw [List.nil_append]
      refine List.Nodup.map_on ?_ ((nodup_upperPairs _).filter _)
      intro p hp r hr he
      have h1 := mem_upperPairs.1 (List.mem_of_mem_filter hp)
      have h2 := mem_upperPairs.1 (List.mem_of_mem_filter hr)
      rcases sy_eq.1 he with ⟨e1, e2⟩ | ⟨e1, e2⟩
      · exact Prod.ext e1 e2
      · omega)
  exact ⟨g', e, hi, by simpa [removeAllCollisionPairs] using hp, hng, ho⟩

/-- `removeCollisionPair` -/
theorem removePair (h : g.Inv) {p : CPair} (hp : p.1 ≠ p.2) :
    (¬ (p.1 < g.ngeoms ∧ p.2 < g.ngeoms) ∧ g.removeCollisionPair p = .throw g) ∨
    ((p.1 < g.ngeoms ∧ p.2 < g.ngeoms) ∧ ∃ g', g.removeCollisionPair p = .ok g' () ∧ g'.Inv ∧
      g'.pairs = g.pairs.filter (fun r => !(CPair.same r p)) ∧ g'.ngeoms = g.ngeoms ∧ g'.objects = g.objects) := by
  unfold removeCollisionPair
  by_cases h1 : p.1 < g.ngeoms
  swap
  · left; exact ⟨fun hh => h1 hh.1, by rw [if_pos h1]⟩
  by_cases h2 : p.2 < g.ngeoms
  swap
  · left; exact ⟨fun hh => h2 hh.2, by rw [if_neg (by simpa using h1), if_pos h2]⟩
  right
  refine ⟨⟨h1, h2⟩, ?_⟩
  rw [if_neg (by simpa using h1), if_neg (by simpa using h2)]
  have hsame : ∀ r : CPair, CPair.same r p = true ↔ sy r = sy p := by
    intro r
    rw [sy_eq]
    simp [CPair.same]
  obtain ⟨k, ek, hk⟩ := h.find h1 h2
  have ek' : g.findCollisionPair p = some k := ek
  rw [ek']
  rcases hk with ⟨hn, rfl⟩ | ⟨r, hr, he⟩
  · refine ⟨g, by simp, h, ?_, rfl, rfl⟩
    rw [List.filter_eq_self.2]
    intro r hr
    have := hn r hr
    rw [Bool.not_eq_true', ← Bool.not_eq_true, hsame]
    exact this
  · obtain ⟨hkl, hkr⟩ := List.getElem?_eq_some_iff.1 hr
    have hd := h.dim
    simp only [ne_eq, Nat.ne_of_lt hkl, not_false_eq_true, if_true, hkl]
    -- the map before the loop
    let m1 : ℕ → ℕ → ℤ := setEntry (setEntry g.map p.2 p.1 (-1)) p.1 p.2 (-1)
    have hm1 : ∀ a b, m1 a b = if s(a, b) = sy p then -1 else g.map a b := by
      intro a b
      have : s(a, b) = sy p ↔ (a = p.1 ∧ b = p.2) ∨ (a = p.2 ∧ b = p.1) := by
        rw [Sym2.eq_iff]
      simp only [m1, setEntry, this]
      by_cases c1 : a = p.1 ∧ b = p.2
      · simp [c1]
      · by_cases c2 : a = p.2 ∧ b = p.1 <;> simp [c1, c2]
    obtain ⟨f1, f2⟩ := shift_fold k (upperPairs g.dim) m1 (nodup_upperPairs _) (fun q hq => (mem_upperPairs.1 hq).1)
    have hsym : ∀ a b, a < g.dim → b < g.dim → g.map a b = g.map b a := by
      intro a b ha hb
      rcases h.cases ha hb with ⟨hn, e⟩ | ⟨l, q, hl, hq, e⟩
      · rw [e, h.neg b a hb ha (fun q hq => by rw [Sym2.eq_swap]; exact hn q hq)]
      · rw [e, h.map_of_mem hl (by rw [hq, Sym2.eq_swap])]
    have hfin : ∀ a b, a < g.dim → b < g.dim → a ≠ b →
        ((upperPairs g.dim).foldl (shiftEntry k) m1) a b
          = if s(a, b) = sy p then -1 else if g.map a b > k then g.map a b - 1 else g.map a b := by
      intro a b ha hb hab
      rcases Nat.lt_or_gt_of_ne hab with hlt | hgt
      · rw [(f1 a b hlt).1, hm1]
        have : (a, b) ∈ upperPairs g.dim := mem_upperPairs.2 ⟨hlt, hb⟩
        by_cases c : s(a, b) = sy p
        · simp only [c, if_true]
          rw [if_neg (by omega)]
        · simp [c, this]
      · rw [(f1 b a hgt).2, hm1, hm1]
        have : (b, a) ∈ upperPairs g.dim := mem_upperPairs.2 ⟨hgt, ha⟩
        rw [Sym2.eq_swap (a := b) (b := a)]
        by_cases c : s(a, b) = sy p
        · simp only [c, if_true]
          rw [if_neg (by omega)]
        · simp only [c, this, true_and, if_false]
          rw [hsym b a hb ha]
    have hmemE : ∀ q, q ∈ g.pairs.eraseIdx k → q ∈ g.pairs ∧ sy q ≠ sy p := by
      intro q hq
      refine ⟨List.mem_of_mem_eraseIdx hq, ?_⟩
      intro e
      rw [List.mem_eraseIdx_iff_getElem?] at hq
      obtain ⟨l, hlk, hl⟩ := hq
      apply hlk
      have e1 := h.map_of_mem hl (a := p.1) (b := p.2) e
      have e2 := h.map_of_mem hr he
      rw [e1] at e2
      exact_mod_cast e2
    have hfilt : g.pairs.eraseIdx k = g.pairs.filter (fun r => !(CPair.same r p)) := by
      have hs : g.pairs = g.pairs.take k ++ r :: g.pairs.drop (k + 1) := by
        rw [← hkr, List.getElem_cons_drop, List.take_append_drop]
      have hA : g.pairs.eraseIdx k = g.pairs.take k ++ g.pairs.drop (k + 1) := List.eraseIdx_eq_take_drop_succ ..
      have hB : ∀ q ∈ g.pairs.take k ++ g.pairs.drop (k + 1), (!(CPair.same q p)) = true := by
        intro q hq
        rw [← hA] at hq
        have := (hmemE q hq).2
        rw [Bool.not_eq_true', ← Bool.not_eq_true, hsame]
        exact this
      have hr' : (!(CPair.same r p)) = false := by
        rw [Bool.not_eq_false', hsame]; exact he
      rw [hA]
      conv_rhs => rw [hs]
      rw [List.filter_append, List.filter_cons, hr']
      simp only [Bool.false_eq_true, if_false]
      rw [← List.filter_append, List.filter_eq_self.2 hB]
    refine ⟨_, rfl, ⟨h.len, h.dim, ?_, ?_, ?_, ?_⟩, hfilt, rfl, rfl⟩
    · intro q hq
      exact h.valid q (hmemE q hq).1
    · change ((g.pairs.eraseIdx k).map sy).Nodup
      exact h.nodup.sublist ((List.eraseIdx_sublist _ _).map _)
    · intro l q hq
      change (g.pairs.eraseIdx k)[l]? = some q at hq
      have hqm := hmemE q (List.mem_iff_getElem?.2 ⟨l, hq⟩)
      obtain ⟨v1, v2, v3⟩ := h.valid q hqm.1
      rw [List.getElem?_eraseIdx] at hq
      change ((upperPairs g.dim).foldl (shiftEntry k) m1) q.1 q.2 = l ∧ ((upperPairs g.dim).foldl (shiftEntry k) m1) q.2 q.1 = l
      have hq2 : ¬ (s(q.2, q.1) = sy p) := by rw [Sym2.eq_swap]; exact hqm.2
      have hq1 : ¬ (s(q.1, q.2) = sy p) := hqm.2
      rw [hfin _ _ (by omega) (by omega) v1, hfin _ _ (by omega) (by omega) (Ne.symm v1), if_neg hq1, if_neg hq2]
      by_cases hlk : l < k
      · rw [if_pos hlk] at hq
        obtain ⟨e1, e2⟩ := h.pos l q hq
        have : ¬ ((l : ℤ) > k) := by omega
        simp only [e1, e2, this, if_false, and_self]
      · rw [if_neg hlk] at hq
        obtain ⟨e1, e2⟩ := h.pos (l + 1) q hq
        have : ((l + 1 : ℕ) : ℤ) > k := by omega
        simp only [e1, e2, this, if_true]
        constructor <;> omega
    · intro a b ha hb hn
      change ((upperPairs g.dim).foldl (shiftEntry k) m1) a b = -1
      by_cases hab : a = b
      · subst hab
        rw [f2, hm1]
        split
        · rfl
        · refine h.neg a a ha ha fun q hq e => ?_
          have := (h.valid q hq).1
          rcases sy_eq.1 e with ⟨e1, e2⟩ | ⟨e1, e2⟩ <;> omega
      · rw [hfin a b ha hb hab]
        by_cases c : s(a, b) = sy p
        · rw [if_pos c]
        · rw [if_neg c]
          have : g.map a b = -1 := by
            refine h.neg a b ha hb fun q hq e => ?_
            obtain ⟨l, hl⟩ := List.mem_iff_getElem?.1 hq
            refine hn q ?_ e
            rw [List.mem_eraseIdx_iff_getElem?]
            refine ⟨l, ?_, hl⟩
            rintro rfl
            rw [hl] at hr
            cases hr
            exact c (e.symm.trans he)
          rw [this, if_neg (by omega)]

end Inv
end GeomModel
end Pin

namespace Pin
open GeomModel

/-- the code's state simulates the registry -/
structure Sim (g : GeomModel) (r : Registry) : Prop where
  inv : g.Inv
  joints : g.objects.map (·.parentJoint) = r.joints
  pairs : ∀ e, e ∈ r.pairs ↔ ∃ p ∈ g.pairs, s(p.1, p.2) = e

namespace Sim
variable {g : GeomModel} {r : Registry}

theorem len (h : Sim g r) : r.joints.length = g.ngeoms := by
  rw [← h.joints, List.length_map, h.inv.len]

theorem represents (h : Sim g r) : Represents g r := by
  refine ⟨h.joints, h.len.symm, h.pairs, h.inv.nodup, ?_, ?_, ?_⟩
  · intro p hp
    have := h.inv.valid p hp
    rw [← h.len] at this
    exact this
  · intro a b ha hb
    obtain ⟨x, e, hx⟩ := h.inv.exist ha hb
    exact ⟨x, e, by rw [h.pairs]; exact hx⟩
  · intro a b ha hb
    obtain ⟨k, e, hk⟩ := h.inv.find ha hb
    refine ⟨k, e, ?_⟩
    rcases hk with ⟨hn, e⟩ | hk
    · left
      refine ⟨?_, e⟩
      rw [h.pairs]
      rintro ⟨p, hp, he⟩
      exact hn p hp he
    · right; exact hk

theorem init : Sim GeomModel.empty Registry.empty := by
  refine ⟨Inv.empty, rfl, ?_⟩
  intro e; simp [Registry.empty, GeomModel.empty]

/-- one call: it throws exactly when it must, and leaves the state it must -/
theorem step (h : Sim g r) (op : GOp) (hop : op.Pre) :
    ∃ g', (op.exec g = .ok g' () ∨ (op.exec g = .throw g' ∧ g' = g)) ∧ Sim g' (r.step op) := by
  cases op with
  | addObject junk o =>
    obtain ⟨g', e, hi, hp, hn, ho⟩ := h.inv.addObject junk o
    refine ⟨g', Or.inl (by simp only [GOp.exec, e]), hi, ?_, ?_⟩
    · simp [ho, Registry.step, ← h.joints]
    · intro x; rw [hp]; exact h.pairs x
  | addObjectM junk frames o =>
    have hlt : o.parentFrame < frames.length := hop
    have hfr : frames[o.parentFrame]? = some frames[o.parentFrame] := List.getElem?_eq_getElem hlt
    by_cases hj : frames[o.parentFrame] = o.parentJoint
    · obtain ⟨g', e, hi, hp, hn, ho⟩ := h.inv.addObject junk { o with parentJoint := frames[o.parentFrame] }
      refine ⟨g', Or.inl ?_, hi, ?_, ?_⟩
      · simp only [GOp.exec, addGeometryObjectM, hfr]
        rw [if_neg (by simpa using hj)]
        simp only [e]
      · simp [ho, Registry.step, ← h.joints, hfr, hj]
      · intro x; rw [hp]
        simp only [Registry.step, hfr, hj, if_true]; exact h.pairs x
    · refine ⟨g, Or.inr ⟨?_, rfl⟩, ?_⟩
      · simp only [GOp.exec, addGeometryObjectM, hfr]
        rw [if_pos hj]
      · have : Registry.step r (.addObjectM junk frames o) = r := by
          simp [Registry.step, hfr, hj]
        rw [this]; exact h
  | addPair a b =>
    by_cases hab : a = b
    · refine ⟨g, Or.inr ⟨by simp [GOp.exec, CPair.mk?, hab], rfl⟩, ?_⟩
      have : Registry.step r (.addPair a b) = r := by simp [Registry.step, Registry.Valid, hab]
      rw [this]; exact h
    · have hm : CPair.mk? a b = some (a, b) := by simp [CPair.mk?, hab]
      rcases h.inv.addPair (p := (a, b)) hab with ⟨hc, e⟩ | ⟨hv, ⟨p, hp, he⟩, e⟩ | ⟨hv, hn, g', e, hi, hp, hng, ho⟩
      · refine ⟨g, Or.inr ⟨by simp only [GOp.exec, hm, e], rfl⟩, ?_⟩
        have : Registry.step r (.addPair a b) = r := by
          simp only [Registry.step, Registry.Valid, h.len]
          rw [if_neg (fun hh => hc hh.2)]
        rw [this]; exact h
      · refine ⟨g, Or.inl (by simp only [GOp.exec, hm, e]), h.inv, ?_, ?_⟩
        · simp only [Registry.step]; split <;> exact h.joints
        · intro x
          simp only [Registry.step, Registry.Valid, h.len]
          rw [if_pos ⟨hab, hv⟩]
          simp only [Set.mem_insert_iff, h.pairs]
          constructor
          · rintro (rfl | hx)
            · exact ⟨p, hp, he⟩
            · exact hx
          · exact Or.inr
      · refine ⟨g', Or.inl (by simp only [GOp.exec, hm, e]), hi, ?_, ?_⟩
        · rw [ho]; simp only [Registry.step]; split <;> exact h.joints
        · intro x
          simp only [Registry.step, Registry.Valid, h.len]
          rw [if_pos ⟨hab, hv⟩]
          simp only [Set.mem_insert_iff, h.pairs, hp, List.mem_append, List.mem_singleton]
          constructor
          · rintro (rfl | ⟨p, hp, he⟩)
            · exact ⟨_, Or.inr rfl, rfl⟩
            · exact ⟨p, Or.inl hp, he⟩
          · rintro ⟨p, hp | rfl, he⟩
            · exact Or.inr ⟨p, hp, he⟩
            · exact Or.inl he.symm
  | removePair a b =>
    by_cases hab : a = b
    · refine ⟨g, Or.inr ⟨by simp [GOp.exec, CPair.mk?, hab], rfl⟩, ?_⟩
      have : Registry.step r (.removePair a b) = r := by simp [Registry.step, Registry.Valid, hab]
      rw [this]; exact h
    · have hm : CPair.mk? a b = some (a, b) := by simp [CPair.mk?, hab]
      rcases h.inv.removePair (p := (a, b)) hab with ⟨hc, e⟩ | ⟨hv, g', e, hi, hp, hng, ho⟩
      · refine ⟨g, Or.inr ⟨by simp only [GOp.exec, hm, e], rfl⟩, ?_⟩
        have : Registry.step r (.removePair a b) = r := by
          simp only [Registry.step, Registry.Valid, h.len]
          rw [if_neg (fun hh => hc hh.2)]
        rw [this]; exact h
      · refine ⟨g', Or.inl (by simp only [GOp.exec, hm, e]), hi, ?_, ?_⟩
        · rw [ho]; simp only [Registry.step]; split <;> exact h.joints
        · intro x
          simp only [Registry.step, Registry.Valid, h.len]
          rw [if_pos ⟨hab, hv⟩]
          have hsame : ∀ r : CPair, CPair.same r (a, b) = true ↔ s(r.1, r.2) = s(a, b) := by
            intro r
            rw [Sym2.eq_iff]
            simp [CPair.same]
          simp only [Set.mem_diff, Set.mem_singleton_iff, h.pairs, hp, List.mem_filter, Bool.not_eq_true',
            ← Bool.not_eq_true, hsame]
          constructor
          · rintro ⟨⟨p, hp, rfl⟩, hn⟩
            exact ⟨p, ⟨hp, hn⟩, rfl⟩
          · rintro ⟨p, ⟨hp, hn⟩, rfl⟩
            exact ⟨⟨p, hp, rfl⟩, hn⟩
  | removeAll =>
    refine ⟨_, Or.inl rfl, Inv.removeAll h.inv.len h.inv.dim, h.joints, ?_⟩
    intro x; simp [Registry.step, removeAllCollisionPairs]
  | addAll =>
    obtain ⟨g', e, hi, hp, hng, ho⟩ := Inv.addFiltered h.inv.len h.inv.dim
      (fun p => (g.objects[p.1]?.map (·.parentJoint)) != (g.objects[p.2]?.map (·.parentJoint)))
    refine ⟨g', Or.inl e, hi, by rw [ho]; exact h.joints, ?_⟩
    intro x
    simp only [Registry.step, Registry.Valid, h.len, Set.mem_setOf_eq, hp, List.mem_filter, mem_upperPairs, bne_iff_ne,
      ← List.getElem?_map, h.joints]
    constructor
    · rintro ⟨a, b, ⟨hab, ha, hb⟩, hj, rfl⟩
      rcases Nat.lt_or_gt_of_ne hab with hlt | hgt
      · exact ⟨(a, b), ⟨⟨hlt, hb⟩, hj⟩, rfl⟩
      · exact ⟨(b, a), ⟨⟨hgt, ha⟩, Ne.symm hj⟩, Sym2.eq_swap⟩
    · rintro ⟨p, ⟨⟨h1, h2⟩, hj⟩, rfl⟩
      exact ⟨p.1, p.2, ⟨by omega, by omega, h2⟩, hj, rfl⟩
  | setPairs rows cols m upper =>
    by_cases hr : rows = g.ngeoms
    swap
    · refine ⟨g, Or.inr ⟨by simp [GOp.exec, setCollisionPairs, hr], rfl⟩, ?_⟩
      have : Registry.step r (.setPairs rows cols m upper) = r := by
        simp only [Registry.step, h.len]; rw [if_neg (fun hh => hr hh.1)]
      rw [this]; exact h
    by_cases hc : cols = g.ngeoms
    swap
    · refine ⟨g, Or.inr ⟨by simp [GOp.exec, setCollisionPairs, hr, hc], rfl⟩, ?_⟩
      have : Registry.step r (.setPairs rows cols m upper) = r := by
        simp only [Registry.step, h.len]; rw [if_neg (fun hh => hc hh.2)]
      rw [this]; exact h
    obtain ⟨g', e, hi, hp, hng, ho⟩ := Inv.addFiltered h.inv.len h.inv.dim
      (fun p => if upper then m p.1 p.2 else m p.2 p.1)
    refine ⟨g', Or.inl ?_, hi, ?_, ?_⟩
    · simp only [GOp.exec, setCollisionPairs]
      rw [if_neg (by simpa using hr), if_neg (by simpa using hc), e]
    · rw [ho]; simp only [Registry.step]; split <;> exact h.joints
    · intro x
      simp only [Registry.step, Registry.Valid, h.len]
      rw [if_pos ⟨hr, hc⟩]
      simp only [Set.mem_setOf_eq, hp, List.mem_filter, mem_upperPairs]
      constructor
      · rintro ⟨a, b, ⟨hab, ha, hb⟩, hlt, hm, rfl⟩
        exact ⟨(a, b), ⟨⟨hlt, hb⟩, hm⟩, rfl⟩
      · rintro ⟨p, ⟨⟨h1, h2⟩, hm⟩, rfl⟩
        exact ⟨p.1, p.2, ⟨by omega, by omega, h2⟩, h1, hm, rfl⟩

theorem runFrom : ∀ (ops : List GOp) {g : GeomModel} {r : Registry}, Sim g r → (∀ op ∈ ops, op.Pre) →
    ∃ g', runG g ops = some g' ∧ Sim g' (ops.foldl Registry.step r) := by
  intro ops
  induction ops with
  | nil => intro g r h _; exact ⟨g, rfl, h⟩
  | cons op l ih =>
    intro g r h hp
    obtain ⟨g', e, hs⟩ := h.step op (hp op (List.mem_cons_self ..))
    obtain ⟨g'', e'', hs''⟩ := ih hs (fun o ho => hp o (List.mem_cons_of_mem _ ho))
    refine ⟨g'', ?_, hs''⟩
    unfold runG
    rcases e with e | ⟨e, _⟩ <;> simp only [e, e'']

end Sim

/-- the loop of `removeGeometryObject` -/
theorem removePairsLoop_snd (i : ℕ) : ∀ (todo done : List CPair),
    (removePairsLoop i done todo).2 = done ++ pairsWithout i todo := by
  intro todo
  induction todo with
  | nil => intro done; simp [removePairsLoop, pairsWithout]
  | cons p l ih =>
    intro done
    unfold removePairsLoop
    by_cases h : p.1 = i ∨ p.2 = i
    · rw [if_pos h]
      simp only
      rw [ih]
      have : ¬ (p.1 ≠ i ∧ p.2 ≠ i) := by tauto
      simp [pairsWithout, this]
    · rw [if_neg h, ih]
      have : p.1 ≠ i ∧ p.2 ≠ i := by tauto
      simp [pairsWithout, this, renumber]

theorem removePairsLoop_fst (i : ℕ) : ∀ (todo done : List CPair), (removePairsLoop i done todo).1 = true ↔
    done = [] ∧ ∃ p, todo.head? = some p ∧ (p.1 = i ∨ p.2 = i) := by
  intro todo
  induction todo with
  | nil => intro done; simp [removePairsLoop]
  | cons p l ih =>
    intro done
    unfold removePairsLoop
    by_cases h : p.1 = i ∨ p.2 = i
    · rw [if_pos h]
      simp only [Bool.or_eq_true, List.isEmpty_iff, ih, List.head?_cons, Option.some.injEq, exists_eq_left', h, and_true]
      tauto
    · rw [if_neg h, ih]
      simp [h]

/-- the loop that sets the flags -/
theorem getElem?_setLoop {α : Type*} (f : CPair → Option α) : ∀ (ps : List CPair) (k : ℕ) (l : List α) (j : ℕ),
    (GeomData.setLoop f k ps l)[j]? =
      if k ≤ j then
        match ps[j - k]? with
        | some p => (match f p with | some x => if j < l.length then some x else none | none => l[j]?)
        | none => l[j]?
      else l[j]? := by
  intro ps
  induction ps with
  | nil => intro k l j; simp [GeomData.setLoop]
  | cons p ps ih =>
    intro k l j
    unfold GeomData.setLoop
    rw [ih]
    by_cases h1 : k + 1 ≤ j
    · have e : j - k = (j - (k + 1)) + 1 := by omega
      rw [if_pos h1, if_pos (by omega), e, List.getElem?_cons_succ]
      cases f p with
      | none => rfl
      | some x => simp only [List.length_set, List.getElem?_set_ne (show k ≠ j by omega)]
    · rw [if_neg h1]
      by_cases h2 : k ≤ j
      · have e : j = k := by omega
        subst e
        rw [if_pos h2, Nat.sub_self, List.getElem?_cons_zero]
        simp only
        cases f p with
        | none => rfl
        | some x => simp only; rw [List.getElem?_set_self']; by_cases hj : j < l.length <;> simp [hj]
      · rw [if_neg h2]
        cases f p with
        | none => rfl
        | some x => simp only; rw [List.getElem?_set_ne (by omega)]

theorem length_setLoop {α : Type*} (f : CPair → Option α) : ∀ (ps : List CPair) (k : ℕ) (l : List α),
    (GeomData.setLoop f k ps l).length = l.length := by
  intro ps
  induction ps with
  | nil => intro k l; rfl
  | cons p ps ih =>
    intro k l
    unfold GeomData.setLoop
    rw [ih]
    cases f p <;> simp

end Pin
