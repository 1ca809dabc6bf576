import Verif.Geom.Lemmas

/-!
# Collision pairs: C28 (registry), C29 (removal of an object), C30 (activation flags)

The specification (`Geom/Spec`): `Registry` is a list of objects with a set of unordered pairs, `Registry.step` says what
each call means, `Represents g r` says that the state of the code enumerates the registry `r` without repetition and that the
queries answer according to it.
-/

namespace Pin
open GeomModel

/-! ## C28 -/

/-- **C28.** After every history of calls (exceptions being caught by the caller), nothing undefined has happened and the
state represents the registry obtained by the set-level meaning of the calls. -/
theorem C28_registry (ops : List GOp) (hp : ∀ op ∈ ops, op.Pre) :
    ∃ g, runG GeomModel.empty ops = some g ∧ Represents g (Registry.run ops) := by
  obtain ⟨g, e, h⟩ := Sim.runFrom ops Sim.init hp
  exact ⟨g, e, h.represents⟩

/-- **C28, exceptions.** In every reachable state a call either succeeds or throws and then leaves the state as it was;
`addCollisionPair` and `removeCollisionPair` throw exactly when the pair is not made of two different objects, and
`setCollisionPairs` when the matrix has not the right size. -/
theorem C28_exceptions (ops : List GOp) (hp : ∀ op ∈ ops, op.Pre) {g : GeomModel} (hg : runG GeomModel.empty ops = some g)
    (op : GOp) (hop : op.Pre) :
    (∃ g', op.exec g = .ok g' ()) ∨ op.exec g = .throw g := by
  obtain ⟨g0, e, h⟩ := Sim.runFrom ops Sim.init hp
  rw [hg] at e; cases e
  obtain ⟨g', h1 | ⟨h1, h2⟩, _⟩ := h.step op hop
  · exact Or.inl ⟨g', h1⟩
  · exact Or.inr (by rw [h1, h2])

theorem C28_addPair_throws (ops : List GOp) (hp : ∀ op ∈ ops, op.Pre) {g : GeomModel}
    (hg : runG GeomModel.empty ops = some g) (a b : ℕ) :
    ((GOp.addPair a b).exec g = .throw g ↔ ¬ (a ≠ b ∧ a < g.ngeoms ∧ b < g.ngeoms)) ∧
    ((GOp.removePair a b).exec g = .throw g ↔ ¬ (a ≠ b ∧ a < g.ngeoms ∧ b < g.ngeoms)) := by
  obtain ⟨g0, e, h⟩ := Sim.runFrom ops Sim.init hp
  rw [hg] at e; cases e
  by_cases hab : a = b
  · subst hab; simp [GOp.exec, CPair.mk?]
  · have hm : CPair.mk? a b = some (a, b) := by simp [CPair.mk?, hab]
    simp only [GOp.exec, hm]
    constructor
    · rcases h.inv.addPair (p := (a, b)) hab with ⟨hc, e⟩ | ⟨hv, _, e⟩ | ⟨hv, hn, g', e, _⟩
      · simp only [e, true_iff]; exact fun hh => hc hh.2
      · simp only [e, reduceCtorEq, false_iff, not_not]; exact ⟨hab, hv⟩
      · simp only [e, reduceCtorEq, false_iff, not_not]; exact ⟨hab, hv⟩
    · rcases h.inv.removePair (p := (a, b)) hab with ⟨hc, e⟩ | ⟨hv, g', e, _⟩
      · simp only [e, true_iff]; exact fun hh => hc hh.2
      · simp only [e, reduceCtorEq, false_iff, not_not]; exact ⟨hab, hv⟩

/-- **C28, order.** `addCollisionPair` of a new pair puts it at the end; `removeCollisionPair` keeps the order of the other
pairs. -/
theorem C28_order (ops : List GOp) (hp : ∀ op ∈ ops, op.Pre) {g : GeomModel} (hg : runG GeomModel.empty ops = some g)
    {a b : ℕ} (hab : a ≠ b) (ha : a < g.ngeoms) (hb : b < g.ngeoms) :
    (∃ g', (GOp.addPair a b).exec g = .ok g' () ∧
      g'.pairs = if ((a, b) ∈ g.pairs ∨ (b, a) ∈ g.pairs) then g.pairs else g.pairs ++ [(a, b)]) ∧
    (∃ g', (GOp.removePair a b).exec g = .ok g' () ∧ g'.pairs = g.pairs.filter (fun p => p ≠ (a, b) ∧ p ≠ (b, a))) := by
  obtain ⟨g0, e, h⟩ := Sim.runFrom ops Sim.init hp
  rw [hg] at e; cases e
  have hm : CPair.mk? a b = some (a, b) := by simp [CPair.mk?, hab]
  have hmem : (∃ r ∈ g.pairs, sy r = sy (a, b)) ↔ ((a, b) ∈ g.pairs ∨ (b, a) ∈ g.pairs) := by
    constructor
    · rintro ⟨r, hr, he⟩
      rcases sy_eq.1 he with ⟨e1, e2⟩ | ⟨e1, e2⟩
      · left; have : r = (a, b) := Prod.ext e1 e2
        exact this ▸ hr
      · right; have : r = (b, a) := Prod.ext e1 e2
        exact this ▸ hr
    · rintro (hr | hr)
      · exact ⟨_, hr, rfl⟩
      · exact ⟨_, hr, Sym2.eq_swap⟩
  simp only [GOp.exec, hm]
  constructor
  · rcases h.inv.addPair (p := (a, b)) hab with ⟨hc, e⟩ | ⟨hv, hx, e⟩ | ⟨hv, hn, g', e, _, hq, _⟩
    · exact absurd ⟨ha, hb⟩ hc
    · exact ⟨g, e, by rw [if_pos (hmem.1 hx)]⟩
    · refine ⟨g', e, ?_⟩
      rw [if_neg (fun hh => ?_), hq]
      obtain ⟨r, hr, he⟩ := hmem.2 hh
      exact hn r hr he
  · rcases h.inv.removePair (p := (a, b)) hab with ⟨hc, e⟩ | ⟨hv, g', e, _, hq, _⟩
    · exact absurd ⟨ha, hb⟩ hc
    · refine ⟨g', e, ?_⟩
      rw [hq]
      apply List.filter_congr
      intro p _
      obtain ⟨p1, p2⟩ := p
      rw [Bool.eq_iff_iff]
      simp [CPair.same]

/-- **C28, answers of the code in words of lists.** `existCollisionPair` says whether the pair is in the list, in one order
or in the other; `findCollisionPair` gives its position, or the length of the list. -/
theorem C28_queries (ops : List GOp) (hp : ∀ op ∈ ops, op.Pre) {g : GeomModel} (hg : runG GeomModel.empty ops = some g)
    {a b : ℕ} (ha : a < g.ngeoms) (hb : b < g.ngeoms) :
    g.existCollisionPair (a, b) = some (decide ((a, b) ∈ g.pairs ∨ (b, a) ∈ g.pairs)) ∧
    g.findCollisionPair (a, b) = some (g.pairs.findIdx fun p => p = (a, b) ∨ p = (b, a)) := by
  obtain ⟨g0, e, h⟩ := Sim.runFrom ops Sim.init hp
  rw [hg] at e; cases e
  have hd : ∀ p : CPair, sy p = s(a, b) ↔ p = (a, b) ∨ p = (b, a) := by
    intro p
    rw [sy_eq]
    constructor
    · rintro (⟨e1, e2⟩ | ⟨e1, e2⟩)
      · exact Or.inl (Prod.ext e1 e2)
      · exact Or.inr (Prod.ext e1 e2)
    · rintro (rfl | rfl) <;> simp
  constructor
  · obtain ⟨x, e, hx⟩ := h.inv.exist ha hb
    rw [e]
    congr 1
    rw [Bool.eq_iff_iff, hx, decide_eq_true_iff]
    constructor
    · rintro ⟨p, hpm, he⟩
      rcases (hd p).1 he with rfl | rfl
      · exact Or.inl hpm
      · exact Or.inr hpm
    · rintro (hm | hm)
      · exact ⟨_, hm, (hd _).2 (Or.inl rfl)⟩
      · exact ⟨_, hm, (hd _).2 (Or.inr rfl)⟩
  · obtain ⟨k, e, hk⟩ := h.inv.find ha hb
    rw [e]
    congr 1
    rcases hk with ⟨hn, rfl⟩ | ⟨p, hpk, he⟩
    · symm
      rw [List.findIdx_eq_length]
      intro p hpm
      have := hn p hpm
      rw [Ne, hd] at this
      simpa using this
    · obtain ⟨hlt, hpk'⟩ := List.getElem?_eq_some_iff.1 hpk
      symm
      rw [List.findIdx_eq hlt]
      refine ⟨by rw [hpk']; simpa using (hd p).1 he, ?_⟩
      intro j hj
      by_contra hc
      have hc' : g.pairs[j] = (a, b) ∨ g.pairs[j] = (b, a) := by
        have : ¬ g.pairs[j] = (a, b) → g.pairs[j] = (b, a) := by simpa using hc
        tauto
      have h1 := h.inv.map_of_mem (List.getElem?_eq_getElem (by omega)) ((hd _).2 hc')
      have h2 := h.inv.map_of_mem hpk he
      rw [h1] at h2
      omega

/-- three objects on different joints -/
def Ex.objs : List GOp := [.addObject 7 ⟨"a", 0, 1, false⟩, .addObject 8 ⟨"b", 0, 2, false⟩, .addObjectM 9 [0, 3] ⟨"c", 1, 3, false⟩]

/-- C28 is not vacuous: a history with a duplicate in the other order, invalid calls and a removal in the middle -/
example : ∃ g, runG GeomModel.empty (Ex.objs ++ [.addPair 0 1, .addPair 1 2, .addPair 2 0, .addPair 1 0, .addPair 1 1,
      .addPair 0 5, .removePair 2 1]) = some g ∧ g.pairs = [(0, 1), (2, 0)] ∧
    g.existCollisionPair (0, 2) = some true ∧ g.findCollisionPair (0, 2) = some 1 ∧ g.existCollisionPair (1, 2) = some false :=
  ⟨_, rfl, rfl, rfl, rfl, rfl⟩

example : ∀ op ∈ (Ex.objs ++ [.addPair 0 1, .addAll]), op.Pre := by
  simp [Ex.objs, GOp.Pre]

/-- the pair between two objects of the same joint is not added by `addAllCollisionPairs` -/
example : ∃ g, runG GeomModel.empty (Ex.objs ++ [.addObject 0 ⟨"d", 0, 2, false⟩, .addAll]) = some g ∧
    g.pairs = [(0, 1), (0, 2), (0, 3), (1, 2), (2, 3)] ∧ g.existCollisionPair (1, 3) = some false := ⟨_, rfl, rfl, rfl⟩

/-! ## C29 -/

/-- **C29, the list.** `removeGeometryObject(name)` throws if there is no such object. Otherwise, `i` being the first object
with this name: if the first collision pair mentions `i` the call has undefined behaviour (the iterator is decremented
before the beginning of the vector); if not, object `i` is erased and the pairs are those which do not mention `i`, in order,
with the indices after `i` decreased by one. Nothing is said of the queries: see `C29_counterexample`. -/
theorem C29_list (g : GeomModel) (name : String) :
    let i := g.objects.findIdx (·.name == name)
    (i = g.objects.length → g.removeGeometryObject name = .throw g) ∧
    (i < g.objects.length → (∃ p, g.pairs.head? = some p ∧ (p.1 = i ∨ p.2 = i)) → g.removeGeometryObject name = .ub) ∧
    (i < g.objects.length → (¬ ∃ p, g.pairs.head? = some p ∧ (p.1 = i ∨ p.2 = i)) →
      ∃ g', g.removeGeometryObject name = .ok g' () ∧ g'.objects = g.objects.eraseIdx i ∧ g'.ngeoms = g.ngeoms - 1 ∧
        g'.pairs = pairsWithout i g.pairs) := by
  intro i
  have hf := removePairsLoop_fst i g.pairs []
  have hs := removePairsLoop_snd i g.pairs []
  refine ⟨?_, ?_, ?_⟩
  · intro hi
    unfold removeGeometryObject
    exact if_pos hi
  · intro hi hc
    unfold removeGeometryObject
    have : (removePairsLoop i [] g.pairs).1 = true := hf.2 ⟨rfl, hc⟩
    simp only
    rw [if_neg (by change ¬ i = _; omega), if_pos this]
  · intro hi hc
    unfold removeGeometryObject
    have : ¬ (removePairsLoop i [] g.pairs).1 = true := fun h => hc (hf.1 h).2
    simp only
    rw [if_neg (by change ¬ i = _; omega), if_neg this]
    exact ⟨_, rfl, rfl, rfl, by simpa using hs⟩

/-- the registry without object `i` -/
def Registry.removeObject (r : Registry) (i : ℕ) : Registry :=
  ⟨r.joints.eraseIdx i, {e | ∃ a b, s(a, b) ∈ r.pairs ∧ a ≠ i ∧ b ≠ i ∧ e = s(renumber i a, renumber i b)}⟩

/-- **C29, what is proved.** For a model reached by a history of calls and an object `i` such that no pair mentions `i` or an
object after it, the removal leaves a state that represents the registry without the object. The full statement (any
object) is false: `C29_counterexample`, `C29_undefined`. -/
theorem C29_partial (ops : List GOp) (hp : ∀ op ∈ ops, op.Pre) {g : GeomModel} (hg : runG GeomModel.empty ops = some g)
    (name : String) {i : ℕ} (hi : i = g.objects.findIdx (·.name == name)) (hil : i < g.objects.length)
    (hlow : ∀ p ∈ g.pairs, p.1 < i ∧ p.2 < i) :
    ∃ g', g.removeGeometryObject name = .ok g' () ∧ Represents g' ((Registry.run ops).removeObject i) := by
  obtain ⟨g0, e, h⟩ := Sim.runFrom ops Sim.init hp
  rw [hg] at e; cases e
  obtain ⟨g', e, ho, hn, hq⟩ := (C29_list g name).2.2 (hi ▸ hil) (by
    rintro ⟨p, hph, hc⟩
    have := hlow p (List.mem_of_mem_head? hph)
    omega)
  rw [← hi] at ho hq
  have hqq : pairsWithout i g.pairs = g.pairs := by
    unfold pairsWithout
    rw [List.filter_eq_self.2]
    · conv_rhs => rw [← List.map_id g.pairs]
      apply List.map_congr_left
      intro p hpm
      have := hlow p hpm
      simp only [renumber, id]
      rw [if_neg (by omega), if_neg (by omega)]
    · intro p hpm
      have := hlow p hpm
      simp only [ne_eq, decide_eq_true_eq]
      omega
  rw [hqq] at hq
  have hlen := h.inv.len
  have hmap : g'.map = g.map ∧ g'.dim = g.dim := by
    unfold removeGeometryObject at e
    simp only at e
    split at e
    · cases e
    · split at e
      · cases e
      · cases e; exact ⟨rfl, rfl⟩
  have hd := h.inv.dim
  refine ⟨g', e, Sim.represents ⟨⟨?_, ?_, ?_, ?_, ?_, ?_⟩, ?_, ?_⟩⟩
  · rw [ho, hn, List.length_eraseIdx, if_pos hil, hlen]
  · rw [hn, hmap.2]; omega
  · rw [hq, hn]
    intro p hpm
    have h1 := h.inv.valid p hpm
    have h2 := hlow p hpm
    omega
  · rw [hq]; exact h.inv.nodup
  · rw [hq, hmap.1]; exact h.inv.pos
  · rw [hq, hmap.1, hmap.2]; exact h.inv.neg
  · rw [ho, ← List.eraseIdx_map, h.joints]; rfl
  · intro x
    rw [hq]
    constructor
    · rintro ⟨a, b, hab, ha, hb, rfl⟩
      obtain ⟨p, hpm, he⟩ := (h.pairs _).1 hab
      have hl := hlow p hpm
      refine ⟨p, hpm, ?_⟩
      have : a < i ∧ b < i := by
        rcases sy_eq.1 he with ⟨e1, e2⟩ | ⟨e1, e2⟩ <;> omega
      have r1 : renumber i a = a := by unfold renumber; rw [if_neg (by omega)]
      have r2 : renumber i b = b := by unfold renumber; rw [if_neg (by omega)]
      rw [r1, r2, he]
    · rintro ⟨p, hpm, rfl⟩
      have hl := hlow p hpm
      refine ⟨p.1, p.2, (h.pairs _).2 ⟨p, hpm, rfl⟩, by omega, by omega, ?_⟩
      have r1 : renumber i p.1 = p.1 := by unfold renumber; rw [if_neg (by omega)]
      have r2 : renumber i p.2 = p.2 := by unfold renumber; rw [if_neg (by omega)]
      rw [r1, r2]

/-- **C29, recovery.** After a removal (whenever it is defined), `removeAllCollisionPairs`, `addAllCollisionPairs` and
`setCollisionPairs` restore a consistent registry: the state represents a registry on the remaining objects. -/
theorem C29_recovery (ops : List GOp) (hp : ∀ op ∈ ops, op.Pre) {g g' : GeomModel}
    (hg : runG GeomModel.empty ops = some g) (name : String) (hr : g.removeGeometryObject name = .ok g' ())
    (op : GOp) (hop : op = .removeAll ∨ op = .addAll ∨ ∃ m u, op = .setPairs g'.ngeoms g'.ngeoms m u)
    (later : List GOp) (hl : ∀ op ∈ later, op.Pre) :
    ∃ g'', runG g' (op :: later) = some g'' ∧
      Represents g'' ((op :: later).foldl Registry.step ⟨g'.objects.map (·.parentJoint), ∅⟩) := by
  obtain ⟨g0, e, h⟩ := Sim.runFrom ops Sim.init hp
  rw [hg] at e; cases e
  -- the fields after the removal
  have hf : g'.objects.length = g'.ngeoms ∧ g'.ngeoms ≤ g'.dim := by
    have hlen := h.inv.len
    have hd := h.inv.dim
    unfold removeGeometryObject at hr
    simp only at hr
    split at hr
    · cases hr
    · rename_i hne
      have hlt := lt_of_le_of_ne (List.findIdx_le_length (p := fun o : GObj => o.name == name) (xs := g.objects)) hne
      split at hr
      · cases hr
      · cases hr
        refine ⟨?_, ?_⟩
        · simp only [List.length_eraseIdx]
          rw [if_pos hlt]; omega
        · simp only; omega
  have hsim : Sim g'.removeAllCollisionPairs ⟨g'.objects.map (·.parentJoint), ∅⟩ :=
    ⟨Inv.removeAll hf.1 hf.2, rfl, by intro x; simp [removeAllCollisionPairs]⟩
  -- the three calls start by `removeAllCollisionPairs`
  have hexec : op.exec g' = op.exec g'.removeAllCollisionPairs := by
    rcases hop with rfl | rfl | ⟨m, u, rfl⟩
    · rfl
    · rfl
    · simp [GOp.exec, setCollisionPairs, removeAllCollisionPairs]
  have hpre : op.Pre := by
    rcases hop with rfl | rfl | ⟨m, u, rfl⟩ <;> trivial
  obtain ⟨g1, e1, h1⟩ := hsim.step op hpre
  obtain ⟨g2, e2, h2⟩ := Sim.runFrom later h1 hl
  refine ⟨g2, ?_, h2.represents⟩
  unfold runG
  rw [hexec]
  rcases e1 with e1 | ⟨e1, _⟩ <;> simp only [e1, e2]

/-- four objects, and pairs that do not mention the second one -/
def Ex.four : List GOp := [.addObject 0 ⟨"a", 0, 1, false⟩, .addObject 0 ⟨"b", 0, 2, false⟩, .addObject 0 ⟨"c", 0, 3, false⟩,
  .addObject 0 ⟨"d", 0, 4, false⟩, .addPair 2 3, .addPair 0 2]

/-- **C29 is false in general.** Four objects, pairs (2,3) and (0,2); once the second object is removed the list is
(1,2), (0,1), but `existCollisionPair(1,2)` is false, `existCollisionPair(0,2)` is true, and adding the pair (1,2) puts it in
the list a second time. -/
theorem C29_counterexample : ∃ g g', runG GeomModel.empty Ex.four = some g ∧ g.removeGeometryObject "b" = .ok g' () ∧
    g'.pairs = [(1, 2), (0, 1)] ∧ g'.existCollisionPair (1, 2) = some false ∧ g'.existCollisionPair (0, 2) = some true ∧
    ∃ g'', g'.addCollisionPair (1, 2) = .ok g'' () ∧ g''.pairs = [(1, 2), (0, 1), (1, 2)] :=
  ⟨_, _, rfl, rfl, rfl, rfl, rfl, _, rfl, rfl⟩

/-- **C29, undefined behaviour.** One pair (0,1): removing its first object decrements the iterator `begin()`. -/
theorem C29_undefined : ∃ g, runG GeomModel.empty [.addObject 0 ⟨"a", 0, 1, false⟩, .addObject 0 ⟨"b", 0, 2, false⟩, .addPair 0 1]
    = some g ∧ g.removeGeometryObject "a" = .ub := ⟨_, rfl, rfl⟩

/-- C29_partial and C29_recovery are not vacuous -/
example : ∃ g g', runG GeomModel.empty (Ex.objs ++ [.addPair 0 1]) = some g ∧ g.objects.findIdx (·.name == "c") = 2 ∧
    (∀ p ∈ g.pairs, p.1 < 2 ∧ p.2 < 2) ∧ g.removeGeometryObject "c" = .ok g' () ∧ g'.pairs = [(0, 1)] ∧
    g'.existCollisionPair (1, 0) = some true :=
  ⟨_, _, rfl, rfl, by decide, rfl, rfl, rfl⟩

example : ∃ g g', runG GeomModel.empty Ex.four = some g ∧ g.removeGeometryObject "b" = .ok g' () ∧
    ∃ g'', runG g' [.addAll] = some g'' ∧ g''.pairs = [(0, 1), (0, 2), (1, 2)] := ⟨_, _, rfl, rfl, _, rfl, rfl⟩

/-- **`appendGeometryModel` has the same flaw**: the list of pairs is extended, the matrix that answers the queries is
not. Two objects with the pair (0,1), appended to one object: the pair (1,2) is in the list, and the query is outside the
matrix. -/
theorem C29_append : ∃ g h, runG GeomModel.empty [.addObject 0 ⟨"a", 0, 1, false⟩] = some g ∧
    runG GeomModel.empty [.addObject 0 ⟨"b", 0, 2, false⟩, .addObject 0 ⟨"c", 0, 3, false⟩, .addPair 0 1] = some h ∧
    (appendGeometryModel g h).pairs = [(1, 2), (0, 1), (0, 2)] ∧ (appendGeometryModel g h).ngeoms = 3 ∧
    (appendGeometryModel g h).existCollisionPair (1, 2) = none := ⟨_, _, rfl, rfl, rfl, rfl, rfl⟩

/-! ## C30 -/

section flags
variable {K : Type*}

/-- the state of a `GeometryData` agrees with its model: one flag per pair -/
def FlagsFit (g : GeomModel) (d : GeomData K) : Prop := d.active.length = g.pairs.length

/-- **C30, one call.** A call on flags either throws and changes nothing, or leaves the flag of pair `k` at what was asked for
it, and the other flags, the margins and the maps as they were. -/
theorem C30_call (g : GeomModel) (d : GeomData K) (hd : FlagsFit g d) (op : FlagOp) :
    ∃ d', (op.exec g d = .ok d' () ∨ (op.exec g d = .throw d' ∧ d' = d)) ∧ FlagsFit g d' ∧
      (∀ (k : ℕ) (p : CPair) (b : Bool), g.pairs[k]? = some p → d.active[k]? = some b →
        d'.active[k]? = some ((op.asks g.ngeoms k p).getD b)) ∧
      d'.margin = d.margin ∧ d'.upperBound = d.upperBound ∧ d'.inner = d.inner ∧ d'.outer = d.outer := by
  have hone : ∀ (j : ℕ) (x : Bool), ∃ d', ((if j < d.active.length then .ok { d with active := d.active.set j x } ()
        else .throw d : Res (GeomData K) Unit) = .ok d' () ∨
        ((if j < d.active.length then .ok { d with active := d.active.set j x } () else .throw d : Res (GeomData K) Unit)
          = .throw d' ∧ d' = d)) ∧ FlagsFit g d' ∧
      (∀ (k : ℕ) (p : CPair) (b : Bool), g.pairs[k]? = some p → d.active[k]? = some b →
        d'.active[k]? = some ((if j = k then some x else none).getD b)) ∧
      d'.margin = d.margin ∧ d'.upperBound = d.upperBound ∧ d'.inner = d.inner ∧ d'.outer = d.outer := by
    intro j x
    by_cases hj : j < d.active.length
    · rw [if_pos hj]
      refine ⟨_, Or.inl rfl, by simpa [FlagsFit] using hd, ?_, rfl, rfl, rfl, rfl⟩
      intro k p b hk hb
      by_cases e : j = k
      · subst e; simp [hj]
      · simp [e, hb]
    · rw [if_neg hj]
      refine ⟨d, Or.inr ⟨rfl, rfl⟩, hd, ?_, rfl, rfl, rfl, rfl⟩
      intro k p b hk hb
      have : j ≠ k := by
        rintro rfl
        rw [List.getElem?_eq_none (by omega)] at hb
        simp at hb
      simp [this, hb]
  have hall : ∀ x : Bool, ∀ (k : ℕ) (b : Bool), d.active[k]? = some b →
      (List.replicate d.active.length x)[k]? = some x := by
    intro x k b hb
    have hk : k < d.active.length := (List.getElem?_eq_some_iff.1 hb).1
    simp [hk]
  cases op with
  | activate j => exact hone j true
  | deactivate j => exact hone j false
  | activateAll =>
    exact ⟨_, Or.inl rfl, by simpa [FlagsFit, GeomData.activateAllCollisionPairs] using hd,
      fun k p b _ hb => hall true k b hb, rfl, rfl, rfl, rfl⟩
  | deactivateAll =>
    exact ⟨_, Or.inl rfl, by simpa [FlagsFit, GeomData.deactivateAllCollisionPairs] using hd,
      fun k p b _ hb => hall false k b hb, rfl, rfl, rfl, rfl⟩
  | setActive r c m u =>
    by_cases hs : r = g.ngeoms ∧ c = g.ngeoms
    · refine ⟨{ d with
        active := GeomData.setLoop (fun p => some (m (GeomData.triIndex u p).1 (GeomData.triIndex u p).2)) 0 g.pairs
          d.active }, Or.inl ?_, ?_, ?_, rfl, rfl, rfl, rfl⟩
      · simp only [FlagOp.exec, GeomData.setActiveCollisionPairs]
        rw [if_neg (by simpa using hs.1), if_neg (by simpa using hs.2), if_neg (by simpa using hd.symm)]
      · simp only [FlagsFit, length_setLoop]; exact hd
      · intro k p b hk hb
        have hkl : k < d.active.length := (List.getElem?_eq_some_iff.1 hb).1
        rw [getElem?_setLoop]
        simp only [Nat.zero_le, if_true, Nat.sub_zero, hk, hkl, FlagOp.asks, hs, and_self, Option.getD_some,
          GeomData.triIndex]
        cases u <;> rfl
    · refine ⟨d, Or.inr ⟨?_, rfl⟩, hd, ?_, rfl, rfl, rfl, rfl⟩
      · simp only [FlagOp.exec, GeomData.setActiveCollisionPairs]
        by_cases h1 : r = g.ngeoms
        · rw [if_neg (by simpa using h1), if_pos (fun h2 => hs ⟨h1, h2⟩)]
        · rw [if_pos h1]
      · intro k p b hk hb
        simp [FlagOp.asks, hs, hb]
  | status geom e =>
    by_cases hs : geom < g.ngeoms
    · refine ⟨{ d with
        active := GeomData.setLoop (fun p => if p.1 = geom ∨ p.2 = geom then some e else none) 0 g.pairs d.active },
        Or.inl ?_, ?_, ?_, rfl, rfl, rfl, rfl⟩
      · simp only [FlagOp.exec, GeomData.setGeometryCollisionStatus]
        rw [if_neg (by simpa using hs), if_neg (by simpa using hd.symm)]
      · simp only [FlagsFit, length_setLoop]; exact hd
      · intro k p b hk hb
        have hkl : k < d.active.length := (List.getElem?_eq_some_iff.1 hb).1
        rw [getElem?_setLoop]
        simp only [Nat.zero_le, if_true, Nat.sub_zero, hk, hkl, FlagOp.asks, hs, true_and]
        by_cases hc : p.1 = geom ∨ p.2 = geom
        · simp [hc]
        · simp [hc, hb]
    · refine ⟨d, Or.inr ⟨?_, rfl⟩, hd, ?_, rfl, rfl, rfl, rfl⟩
      · simp only [FlagOp.exec, GeomData.setGeometryCollisionStatus]
        rw [if_pos hs]
      · intro k p b hk hb
        simp [FlagOp.asks, hs, hb]

/-- **C30, histories.** From the constructor on, after every sequence of calls (exceptions being caught) there is one flag
per pair, and it is what the last call that concerns this pair asked for, `true` if there is none. -/
theorem C30_flags (g : GeomModel) (m0 u0 : K) (ops : List FlagOp) :
    ∃ d, runFlags g (GeomData.ofModel m0 u0 g) ops = some d ∧ FlagsFit g d ∧
      ∀ (k : ℕ) (p : CPair), g.pairs[k]? = some p → d.active[k]? = some (flagAfter g.ngeoms k p ops) := by
  have main : ∀ (ops pre : List FlagOp) (d : GeomData K), FlagsFit g d →
      (∀ (k : ℕ) (p : CPair), g.pairs[k]? = some p → d.active[k]? = some (flagAfter g.ngeoms k p pre)) →
      ∃ d', runFlags g d ops = some d' ∧ FlagsFit g d' ∧
        ∀ (k : ℕ) (p : CPair), g.pairs[k]? = some p → d'.active[k]? = some (flagAfter g.ngeoms k p (pre ++ ops)) := by
    intro ops
    induction ops with
    | nil => intro pre d hd h; exact ⟨d, rfl, hd, by simpa using h⟩
    | cons op l ih =>
      intro pre d hd h
      obtain ⟨d1, e1, hd1, hk1, _⟩ := C30_call g d hd op
      obtain ⟨d2, e2, hd2, hk2⟩ := ih (pre ++ [op]) d1 hd1 (by
        intro k p hk
        rw [hk1 k p _ hk (h k p hk)]
        unfold flagAfter
        rw [List.filterMap_append]
        cases hq : op.asks g.ngeoms k p with
        | none => simp [hq]
        | some x => simp [hq])
      refine ⟨d2, ?_, hd2, by simpa using hk2⟩
      unfold runFlags
      rcases e1 with e1 | ⟨e1, _⟩ <;> simp only [e1, e2]
  have := main ops [] (GeomData.ofModel m0 u0 g) (by simp [FlagsFit, GeomData.ofModel, GeomData.fillInnerOuterObjectMaps])
    (by
      intro k p hk
      have hkl : k < g.pairs.length := (List.getElem?_eq_some_iff.1 hk).1
      simp [GeomData.ofModel, GeomData.fillInnerOuterObjectMaps, flagAfter, hkl])
  simpa using this

/-- **C30, margins.** `setSecurityMargins` copies the (upper or lower) triangle into the margin of every pair, and, when
asked, into its distance upper bound; the flags are untouched. A matrix of the wrong size throws and changes nothing. -/
theorem C30_margins (g : GeomModel) (d : GeomData K) (hm : d.margin.length = g.pairs.length)
    (hu : d.upperBound.length = g.pairs.length) (rows cols : ℕ) (m : ℕ → ℕ → K) (upper sync : Bool) :
    (¬ (rows = g.ngeoms ∧ cols = g.ngeoms) → d.setSecurityMargins g rows cols m upper sync = .throw d) ∧
    (rows = g.ngeoms ∧ cols = g.ngeoms → ∃ d', d.setSecurityMargins g rows cols m upper sync = .ok d' () ∧
      d'.active = d.active ∧ d'.margin.length = g.pairs.length ∧
      ∀ (k : ℕ) (p : CPair), g.pairs[k]? = some p →
        let x := if upper then m (min p.1 p.2) (max p.1 p.2) else m (max p.1 p.2) (min p.1 p.2)
        d'.margin[k]? = some x ∧ d'.upperBound[k]? = if sync then some x else d.upperBound[k]?) := by
  constructor
  · intro hs
    unfold GeomData.setSecurityMargins
    by_cases h1 : rows = g.ngeoms
    · rw [if_neg (by simpa using h1), if_pos (fun h2 => hs ⟨h1, h2⟩)]
    · rw [if_pos h1]
  · rintro ⟨h1, h2⟩
    refine ⟨{ d with
      margin := GeomData.setLoop (fun p => some (m (GeomData.triIndex upper p).1 (GeomData.triIndex upper p).2)) 0 g.pairs
        d.margin
      upperBound := if sync then GeomData.setLoop
        (fun p => some (m (GeomData.triIndex upper p).1 (GeomData.triIndex upper p).2)) 0 g.pairs d.upperBound
        else d.upperBound }, by
      unfold GeomData.setSecurityMargins
      rw [if_neg (by simpa using h1), if_neg (by simpa using h2), if_neg (by simpa using hm.symm)], rfl,
      by simp only [length_setLoop]; exact hm, ?_⟩
    intro k p hk
    have hkl : k < g.pairs.length := (List.getElem?_eq_some_iff.1 hk).1
    simp only
    constructor
    · rw [getElem?_setLoop]
      simp only [Nat.zero_le, if_true, Nat.sub_zero, hk, hm, hkl, GeomData.triIndex]
      cases upper <;> rfl
    · cases sync with
      | false => rfl
      | true =>
        simp only [if_true]
        rw [getElem?_setLoop]
        simp only [Nat.zero_le, if_true, Nat.sub_zero, hk, hu, hkl, GeomData.triIndex]
        cases upper <;> rfl

/-- **C30, maps by joint.** After the constructor, the inner objects of a joint are the objects attached to it, in
increasing order, and its outer objects are the second objects of the pairs whose first object is attached to it, in the
order of the pairs. -/
theorem C30_maps (g : GeomModel) (hv : ∀ p ∈ g.pairs, p.1 < g.objects.length) (m0 u0 : K) (j : ℕ) :
    (GeomData.ofModel m0 u0 g).inner j
      = (List.range g.objects.length).filter (fun k => g.objects[k]?.map (·.parentJoint) = some j) ∧
    (GeomData.ofModel m0 u0 g).outer j
      = (g.pairs.filter fun p => g.objects[p.1]?.map (·.parentJoint) = some j).map (·.2) := by
  have key : ∀ {α : Type} (key : α → Option ℕ) (val : α → ℕ) (l : List α) (f : ℕ → List ℕ), (∀ x ∈ l, (key x).isSome) →
      (l.foldl (fun f x => fun k => if k = (key x).getD 0 then f k ++ [val x] else f k) f) j
        = f j ++ (l.filter fun x => key x = some j).map val := by
    intro α key val l
    induction l with
    | nil => intro f _; simp
    | cons x l ih =>
      intro f hx
      rw [List.foldl_cons, ih _ (fun y hy => hx y (List.mem_cons_of_mem _ hy))]
      obtain ⟨v, hv⟩ := Option.isSome_iff_exists.1 (hx x (List.mem_cons_self ..))
      by_cases e : j = v
      · subst e; simp [hv]
      · have : ¬ (v = j) := fun h => e h.symm
        simp [hv, e, this]
  constructor
  · have := key (fun gid => g.objects[gid]?.map (·.parentJoint)) (fun gid => gid) (List.range g.objects.length) (fun _ => [])
      (by
        intro x hx
        have : x < g.objects.length := List.mem_range.1 hx
        simp [this])
    simpa [GeomData.ofModel, GeomData.fillInnerOuterObjectMaps] using this
  · have := key (fun p : CPair => g.objects[p.1]?.map (·.parentJoint)) (fun p => p.2) g.pairs (fun _ => [])
      (by
        intro p hp
        have := hv p hp
        simp [this])
    simpa [GeomData.ofModel, GeomData.fillInnerOuterObjectMaps] using this

/-- C30 is not vacuous: three pairs, a geometry disabled, a pair enabled again -/
example : ∃ g d, runG GeomModel.empty (Ex.objs ++ [.addAll]) = some g ∧ g.pairs = [(0, 1), (0, 2), (1, 2)] ∧
    runFlags g (GeomData.ofModel (0 : ℤ) 0 g) [.status 1 false, .activate 2, .activate 9] = some d ∧
    d.active = [false, true, true] := ⟨_, _, rfl, rfl, rfl, rfl⟩

end flags

end Pin
