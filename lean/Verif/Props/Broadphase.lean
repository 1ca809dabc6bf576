import Verif.Geom.BroadphaseLemmas
import Verif.Props.Parallel
import Verif.Props.Geometry
import Mathlib.Tactic.IntervalCases
import Verif.Spatial.Examples

/-!
# C73: collision queries through broad-phase managers
-/

namespace Pin.Broadphase
open Pin
set_option linter.unusedSectionVars false

/-! ## Specification -/
section
variable {K : Type*} [Field K] [LinearOrder K]

/-- the point is in the box -/
def Box.Has (b : Box K) (x : V3 K) : Prop :=
  (b.lo.x ≤ x.x ∧ x.x ≤ b.hi.x) ∧ (b.lo.y ≤ x.y ∧ x.y ≤ b.hi.y) ∧ b.lo.z ≤ x.z ∧ x.z ≤ b.hi.z

/-- the two boxes have a common point -/
def Box.Meets (a b : Box K) : Prop := ∃ x, a.Has x ∧ b.Has x

/-- what is expected of the collision library: the box of a placed geometry contains it, and a manager gives to the callback
pairs of registered objects, among which all those whose boxes meet -/
structure Fcl.Ok (F : Fcl K) (shape : ℕ → Set (V3 K)) : Prop where
  box : ∀ p M x, x ∈ shape p → (F.box p M).Has (M.actP x)
  selfIn : ∀ reg boxes, ∀ ab ∈ F.self reg boxes, ab.1 ∈ reg ∧ ab.2 ∈ reg
  self : ∀ reg boxes, ∀ a ∈ reg, ∀ b ∈ reg, a ≠ b → (boxes a).Meets (boxes b) →
    (a, b) ∈ F.self reg boxes ∨ (b, a) ∈ F.self reg boxes
  crossIn : ∀ reg boxes reg' boxes', ∀ ab ∈ F.cross reg boxes reg' boxes', ab.1 ∈ reg ∧ ab.2 ∈ reg'
  cross : ∀ reg boxes reg' boxes', ∀ a ∈ reg, ∀ b ∈ reg', (boxes a).Meets (boxes' b) →
    (a, b) ∈ F.cross reg boxes reg' boxes'

/-- the narrow phase reports a collision only if the two geometries have points within the security margin of the pair (or
common points if this margin is negative) -/
def Narrow (F : Fcl K) (shape : ℕ → Set (V3 K)) (e : Env K) : Prop :=
  ∀ (k : ℕ) (p : CPair), e.g.pairs[k]? = some p → F.narrow k (e.oMg p.1) (e.oMg p.2) = true →
    ∃ x ∈ shape (e.geom p.1), ∃ y ∈ shape (e.geom p.2),
      V3.dot ((e.oMg p.1).actP x - (e.oMg p.2).actP y) ((e.oMg p.1).actP x - (e.oMg p.2).actP y) ≤ max (e.margin k) 0 ^ 2

/-- the geometry model is the result of any history of calls, after which the objects may have been modified in place -/
def FromHistory (g : GeomModel) : Prop :=
  ∃ (ops : List GOp) (g0 : GeomModel), (∀ op ∈ ops, op.Pre) ∧ runG GeomModel.empty ops = some g0 ∧
    g = { g0 with objects := g.objects } ∧ g.objects.length = g0.objects.length

/-- the states of a manager, and the geometries whose local bounding box is computed: it is built on a geometry model of `n`
objects with a filter, then updated any number of times, the objects (their geometry and flags), the pairs, the activations,
the margins and the placements being changed at will in between; the local bounding boxes of other geometries may be
computed at any time -/
inductive Reached (F : Fcl K) (filter : ℕ → Bool) (n : ℕ) : Man K × (ℕ → Bool) → Prop
  | init (e : Env K) (comp : ℕ → Bool) (f : ℕ → Bool) : e.g.objects.length = n → (∀ i < n, f i = filter i) →
      Reached F filter n (construct F e f comp)
  | step (e : Env K) (b : Bool) (mc mc' : Man K × (ℕ → Bool)) : Reached F filter n mc → update F e b mc = some mc' →
      Reached F filter n mc'
  | other (m : Man K) (comp comp' : ℕ → Bool) : Reached F filter n (m, comp) → (∀ p, comp p = true → comp' p = true) →
      Reached F filter n (m, comp')

/-- the same, for a tree of managers, one per joint; `jt` gives the joint of each object -/
inductive TreeReached (F : Fcl K) (jt : ℕ → ℕ) (n njoints : ℕ) : List (Man K) × (ℕ → Bool) → Prop
  | init (e : Env K) (comp : ℕ → Bool) : e.g.objects.length = n →
      (∀ i < n, (e.g.objects[i]?.map (·.parentJoint)) = some (jt i)) → TreeReached F jt n njoints (treeConstruct F e njoints comp)
  | step (e : Env K) (b : Bool) (mc mc' : List (Man K) × (ℕ → Bool)) : TreeReached F jt n njoints mc →
      treeUpdate F e b mc = some mc' → TreeReached F jt n njoints mc'
  | other (l : List (Man K)) (comp comp' : ℕ → Bool) : TreeReached F jt n njoints (l, comp) →
      (∀ p, comp p = true → comp' p = true) → TreeReached F jt n njoints (l, comp')

/-- the geometry has a local bounding box, of positive volume -/
def Fcl.Thick (F : Fcl K) (comp : ℕ → Bool) (p : ℕ) : Prop := comp p = true ∧ 0 < F.vol p

/-! ## Proofs -/

theorem FromHistory.inv {g : GeomModel} (h : FromHistory g) : g.Inv := by
  obtain ⟨ops, g0, hp, hr, he, hl⟩ := h
  obtain ⟨g1, e1, h1⟩ := Sim.runFrom ops Sim.init hp
  rw [hr] at e1; cases e1
  have hi := h1.inv
  rw [he]
  exact ⟨hl.trans hi.len, hi.dim, hi.valid, hi.nodup, hi.pos, hi.neg⟩

theorem construct_congr (F : Fcl K) (e : Env K) {f f' : ℕ → Bool} (h : ∀ i < e.g.objects.length, f i = f' i)
    (comp : ℕ → Bool) : construct F e f comp = construct F e f' comp := by
  unfold construct
  have : (List.range e.g.objects.length).filter f = (List.range e.g.objects.length).filter f' :=
    List.filter_congr fun i hi => h i (List.mem_range.1 hi)
  rw [this]

theorem Reached.inv {F : Fcl K} {filter : ℕ → Bool} {n : ℕ} {mc : Man K × (ℕ → Bool)} (h : Reached F filter n mc) :
    mc.1.Inv filter n := by
  induction h with
  | init e comp f hn hf =>
    subst hn
    rw [construct_congr F e hf]
    exact construct_inv F e filter comp
  | step e b mc mc' _ hu ih => exact (update_ok ih hu).1
  | other m comp comp' _ _ ih => exact ih

theorem thick_iff {F : Fcl K} {comp : ℕ → Bool} {p : ℕ} : F.degenerate comp p = false ↔ F.Thick comp p := by
  unfold Fcl.degenerate Fcl.Thick
  simp

theorem selected_getD {filter : ℕ → Bool} {n : ℕ} {m : Man K} (h : m.Inv filter n) {k : ℕ} (hk : k < m.selected.length) :
    m.selected[k]? = some (m.selected.getD k 0) ∧ m.selected.getD k 0 < n ∧ filter (m.selected.getD k 0) = true := by
  have e : m.selected[k]? = some (m.selected.getD k 0) := by
    rw [List.getD_eq_getElem?_getD, List.getElem?_eq_getElem hk]; rfl
  have hm := List.mem_of_getElem? e
  generalize m.selected.getD k 0 = i at *
  rw [h.sel, List.mem_filter, List.mem_range] at hm
  exact ⟨e, hm.1, hm.2⟩

/-- the local index of an object which is active -/
theorem local_of {F : Fcl K} {e : Env K} {comp : ℕ → Bool} {filter : ℕ → Bool} {n : ℕ} {m : Man K} (h : m.Inv filter n)
    (hf : m.Fresh F e comp) {i : ℕ} (hi : i < n) (hfi : filter i = true) (hd : e.disabled i = false)
    (ht : F.Thick comp (e.geom i)) : ∃ k ∈ m.registered, m.selected.getD k 0 = i ∧ m.toIdx[i]? = some (some k) := by
  have hm : i ∈ m.selected := by rw [h.sel, List.mem_filter, List.mem_range]; exact ⟨hi, hfi⟩
  obtain ⟨k, hk⟩ := List.mem_iff_getElem?.1 hm
  have hkl := (List.getElem?_eq_some_iff.1 hk).1
  have e1 : m.selected.getD k 0 = i := by rw [List.getD_eq_getElem?_getD, hk]; rfl
  refine ⟨k, (h.reg k).2 ⟨hkl, ?_⟩, e1, h.idx i k hk⟩
  rw [hf.act k hkl]
  unfold tgt
  rw [e1, hd, thick_iff.2 ht]
  rfl

theorem registered_ok {F : Fcl K} {e : Env K} {comp : ℕ → Bool} {filter : ℕ → Bool} {n : ℕ} {m : Man K} (h : m.Inv filter n)
    (hf : m.Fresh F e comp) {k : ℕ} (hk : k ∈ m.registered) :
    m.selected.getD k 0 < n ∧ filter (m.selected.getD k 0) = true ∧ F.Thick comp (e.geom (m.selected.getD k 0)) := by
  obtain ⟨h1, h2⟩ := (h.reg k).1 hk
  obtain ⟨-, a, b⟩ := selected_getD h h1
  refine ⟨a, b, thick_iff.1 ?_⟩
  rw [hf.act k h1] at h2
  unfold tgt at h2
  simp only [Bool.and_eq_true, Bool.not_eq_true'] at h2
  exact h2.1

theorem enabled_iff {e : Env K} {k : ℕ} {p : CPair} (hk : e.g.pairs[k]? = some p) :
    pairEnabled e.g e.active k = true ↔ e.active k = true ∧ e.disabled p.1 = false ∧ e.disabled p.2 = false := by
  unfold pairEnabled Env.disabled
  rw [hk]
  simp

/-- the pair found by the callback -/
theorem hit_pair {F : Fcl K} {e : Env K} (hg : e.g.Inv) {m1 m2 : Man K} {ab : ℕ × ℕ} (hs : Sound e m1 m2 ab)
    (h : hit F e m1 m2 ab = true) : ∃ (k : ℕ) (p : CPair), e.g.pairs[k]? = some p ∧
      k = (e.g.map (m1.selected.getD ab.1 0) (m2.selected.getD ab.2 0)).toNat ∧
      pairEnabled e.g e.active k = true ∧ pairCol F.narrow e.g e.oMg k = true ∧
      ((p.1 = m1.selected.getD ab.1 0 ∧ p.2 = m2.selected.getD ab.2 0) ∨
        (p.1 = m2.selected.getD ab.2 0 ∧ p.2 = m1.selected.getD ab.1 0)) := by
  unfold hit at h
  simp only [Bool.and_eq_true, decide_eq_true_eq] at h
  rcases hg.cases (lt_of_lt_of_le hs.1 hg.dim) (lt_of_lt_of_le hs.2.1 hg.dim) with ⟨-, h'⟩ | ⟨k, p, hk, hp, he⟩
  · exact absurd h' h.1.1
  · refine ⟨k, p, hk, by rw [he]; rfl, ?_, ?_, GeomModel.sy_eq.1 hp⟩
    · have := h.1.2; rw [he] at this; exact this
    · have := h.2; rw [he] at this; exact this

theorem hit_of_pair {F : Fcl K} {e : Env K} (hg : e.g.Inv) {m1 m2 : Man K} {a b k : ℕ} {p : CPair}
    (hk : e.g.pairs[k]? = some p) (he : pairEnabled e.g e.active k = true) (hc : pairCol F.narrow e.g e.oMg k = true)
    (hp : (p.1 = m1.selected.getD a 0 ∧ p.2 = m2.selected.getD b 0) ∨
        (p.1 = m2.selected.getD b 0 ∧ p.2 = m1.selected.getD a 0)) :
    hit F e m1 m2 (a, b) = true ∧ k = (e.g.map (m1.selected.getD a 0) (m2.selected.getD b 0)).toNat := by
  have hm : e.g.map (m1.selected.getD a 0) (m2.selected.getD b 0) = k := hg.map_of_mem hk (GeomModel.sy_eq.2 hp)
  unfold hit
  dsimp only
  rw [hm]
  simp [he, hc]
end

section
variable {K : Type*} [Field K] [LinearOrder K] [IsStrictOrderedRing K]

theorem coord_meet {lo1 hi1 lo2 hi2 x y d m r s : K} (hx : lo1 ≤ x ∧ x ≤ hi1) (hy : lo2 ≤ y ∧ y ≤ hi2)
    (hd : (x - y) * (x - y) ≤ d) (hm : d ≤ max m 0 ^ 2) (hr : 0 ≤ r) (hs : 0 ≤ s) (hr' : m * (1 / 2) ≤ r)
    (hs' : m * (1 / 2) ≤ s) :
    ∃ z, (lo1 - r ≤ z ∧ z ≤ hi1 + r) ∧ lo2 - s ≤ z ∧ z ≤ hi2 + s := by
  have h1 : |x - y| ≤ max m 0 := by
    apply abs_le_of_sq_le_sq _ (le_max_right _ _)
    calc (x - y) ^ 2 = (x - y) * (x - y) := by ring
      _ ≤ _ := hd.trans hm
  have h2 : max m 0 ≤ r + s := max_le (by linarith) (by linarith)
  obtain ⟨h3, h4⟩ := abs_le.1 (h1.trans h2)
  refine ⟨max (lo1 - r) (lo2 - s), ⟨le_max_left _ _, max_le (by linarith [hx.1, hx.2]) (by linarith [hx.1, hx.2, hy.1, hy.2])⟩,
    le_max_right _ _, max_le (by linarith [hx.1, hx.2, hy.1, hy.2]) (by linarith [hy.1, hy.2])⟩

/-- two geometries within the security margin have inflated boxes which meet -/
theorem boxes_meet {b1 b2 : Box K} {x y : V3 K} {m r s : K} (hx : b1.Has x) (hy : b2.Has y)
    (hd : V3.dot (x - y) (x - y) ≤ max m 0 ^ 2) (hr : 0 ≤ r) (hs : 0 ≤ s) (hr' : m * (1 / 2) ≤ r) (hs' : m * (1 / 2) ≤ s) :
    (b1.expand r).Meets (b2.expand s) := by
  have ed : V3.dot (x - y) (x - y) = (x.x - y.x) * (x.x - y.x) + (x.y - y.y) * (x.y - y.y) + (x.z - y.z) * (x.z - y.z) := by
    simp [V3.dot]
  rw [ed] at hd
  have p1 := mul_self_nonneg (x.x - y.x)
  have p2 := mul_self_nonneg (x.y - y.y)
  have p3 := mul_self_nonneg (x.z - y.z)
  obtain ⟨a, a1, a2⟩ := coord_meet hx.1 hy.1 (by linarith) hd hr hs hr' hs'
  obtain ⟨b, b1, b2⟩ := coord_meet hx.2.1 hy.2.1 (by linarith) hd hr hs hr' hs'
  obtain ⟨c, c1, c2⟩ := coord_meet hx.2.2 hy.2.2 (by linarith) hd hr hs hr' hs'
  exact ⟨⟨a, b, c⟩, ⟨a1, b1, c1⟩, ⟨a2, b2, c2⟩⟩

theorem Box.Meets.symm {a b : Box K} (h : a.Meets b) : b.Meets a := by
  obtain ⟨x, h1, h2⟩ := h; exact ⟨x, h2, h1⟩

/-- the boxes of the two objects of a colliding pair meet -/
theorem pair_meets {F : Fcl K} {shape : ℕ → Set (V3 K)} (hF : F.Ok shape) {e : Env K} (hN : Narrow F shape e)
    (hb : ∀ k, 0 ≤ e.brk k) {comp comp' : ℕ → Bool} {m1 m2 : Man K} (f1 : m1.Fresh F e comp) (f2 : m2.Fresh F e comp')
    {k a b : ℕ} {p : CPair} (hk : e.g.pairs[k]? = some p) (he : pairEnabled e.g e.active k = true)
    (hc : pairCol F.narrow e.g e.oMg k = true) (ha : a ∈ m1.registered) (hb' : b ∈ m2.registered)
    (ea : m1.selected.getD a 0 = p.1) (eb : m2.selected.getD b 0 = p.2)
    (ia : m1.toIdx[p.1]? = some (some a)) (ib : m2.toIdx[p.2]? = some (some b)) :
    (m1.objBox a).Meets (m2.objBox b) := by
  have hc' : F.narrow k (e.oMg p.1) (e.oMg p.2) = true := by
    unfold pairCol at hc; rw [hk] at hc; exact hc
  obtain ⟨x, hx, y, hy, hd⟩ := hN k p hk hc'
  rw [f1.box a ha, f2.box b hb', ea, eb]
  refine boxes_meet (hF.box _ _ _ hx) (hF.box _ _ _ hy) hd (f1.pos a) (f2.pos b) ?_ ?_
  · exact le_trans (by linarith [hb k]) (f1.infl k p hk he p.1 a (Or.inl rfl) ia)
  · exact le_trans (by linarith [hb k]) (f2.infl k p hk he p.2 b (Or.inr rfl) ib)

/-! ## The property -/

/-- **C73 (construction).** Just after its construction, the manager contains exactly the selected objects whose collision is
enabled. -/
theorem C73_construct (F : Fcl K) (filter : ℕ → Bool) (e : Env K) (comp : ℕ → Bool) (i : ℕ) :
    i ∈ (construct F e filter comp).1.registered.map (fun k => (construct F e filter comp).1.selected.getD k 0) ↔
      i < e.g.objects.length ∧ filter i = true ∧ e.disabled i = false := by
  have hi := construct_inv F e filter comp
  constructor
  · intro hm
    obtain ⟨k, hk, rfl⟩ := List.mem_map.1 hm
    obtain ⟨h1, h2⟩ := (hi.reg k).1 hk
    obtain ⟨-, a, b⟩ := selected_getD hi h1
    exact ⟨a, b, by simpa [construct] using h2⟩
  · rintro ⟨a, b, c⟩
    have hm : i ∈ (construct F e filter comp).1.selected := by
      rw [hi.sel, List.mem_filter, List.mem_range]; exact ⟨a, b⟩
    obtain ⟨k, hk⟩ := List.mem_iff_getElem?.1 hm
    have hkl := (List.getElem?_eq_some_iff.1 hk).1
    have e1 : (construct F e filter comp).1.selected.getD k 0 = i := by rw [List.getD_eq_getElem?_getD, hk]; rfl
    refine List.mem_map.2 ⟨k, (hi.reg k).2 ⟨hkl, ?_⟩, e1⟩
    change (!e.disabled ((construct F e filter comp).1.selected.getD k 0)) = true
    rw [e1, c]; rfl

/-- **C73 (update).** From any state reached by the manager, on a geometry model with the objects it was built on, `update`
reads nothing out of the vectors and leaves the manager in a state that `check()` accepts; the objects registered are then
those selected whose collision is enabled and whose local bounding box has a positive volume. -/
theorem C73_update {F : Fcl K} {filter : ℕ → Bool} {n : ℕ} {mc : Man K × (ℕ → Bool)} (h : Reached F filter n mc) {e : Env K}
    (hg : FromHistory e.g) (hn : e.g.objects.length = n) (b : Bool) :
    ∃ mc', update F e b mc = some mc' ∧ mc'.1.check e mc'.2 = true ∧
      ∀ i, i ∈ mc'.1.registered.map (fun k => mc'.1.selected.getD k 0) ↔
        i < n ∧ filter i = true ∧ e.disabled i = false ∧ F.Thick mc.2 (e.geom i) := by
  have hi := h.inv
  have hv : ∀ p ∈ e.g.pairs, p.1 < n ∧ p.2 < n := fun p hp => by
    have := hg.inv.valid p hp
    rw [← hg.inv.len, hn] at this
    exact this.2
  obtain ⟨mc', hu⟩ := update_total (F := F) b hi hn hv
  obtain ⟨hi', hc, -, hf⟩ := update_ok hi hu
  have hf := hf hv
  refine ⟨mc', hu, ?_, fun i => ?_⟩
  · have hperm : ((List.range mc'.1.selected.length).filter mc'.1.isActive).length = mc'.1.registered.length := by
      apply List.Perm.length_eq
      rw [List.perm_ext_iff_of_nodup (List.nodup_range.filter _) hi'.nodup]
      intro k
      rw [List.mem_filter, List.mem_range, hi'.reg]
    unfold Man.check
    simp only [Bool.and_eq_true, decide_eq_true_eq]
    refine ⟨⟨?_, hperm⟩, ?_⟩
    · rw [← hperm]
      exact (List.length_filter_le _ _).trans (by rw [List.length_range])
    · rw [List.all_eq_true]
      intro k hk
      rw [List.mem_range] at hk
      cases ha : mc'.1.isActive k
      · simp only [Bool.false_eq_true, if_false, decide_eq_true_eq]
        rw [hi'.reg, ha]
        simp
      · have hr := (hi'.reg k).2 ⟨hk, ha⟩
        simp only [if_true, Bool.and_eq_true, decide_eq_true_eq]
        refine ⟨⟨hr, ?_⟩, hf.geom k hr⟩
        rw [hf.geom k hr, hc]
        exact (registered_ok hi' hf hr).2.2.1
  · rw [List.mem_map]
    constructor
    · rintro ⟨k, hk, rfl⟩
      obtain ⟨a, b, c⟩ := registered_ok hi' hf hk
      refine ⟨a, b, ?_, c⟩
      obtain ⟨h1, h2⟩ := (hi'.reg k).1 hk
      rw [hf.act k h1] at h2
      unfold tgt at h2
      simp only [Bool.and_eq_true, Bool.not_eq_true'] at h2
      exact h2.2
    · rintro ⟨a, b, c, d⟩
      obtain ⟨k, hk, e1, -⟩ := local_of hi' hf a b c d
      exact ⟨k, hk, e1⟩

/-- **C73.** After `update`, from any state reached by the manager, `computeCollisions` with the manager raises no exception
and returns true exactly when some pair collides among the enabled pairs of two selected objects whose local bounding boxes
have positive volumes. Then `collisionPairIndex` is an enabled pair that collides, and otherwise it is unchanged; unless it
stops at the first collision, the results of all these colliding pairs tell so; and every result is either unchanged or the
one of the narrow phase for an enabled pair. -/
theorem C73_collisions {F : Fcl K} {shape : ℕ → Set (V3 K)} (hF : F.Ok shape) {filter : ℕ → Bool} {n : ℕ}
    {mc mc' : Man K × (ℕ → Bool)} (h : Reached F filter n mc) {e : Env K} (hg : FromHistory e.g)
    (hn : e.g.objects.length = n) (hN : Narrow F shape e) (hb : ∀ k, 0 ≤ e.brk k) {cl : Bool}
    (hu : update F e cl mc = some mc') (stop : Bool) (idx : ℕ) (results : ℕ → Bool) :
    let Found : ℕ → Prop := fun k => ∃ p, e.g.pairs[k]? = some p ∧ pairEnabled e.g e.active k = true ∧
      pairCol F.narrow e.g e.oMg k = true ∧ (filter p.1 = true ∧ F.Thick mc.2 (e.geom p.1)) ∧
      filter p.2 = true ∧ F.Thick mc.2 (e.geom p.2)
    ∃ c, computeCollisions F e mc'.1 stop idx results = some c ∧
      (c.colliding = true ↔ ∃ k, Found k) ∧
      (c.colliding = true → pairEnabled e.g e.active c.idx = true ∧ pairCol F.narrow e.g e.oMg c.idx = true) ∧
      (c.colliding = false → c.idx = idx) ∧
      (stop = false → ∀ k, Found k → c.results k = true) ∧
      ∀ k, c.results k = results k ∨ pairEnabled e.g e.active k = true ∧ c.results k = pairCol F.narrow e.g e.oMg k := by
  intro Found
  have hgi := hg.inv
  have hi := h.inv
  have hng : e.g.ngeoms = n := by rw [← hgi.len, hn]
  have hv : ∀ p ∈ e.g.pairs, p.1 < n ∧ p.2 < n := fun p hp => by
    have := hgi.valid p hp
    rw [hng] at this
    exact this.2
  obtain ⟨hi', -, -, hf⟩ := update_ok hi hu
  have hf := hf hv
  have hs : ∀ ab ∈ F.self mc'.1.registered mc'.1.objBox, Sound e mc'.1 mc'.1 ab := by
    intro ab hab
    obtain ⟨h1, h2⟩ := hF.selfIn _ _ ab hab
    refine ⟨?_, ?_, hf.geom _ h1, hf.geom _ h2⟩
    · rw [hng]; exact (registered_ok hi' hf h1).1
    · rw [hng]; exact (registered_ok hi' hf h2).1
  obtain ⟨c, hc, d⟩ := visit_did F e stop mc'.1 mc'.1 _ hs ⟨false, 0, 0, results⟩
  have hmet : ∀ k, Found k → Met F e mc'.1 mc'.1 (F.self mc'.1.registered mc'.1.objBox) k := by
    rintro k ⟨p, hk, he, hc, ⟨f1, t1⟩, f2, t2⟩
    obtain ⟨v1, v2⟩ := hv p (List.mem_of_getElem? hk)
    have hne := (hgi.valid p (List.mem_of_getElem? hk)).1
    obtain ⟨-, d1, d2⟩ := (enabled_iff hk).1 he
    obtain ⟨a, ha, ea, ia⟩ := local_of hi' hf v1 f1 d1 t1
    obtain ⟨b, hb', eb, ib⟩ := local_of hi' hf v2 f2 d2 t2
    have hm := pair_meets hF hN hb hf hf hk he hc ha hb' ea eb ia ib
    have hab : a ≠ b := by rintro rfl; exact hne (ea.symm.trans eb)
    rcases hF.self _ _ a ha b hb' hab hm with hin | hin
    · obtain ⟨h1, h2⟩ := hit_of_pair (m1 := mc'.1) (m2 := mc'.1) hgi hk he hc (Or.inl ⟨ea.symm, eb.symm⟩)
      exact ⟨(a, b), hin, h1, h2⟩
    · obtain ⟨h1, h2⟩ := hit_of_pair (m1 := mc'.1) (m2 := mc'.1) hgi hk he hc (Or.inr ⟨ea.symm, eb.symm⟩)
      exact ⟨(b, a), hin, h1, h2⟩
  refine ⟨_, by unfold computeCollisions; rw [hc]; rfl, ?_, ?_, ?_, fun hst k hk => d.all hst k (hmet k hk), d.res⟩
  · dsimp only
    rw [d.coll]
    constructor
    · rintro (hh | ⟨ab, hab, hh⟩)
      · simp at hh
      · obtain ⟨k, p, hk, -, he, hc, hp⟩ := hit_pair hgi (hs ab hab) hh
        obtain ⟨h1, h2⟩ := hF.selfIn _ _ ab hab
        have r1 := (registered_ok hi' hf h1).2
        have r2 := (registered_ok hi' hf h2).2
        refine ⟨k, p, hk, he, hc, ?_⟩
        rcases hp with ⟨p1, p2⟩ | ⟨p1, p2⟩
        · rw [p1, p2]; exact ⟨r1, r2⟩
        · rw [p1, p2]; exact ⟨r2, r1⟩
    · rintro ⟨k, hk⟩
      obtain ⟨ab, hab, hh, -⟩ := hmet k hk
      exact Or.inr ⟨ab, hab, hh⟩
  · intro hcc
    dsimp only at hcc ⊢
    rw [if_pos hcc]
    exact d.idx rfl hcc
  · intro hcc
    dsimp only at hcc ⊢
    rw [hcc]; rfl

/-- **C73 (same answer as the exhaustive query).** With the default filter and when no geometry is degenerate, the answer is
the one of `computeCollisions` without manager. -/
theorem C73_same {F : Fcl K} {shape : ℕ → Set (V3 K)} (hF : F.Ok shape) {n : ℕ} {mc mc' : Man K × (ℕ → Bool)}
    (h : Reached F (fun _ => true) n mc) {e : Env K} (hg : FromHistory e.g) (hn : e.g.objects.length = n)
    (hN : Narrow F shape e) (hb : ∀ k, 0 ≤ e.brk k) (ht : ∀ i < n, F.Thick mc.2 (e.geom i)) {cl : Bool}
    (hu : update F e cl mc = some mc') (stop : Bool) (idx : ℕ) (results : ℕ → Bool) :
    (computeCollisions F e mc'.1 stop idx results).map (·.colliding) = some (Pin.computeCollisions
      (pairEnabled e.g e.active) (pairCol F.narrow e.g e.oMg) stop e.g.pairs.length idx results).colliding := by
  obtain ⟨c, hc, h1, -⟩ := C73_collisions hF h hg hn hN hb hu stop idx results
  have h2 := (C35_sequential (pairEnabled e.g e.active) (pairCol F.narrow e.g e.oMg) stop e.g.pairs.length idx results).1
  rw [hc, Option.map_some, Option.some.injEq, Bool.eq_iff_iff, h1, h2]
  constructor
  · rintro ⟨k, p, hk, he, hc, -⟩
    exact ⟨k, (List.getElem?_eq_some_iff.1 hk).1, he, hc⟩
  · rintro ⟨k, hk, he, hc⟩
    have hv := (hg.inv.valid _ (List.getElem_mem hk)).2
    rw [← hg.inv.len, hn] at hv
    exact ⟨k, _, List.getElem?_eq_getElem hk, he, hc, ⟨rfl, ht _ hv.1⟩, rfl, ht _ hv.2⟩

/-! ### the tree of managers -/

/-- a list of managers, one per joint -/
def TreeInv (jt : ℕ → ℕ) (n njoints : ℕ) (l : List (Man K)) : Prop :=
  l.length = njoints ∧ ∀ (j : ℕ) (m : Man K), l[j]? = some m → m.Inv (fun i => jt i == j) n

theorem treeConstruct_inv (F : Fcl K) (e : Env K) {jt : ℕ → ℕ} {n : ℕ} (hn : e.g.objects.length = n)
    (hj : ∀ i < n, (e.g.objects[i]?.map (·.parentJoint)) = some (jt i)) (njoints : ℕ) (comp : ℕ → Bool) :
    TreeInv jt n njoints (treeConstruct F e njoints comp).1 := by
  unfold treeConstruct
  induction njoints with
  | zero => exact ⟨rfl, fun j m h => by simp at h⟩
  | succ N ih =>
    rw [List.range_succ, List.foldl_append, List.foldl_cons, List.foldl_nil]
    generalize (List.range N).foldl (fun (st : List (Man K) × (ℕ → Bool)) j =>
      let r := construct F e (fun i => (e.g.objects[i]?.map (·.parentJoint)).getD 0 == j) st.2
      (st.1 ++ [r.1], r.2)) ([], comp) = st at ih
    obtain ⟨h1, h2⟩ := ih
    dsimp only
    refine ⟨by rw [List.length_append, h1]; rfl, fun j m hm => ?_⟩
    by_cases h : j < N
    · rw [List.getElem?_append_left (by omega)] at hm
      exact h2 j m hm
    · have hjN : j = N := by
        have := (List.getElem?_eq_some_iff.1 hm).1
        rw [List.length_append, h1] at this
        simp at this
        omega
      subst hjN
      rw [List.getElem?_append_right (by omega), h1, Nat.sub_self] at hm
      simp only [List.getElem?_cons_zero, Option.some.injEq] at hm
      subst hm
      rw [construct_congr F e (f' := fun i => jt i == j) (fun i hi => by rw [hj i (by omega)]; rfl)]
      rw [← hn]
      exact construct_inv F e _ _

theorem treeUpdate_ok {F : Fcl K} {e : Env K} {b : Bool} {n : ℕ} (comp : ℕ → Bool) :
    ∀ (l : List (Man K)) (fl : ℕ → ℕ → Bool) (mc' : List (Man K) × (ℕ → Bool)),
      (∀ (j : ℕ) (m : Man K), l[j]? = some m → m.Inv (fl j) n) → treeUpdate F e b (l, comp) = some mc' →
      mc'.2 = comp ∧ mc'.1.length = l.length ∧ ∀ (j : ℕ) (m : Man K), mc'.1[j]? = some m → m.Inv (fl j) n ∧
        ((∀ p ∈ e.g.pairs, p.1 < n ∧ p.2 < n) → m.Fresh F e comp) := by
  intro l
  induction l with
  | nil =>
    intro fl mc' _ hu
    unfold treeUpdate at hu
    injection hu with hu
    subst hu
    exact ⟨rfl, rfl, fun j m h => by simp at h⟩
  | cons m l ih =>
    intro fl mc' hi hu
    unfold treeUpdate at hu
    split at hu
    · exact absurd hu (by simp)
    next m1 comp1 hm1 =>
    obtain ⟨a1, a2, -, a3⟩ := update_ok (mc := (m, comp)) (hi 0 m rfl) hm1
    dsimp only at a1 a2 a3
    subst a2
    split at hu
    · exact absurd hu (by simp)
    next l1 comp2 hl1 =>
    obtain ⟨b1, b2, b3⟩ := ih (fun j => fl (j + 1)) _ (fun j x hx => hi (j + 1) x (by simpa using hx)) hl1
    injection hu with hu
    subst hu
    refine ⟨b1, by simp at b2 ⊢; exact b2, fun j x hx => ?_⟩
    rcases j with _ | j
    · simp only [List.getElem?_cons_zero, Option.some.injEq] at hx
      subst hx
      exact ⟨a1, a3⟩
    · exact b3 j x (by simpa using hx)

theorem treeUpdate_total {F : Fcl K} {e : Env K} (b : Bool) {n : ℕ} (hn : e.g.objects.length = n)
    (hv : ∀ p ∈ e.g.pairs, p.1 < n ∧ p.2 < n) :
    ∀ (l : List (Man K)) (comp : ℕ → Bool) (fl : ℕ → ℕ → Bool), (∀ (j : ℕ) (m : Man K), l[j]? = some m → m.Inv (fl j) n) →
      ∃ mc', treeUpdate F e b (l, comp) = some mc' := by
  intro l
  induction l with
  | nil => intro comp fl _; exact ⟨([], comp), by unfold treeUpdate; rfl⟩
  | cons m l ih =>
    intro comp fl hi
    obtain ⟨mc1, h1⟩ := update_total (F := F) b (mc := (m, comp)) (hi 0 m rfl) hn hv
    obtain ⟨mc2, h2⟩ := ih mc1.2 (fun j => fl (j + 1)) (fun j x hx => hi (j + 1) x (by simpa using hx))
    unfold treeUpdate
    rw [h1]
    dsimp only
    rw [h2]
    exact ⟨_, rfl⟩

theorem TreeReached.inv {F : Fcl K} {jt : ℕ → ℕ} {n njoints : ℕ} {mc : List (Man K) × (ℕ → Bool)}
    (h : TreeReached F jt n njoints mc) : TreeInv jt n njoints mc.1 := by
  induction h with
  | init e comp hn hj => exact treeConstruct_inv F e hn hj njoints comp
  | step e b mc mc' _ hu ih =>
    obtain ⟨a, b, c⟩ := treeUpdate_ok mc.2 mc.1 (fun j i => jt i == j) mc' ih.2 hu
    exact ⟨b.trans ih.1, fun j m hm => (c j m hm).1⟩
  | other l comp comp' _ _ ih => exact ih

/-- **C73 (tree of managers).** The same with a `TreeBroadPhaseManager`, except that only the pairs of objects of two
different joints of the model are looked at. -/
theorem C73_tree_partial {F : Fcl K} {shape : ℕ → Set (V3 K)} (hF : F.Ok shape) {jt : ℕ → ℕ} {n njoints : ℕ}
    {mc : List (Man K) × (ℕ → Bool)} (h : TreeReached F jt n njoints mc) {e : Env K} (hg : FromHistory e.g)
    (hn : e.g.objects.length = n) (hN : Narrow F shape e) (hb : ∀ k, 0 ≤ e.brk k) (cl : Bool) :
    let Found : ℕ → Prop := fun k => ∃ p, e.g.pairs[k]? = some p ∧ pairEnabled e.g e.active k = true ∧
      pairCol F.narrow e.g e.oMg k = true ∧ (F.Thick mc.2 (e.geom p.1) ∧ F.Thick mc.2 (e.geom p.2)) ∧
      jt p.1 < njoints ∧ jt p.2 < njoints ∧ jt p.1 ≠ jt p.2
    ∃ mc', treeUpdate F e cl mc = some mc' ∧ ∀ (stop : Bool) (idx : ℕ) (results : ℕ → Bool),
    ∃ c, treeCollisions F e mc'.1 stop idx results = some c ∧
      (c.colliding = true ↔ ∃ k, Found k) ∧
      (c.colliding = true → pairEnabled e.g e.active c.idx = true ∧ pairCol F.narrow e.g e.oMg c.idx = true) ∧
      (c.colliding = false → c.idx = idx) ∧
      (stop = false → ∀ k, Found k → c.results k = true) ∧
      ∀ k, c.results k = results k ∨ pairEnabled e.g e.active k = true ∧ c.results k = pairCol F.narrow e.g e.oMg k := by
  intro Found
  have hgi := hg.inv
  have hi := h.inv
  have hng : e.g.ngeoms = n := by rw [← hgi.len, hn]
  have hv : ∀ p ∈ e.g.pairs, p.1 < n ∧ p.2 < n := fun p hp => by
    have := hgi.valid p hp
    rw [hng] at this
    exact this.2
  obtain ⟨mc', hu⟩ := treeUpdate_total (F := F) cl hn hv mc.1 mc.2 (fun j i => jt i == j) hi.2
  refine ⟨mc', hu, fun stop idx results => ?_⟩
  obtain ⟨-, hl, hm⟩ := treeUpdate_ok mc.2 mc.1 (fun j i => jt i == j) mc' hi.2 hu
  rw [hi.1] at hl
  have hall : ∀ m ∈ mc'.1, ∃ f, m.Inv f n ∧ m.Fresh F e mc.2 := fun m hmm => by
    obtain ⟨j, hj⟩ := List.mem_iff_getElem?.1 hmm
    exact ⟨_, (hm j m hj).1, (hm j m hj).2 hv⟩
  have hs : ∀ m ∈ mc'.1, ∀ m' ∈ mc'.1, ∀ ab ∈ cr F m m', Sound e m m' ab := by
    intro m hm1 m' hm2 ab hab
    obtain ⟨f1, i1, r1⟩ := hall m hm1
    obtain ⟨f2, i2, r2⟩ := hall m' hm2
    obtain ⟨h1, h2⟩ := hF.crossIn _ _ _ _ ab hab
    refine ⟨?_, ?_, r1.geom _ h1, r2.geom _ h2⟩
    · rw [hng]; exact (registered_ok i1 r1 h1).1
    · rw [hng]; exact (registered_ok i2 r2 h2).1
  obtain ⟨c, hc, d⟩ := treeOuter_did F e stop mc'.1 hs ⟨false, 0, 0, results⟩
  have hmet : ∀ k, Found k → Two (fun m m' => Met F e m m' (cr F m m') k) mc'.1 := by
    rintro k ⟨p, hk, he, hc, ⟨t1, t2⟩, j1, j2, hne⟩
    obtain ⟨v1, v2⟩ := hv p (List.mem_of_getElem? hk)
    obtain ⟨-, d1, d2⟩ := (enabled_iff hk).1 he
    have e1 : mc'.1[jt p.1]? = some (mc'.1[jt p.1]'(by omega)) := List.getElem?_eq_getElem _
    have e2 : mc'.1[jt p.2]? = some (mc'.1[jt p.2]'(by omega)) := List.getElem?_eq_getElem _
    obtain ⟨i1, r1⟩ := hm _ _ e1
    obtain ⟨i2, r2⟩ := hm _ _ e2
    have r1 := r1 hv
    have r2 := r2 hv
    obtain ⟨a, ha, ea, ia⟩ := local_of i1 r1 v1 (by simp) d1 t1
    obtain ⟨b, hb', eb, ib⟩ := local_of i2 r2 v2 (by simp) d2 t2
    have hmm := pair_meets hF hN hb r1 r2 hk he hc ha hb' ea eb ia ib
    rw [two_iff]
    rcases Nat.lt_or_gt_of_ne hne with hlt | hgt
    · refine ⟨_, _, _, _, hlt, e1, e2, (a, b), hF.cross _ _ _ _ a ha b hb' hmm, ?_⟩
      exact hit_of_pair hgi hk he hc (Or.inl ⟨ea.symm, eb.symm⟩)
    · refine ⟨_, _, _, _, hgt, e2, e1, (b, a), hF.cross _ _ _ _ b hb' a ha hmm.symm, ?_⟩
      exact hit_of_pair hgi hk he hc (Or.inr ⟨ea.symm, eb.symm⟩)
  refine ⟨_, by unfold treeCollisions; rw [hc]; rfl, ?_, ?_, ?_, fun hst k hk => d.all hst k (hmet k hk), d.res⟩
  · dsimp only
    rw [d.coll]
    constructor
    · rintro (hh | hh)
      · simp at hh
      · obtain ⟨i, j, m, m', hij, ei, ej, ab, hab, hh⟩ := two_iff.1 hh
        obtain ⟨k, p, hk, -, he, hc, hp⟩ := hit_pair hgi (hs m (List.mem_of_getElem? ei) m' (List.mem_of_getElem? ej) ab hab) hh
        obtain ⟨h1, h2⟩ := hF.crossIn _ _ _ _ ab hab
        obtain ⟨i1, r1⟩ := hm _ _ ei
        obtain ⟨i2, r2⟩ := hm _ _ ej
        obtain ⟨-, g1, s1⟩ := registered_ok i1 (r1 hv) h1
        obtain ⟨-, g2, s2⟩ := registered_ok i2 (r2 hv) h2
        simp only [beq_iff_eq] at g1 g2
        have li := (List.getElem?_eq_some_iff.1 ei).1
        have lj := (List.getElem?_eq_some_iff.1 ej).1
        refine ⟨k, p, hk, he, hc, ?_⟩
        rcases hp with ⟨p1, p2⟩ | ⟨p1, p2⟩
        · rw [p1, p2, g1, g2]; exact ⟨⟨s1, s2⟩, by omega, by omega, by omega⟩
        · rw [p1, p2, g1, g2]; exact ⟨⟨s2, s1⟩, by omega, by omega, by omega⟩
    · rintro ⟨k, hk⟩
      obtain ⟨i, j, m, m', hij, ei, ej, ab, hab, hh, -⟩ := two_iff.1 (hmet k hk)
      exact Or.inr (two_iff.2 ⟨i, j, m, m', hij, ei, ej, ab, hab, hh⟩)
  · intro hcc
    dsimp only at hcc ⊢
    rw [if_pos hcc]
    exact d.idx rfl hcc
  · intro hcc
    dsimp only at hcc ⊢
    rw [hcc]; rfl

/-! ## Findings -/

/-- the argument `compute_local_aabb` of `update` has no effect: a geometry whose local bounding box has not been computed
is put aside in the first pass, so that it is never computed, and the object stays out of the manager -/
theorem C73_flag_counterexample {F : Fcl K} {filter : ℕ → Bool} {n : ℕ} {mc mc' : Man K × (ℕ → Bool)}
    (h : Reached F filter n mc) {e : Env K} (hg : FromHistory e.g) (hn : e.g.objects.length = n)
    (hu : update F e true mc = some mc') :
    update F e false mc = some mc' ∧ mc'.2 = mc.2 ∧
      ∀ i, mc.2 (e.geom i) = false → i ∉ mc'.1.registered.map (fun k => mc'.1.selected.getD k 0) := by
  have hi := h.inv
  refine ⟨?_, (update_ok hi hu).2.1, fun i hc hm => ?_⟩
  · unfold update at hu ⊢
    dsimp only at hu ⊢
    split at hu
    · exact absurd hu (by simp)
    next hall =>
    rw [if_neg hall]
    split at hu
    · exact absurd hu (by simp)
    next inflation hinf =>
    rw [← hu]
    obtain ⟨a1, -, -⟩ := pass1_fold F mc.2 e mc.1.selected mc.1.isActive mc.1.selected.length
    generalize (List.range mc.1.selected.length).foldl (pass1 F mc.2 e mc.1.selected) (mc.1.isActive, [], []) = p1 at a1 ⊢
    have hact : ∀ k < mc.1.selected.length, p1.1 k = tgt F mc.2 e mc.1.selected k := fun k hk => by rw [a1, if_pos hk]
    have hx := fun b => pass3_fold F e { mc.1 with isActive := p1.1, inflation := inflation } b mc.2
      (fun k hk hk' => tgt_comp (by rw [← hact k hk]; exact hk')) mc.1.selected.length le_rfl
    obtain ⟨x1, x2, x3⟩ := hx true
    obtain ⟨y1, y2, y3⟩ := hx false
    dsimp only at x1 x2 x3 y1 y2 y3 ⊢
    rw [funext x1, funext x2, x3, funext y1, funext y2, y3]
  · obtain ⟨mc'', hu', -, hr⟩ := C73_update h hg hn true
    rw [hu] at hu'
    injection hu' with hu'
    subst hu'
    have := ((hr i).1 hm).2.2.2.1
    rw [hc] at this
    simp at this
end

namespace Ex
/-- a collision library whose geometries are points, with boxes around them; the geometry 9 is flat -/
def lib : Fcl ℚ where
  vol p := if p = 9 then 0 else 8
  box _ M := ⟨⟨M.trans.x - 1, M.trans.y - 1, M.trans.z - 1⟩, ⟨M.trans.x + 1, M.trans.y + 1, M.trans.z + 1⟩⟩
  self reg _ := reg.flatMap fun a => (reg.filter (a ≠ ·)).map fun b => (a, b)
  cross reg _ reg' _ := reg.flatMap fun a => reg'.map fun b => (a, b)
  narrow _ M1 M2 := decide (M1.trans = M2.trans)

/-- three objects on joints 1, 2 and 2, and the pairs (0, 1) and (2, 1) -/
def ops : List GOp := [.addObject 7 ⟨"a", 0, 1, false⟩, .addObject 8 ⟨"b", 0, 2, false⟩, .addObject 9 ⟨"c", 0, 2, false⟩,
  .addPair 0 1, .addPair 2 1]

/-- the registry after these calls -/
def g : GeomModel := (runG GeomModel.empty ops).getD GeomModel.empty

/-- the three objects at the heights `x`, `y` and `z` -/
def env (x y z : ℚ) : Env ℚ :=
  ⟨g, fun i => i, fun _ => true, fun _ => 0, fun _ => 1 / 1000, fun i => ⟨1, ⟨0, 0, if i = 0 then x else if i = 1 then y else z⟩⟩⟩

/-- built with the default filter, no local bounding box being computed -/
def man (x y z : ℚ) : Man ℚ × (ℕ → Bool) := construct lib (env x y z) (fun _ => true) (fun _ => false)

theorem lib_ok : lib.Ok (fun _ => {0}) := by
  refine ⟨?_, ?_, ?_, ?_, ?_⟩
  · rintro p M x rfl
    have : M.actP 0 = M.trans := by ext <;> simp [SE3.actP, M3.mulVec]
    rw [this]
    simp [Box.Has, lib]
  · intro reg _ ab hab
    simp only [lib, List.mem_flatMap, List.mem_map, List.mem_filter] at hab
    obtain ⟨a, ha, b, ⟨hb, -⟩, rfl⟩ := hab
    exact ⟨ha, hb⟩
  · intro reg _ a ha b hb hne _
    left
    simp only [lib, List.mem_flatMap, List.mem_map, List.mem_filter]
    exact ⟨a, ha, b, ⟨hb, by simpa using hne⟩, rfl⟩
  · intro reg _ reg' _ ab hab
    simp only [lib, List.mem_flatMap, List.mem_map] at hab
    obtain ⟨a, ha, b, hb, rfl⟩ := hab
    exact ⟨ha, hb⟩
  · intro reg _ reg' _ a ha b hb _
    simp only [lib, List.mem_flatMap, List.mem_map]
    exact ⟨a, ha, b, hb, rfl⟩

theorem from_ops {ops : List GOp} (hp : ∀ op ∈ ops, op.Pre) :
    FromHistory ((runG GeomModel.empty ops).getD GeomModel.empty) := by
  obtain ⟨g0, e, -⟩ := C28_registry ops hp
  exact ⟨ops, g0, hp, e, by rw [e]; rfl, by rw [e]; rfl⟩

theorem g_from : FromHistory g := by
  apply from_ops
  intro op h
  simp only [ops, List.mem_cons, List.not_mem_nil, or_false] at h
  rcases h with rfl | rfl | rfl | rfl | rfl <;> trivial

theorem narrow_ok (x y z : ℚ) : Narrow lib (fun _ => {0}) (env x y z) := by
  intro k p _ h
  refine ⟨0, rfl, 0, rfl, ?_⟩
  have h0 : ∀ M : SE3 ℚ, M.actP 0 = M.trans := fun M => by ext <;> simp [SE3.actP, M3.mulVec]
  rw [h0, h0, of_decide_eq_true h, sub_self]
  simp [V3.dot, env]
end Ex

/-- the hypotheses of the theorems above are met, by a manager updated twice, with a collision or without -/
example : Ex.lib.Ok (fun _ => {0}) ∧ FromHistory Ex.g ∧ (Ex.env 0 0 1).g = Ex.g ∧ Ex.g.objects.length = 3 ∧
    Narrow Ex.lib (fun _ => {0}) (Ex.env 0 0 1) ∧ (∀ k, 0 ≤ (Ex.env 0 0 1).brk k) ∧
    (∃ mc, Reached Ex.lib (fun _ => true) 3 mc ∧ update Ex.lib (Ex.env 0 0 1) false (Ex.man 3 4 5) = some mc ∧
      (∀ i < 3, Ex.lib.Thick mc.2 ((Ex.env 0 0 1).geom i))) ∧
    TreeReached Ex.lib (fun i => if i = 0 then 1 else 2) 3 3 (treeConstruct Ex.lib (Ex.env 3 4 5) 3 (fun _ => false)) ∧
    (((update Ex.lib (Ex.env 0 0 1) false (Ex.man 3 4 5)).bind fun mc =>
      computeCollisions Ex.lib (Ex.env 0 0 1) mc.1 false 7 (fun _ => false)).map fun c => (c.colliding, c.idx, c.results 0, c.results 1))
      = some (true, 0, true, false) ∧
    (((treeUpdate Ex.lib (Ex.env 0 0 1) false (treeConstruct Ex.lib (Ex.env 3 4 5) 3 (fun _ => false))).bind fun mc =>
      treeCollisions Ex.lib (Ex.env 0 0 1) mc.1 false 7 (fun _ => false)).map fun c => (c.colliding, c.idx)) = some (true, 0) ∧
    (((update Ex.lib (Ex.env 0 2 1) false (Ex.man 3 4 5)).bind fun mc =>
      computeCollisions Ex.lib (Ex.env 0 2 1) mc.1 false 7 (fun _ => false)).map fun c => (c.colliding, c.idx)) = some (false, 7) := by
  have hs : (update Ex.lib (Ex.env 0 0 1) false (Ex.man 3 4 5)).isSome = true := by decide +kernel
  obtain ⟨mc, hm⟩ := Option.isSome_iff_exists.1 hs
  have hr : Reached Ex.lib (fun _ => true) 3 (Ex.man 3 4 5) := .init _ _ _ (by decide +kernel) fun _ _ => rfl
  refine ⟨Ex.lib_ok, Ex.g_from, rfl, by decide +kernel, Ex.narrow_ok 0 0 1, fun k => by simp [Ex.env],
    ⟨mc, .step _ _ _ _ hr hm, hm, fun i hi => ?_⟩, .init _ _ (by decide +kernel) (by decide +kernel), by decide +kernel,
    by decide +kernel, by decide +kernel⟩
  have : mc.2 = (Ex.man 3 4 5).2 := (update_ok hr.inv hm).2.1
  refine ⟨?_, ?_⟩
  · rw [this]; interval_cases i <;> decide +kernel
  · interval_cases i <;> decide +kernel

/-- the object 0 has the flat geometry 9 -/
def Ex.flat : Env ℚ := { Ex.env 0 0 1 with geom := fun i => if i = 0 then 9 else i }

/-- a flat geometry (of zero volume) is never tested: the manager reports no collision where `computeCollisions` without
manager reports one -/
theorem C73_flat_counterexample :
    (((update Ex.lib Ex.flat false (construct Ex.lib Ex.flat (fun _ => true) (fun _ => false))).bind fun mc =>
      computeCollisions Ex.lib Ex.flat mc.1 false 7 (fun _ => false)).map (·.colliding)) = some false ∧
    (Pin.computeCollisions (pairEnabled Ex.flat.g Ex.flat.active) (pairCol Ex.lib.narrow Ex.flat.g Ex.flat.oMg) false
      Ex.flat.g.pairs.length 7 (fun _ => false)).colliding = true := by
  decide +kernel

/-- the tree of managers does not look at the pairs of objects of one joint: it reports no collision where the manager and
`computeCollisions` without manager report one -/
theorem C73_tree_counterexample :
    (((treeUpdate Ex.lib (Ex.env 0 1 1) false (treeConstruct Ex.lib (Ex.env 0 1 1) 3 (fun _ => false))).bind fun mc =>
      treeCollisions Ex.lib (Ex.env 0 1 1) mc.1 false 7 (fun _ => false)).map (·.colliding)) = some false ∧
    (((update Ex.lib (Ex.env 0 1 1) false (Ex.man 0 1 1)).bind fun mc =>
      computeCollisions Ex.lib (Ex.env 0 1 1) mc.1 false 7 (fun _ => false)).map (·.colliding)) = some true ∧
    (Pin.computeCollisions (pairEnabled Ex.g (fun _ => true)) (pairCol Ex.lib.narrow Ex.g (Ex.env 0 1 1).oMg) false
      Ex.g.pairs.length 7 (fun _ => false)).colliding = true := by
  decide +kernel

/-- a collision library which gives to the callback only the pairs whose boxes meet -/
def Ex.tight : Fcl ℚ := { Ex.lib with self := fun reg boxes => reg.flatMap fun a => (reg.filter fun b => decide (a < b) &&
  decide ((boxes a).lo.z ≤ (boxes b).hi.z ∧ (boxes b).lo.z ≤ (boxes a).hi.z)).map fun b => (a, b) }

/-- the results of the pairs that the manager does not meet are those of an earlier query: `collisionResults` still tells
that the pair 0 collides, although the query returns false -/
theorem C73_stale_counterexample :
    (((update Ex.tight (Ex.env 0 9 5) false (Ex.man 0 0 5)).bind fun mc =>
      computeCollisions Ex.tight (Ex.env 0 9 5) mc.1 false 7 (fun k => k == 0)).map fun c => (c.colliding, c.results 0))
      = some (false, true) ∧
    (Pin.computeCollisions (pairEnabled Ex.g (fun _ => true)) (pairCol Ex.tight.narrow Ex.g (Ex.env 0 9 5).oMg) false
      Ex.g.pairs.length 7 (fun k => k == 0)).results 0 = false := by
  decide +kernel

/-- a geometry object and a pair added after the manager has been built: `update` reads out of its table -/
theorem C73_added_counterexample :
    ((runG GeomModel.empty (Ex.ops ++ [.addObject 1 ⟨"d", 0, 1, false⟩, .addPair 0 3])).map fun g' =>
      (update Ex.lib { Ex.env 0 0 1 with g := g' } false (Ex.man 0 0 1)).isNone) = some true := by
  decide +kernel

end Pin.Broadphase
