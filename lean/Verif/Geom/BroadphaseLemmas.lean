import Verif.Geom.Broadphase
import Verif.Geom.Lemmas
import Mathlib.Algebra.Order.Field.Basic
import Mathlib.Tactic.Linarith
import Mathlib.Tactic.Ring

/-! # Lemmas on the broad-phase managers -/

namespace Pin.Broadphase
open Pin
set_option linter.unusedSectionVars false
set_option linter.unusedSimpArgs false

section
variable {K : Type*} [Field K] [LinearOrder K]

/-- the status given to an object by `update` -/
def tgt (F : Fcl K) (comp : ℕ → Bool) (e : Env K) (sel : List ℕ) (k : ℕ) : Bool :=
  !F.degenerate comp (e.geom (sel.getD k 0)) && !e.disabled (sel.getD k 0)

omit [LinearOrder K] in
theorem filter_snoc (f : ℕ → Bool) (N : ℕ) :
    (List.range (N + 1)).filter f = (List.range N).filter f ++ if f N then [N] else [] := by
  rw [List.range_succ, List.filter_append]
  congr 1
  cases h : f N <;> simp [h]

theorem pass1_fold (F : Fcl K) (comp : ℕ → Bool) (e : Env K) (sel : List ℕ) (act : ℕ → Bool) (N : ℕ) :
    let st := (List.range N).foldl (pass1 F comp e sel) (act, [], [])
    (∀ k, st.1 k = if k < N then tgt F comp e sel k else act k) ∧
    st.2.1 = (List.range N).filter (fun k => tgt F comp e sel k && !act k) ∧
    st.2.2 = (List.range N).filter (fun k => !tgt F comp e sel k && act k) := by
  induction N with
  | zero => simp
  | succ N ih =>
    obtain ⟨h1, h2, h3⟩ := ih
    rw [List.range_succ, List.foldl_append, List.foldl_cons, List.foldl_nil, ← List.range_succ, filter_snoc, filter_snoc]
    generalize (List.range N).foldl (pass1 F comp e sel) (act, [], []) = st at h1 h2 h3
    have hN : st.1 N = act N := by rw [h1, if_neg (lt_irrefl _)]
    have key : ∀ b, b = tgt F comp e sel N → ∀ k, upd st.1 N b k = if k < N + 1 then tgt F comp e sel k else act k := by
      intro b hb k
      by_cases e : k = N
      · subst e; rw [upd, Function.update_self, if_pos (by omega), hb]
      · rw [upd, Function.update_of_ne e, h1]
        by_cases h : k < N
        · rw [if_pos h, if_pos (by omega)]
        · rw [if_neg h, if_neg (by omega)]
    have key2 : act N = tgt F comp e sel N → ∀ k, st.1 k = if k < N + 1 then tgt F comp e sel k else act k := by
      intro hb k
      by_cases e : k = N
      · subst e; rw [hN, if_pos (by omega), hb]
      · rw [h1]
        by_cases h : k < N
        · rw [if_pos h, if_pos (by omega)]
        · rw [if_neg h, if_neg (by omega)]
    have ht : tgt F comp e sel N = (!F.degenerate comp (e.geom (sel.getD N 0)) && !e.disabled (sel.getD N 0)) := rfl
    unfold pass1
    dsimp only
    rw [hN]
    cases hd : F.degenerate comp (e.geom (sel.getD N 0)) <;> cases hb : e.disabled (sel.getD N 0) <;>
      cases ha : act N <;> rw [hd, hb] at ht <;>
      simp at ht <;>
      simp [ht, h2, h3, -Order.lt_add_one_iff] <;>
      first | exact key true ht.symm | exact key false ht.symm | exact key2 (ha.trans ht.symm)

omit [LinearOrder K] in
theorem pass3_fold (F : Fcl K) (e : Env K) (m : Man K) (b : Bool) (comp : ℕ → Bool)
    (hc : ∀ k < m.selected.length, m.isActive k = true → comp (e.geom (m.selected.getD k 0)) = true) (N : ℕ)
    (hN : N ≤ m.selected.length) :
    let st := (List.range N).foldl (pass3 F e m b) (m.objGeom, m.objBox, comp)
    (∀ k, st.1 k = if k < N ∧ m.isActive k = true then e.geom (m.selected.getD k 0) else m.objGeom k) ∧
    (∀ k, st.2.1 k = if k < N ∧ m.isActive k = true then
      (F.box (e.geom (m.selected.getD k 0)) (e.oMg (m.selected.getD k 0))).expand (m.inflation k) else m.objBox k) ∧
    st.2.2 = comp := by
  induction N with
  | zero => simp
  | succ N ih =>
    obtain ⟨h1, h2, h3⟩ := ih (by omega)
    rw [List.range_succ, List.foldl_append, List.foldl_cons, List.foldl_nil]
    generalize (List.range N).foldl (pass3 F e m b) (m.objGeom, m.objBox, comp) = st at h1 h2 h3
    unfold pass3
    cases ha : m.isActive N
    · simp only [Bool.not_false, if_true]
      refine ⟨fun k => ?_, fun k => ?_, h3⟩
      · rw [h1]
        by_cases hk : k = N
        · subst hk; simp [ha]
        · simp only [show k < N + 1 ↔ k < N by omega]
      · rw [h2]
        by_cases hk : k = N
        · subst hk; simp [ha]
        · simp only [show k < N + 1 ↔ k < N by omega]
    · simp only [Bool.not_true, Bool.false_eq_true, if_false]
      refine ⟨fun k => ?_, fun k => ?_, ?_⟩
      · by_cases hk : k = N
        · subst hk; simp [ha, upd]
        · rw [upd, Function.update_of_ne hk, h1]
          simp only [show k < N + 1 ↔ k < N by omega]
      · by_cases hk : k = N
        · subst hk; simp [ha, upd]
        · rw [upd, Function.update_of_ne hk, h2]
          simp only [show k < N + 1 ↔ k < N by omega]
      · split
        · rw [h3]
          funext p
          by_cases hp : p = e.geom (m.selected.getD N 0)
          · subst hp; rw [upd, Function.update_self, hc N (by omega) ha]
          · rw [upd, Function.update_of_ne hp]
        · exact h3

omit [Field K] in
theorem inflate_le (x : K) (inf : ℕ → K) (o : Option ℕ) (k : ℕ) : inf k ≤ inflate x inf o k := by
  cases o with
  | none => exact le_rfl
  | some j =>
    change inf k ≤ upd inf j (max x (inf j)) k
    by_cases h : k = j
    · subst h; rw [upd, Function.update_self]; exact le_max_right _ _
    · rw [upd, Function.update_of_ne h]

omit [Field K] in
theorem inflate_ge (x : K) (inf : ℕ → K) (k : ℕ) : x ≤ inflate x inf (some k) k := by
  change x ≤ upd inf k (max x (inf k)) k
  rw [upd, Function.update_self]; exact le_max_left _ _

/-- the second pass does not fail, and its inflations are large enough -/
theorem pass2_fold (e : Env K) (toIdx : List (Option ℕ)) (hv : ∀ p ∈ e.g.pairs, p.1 < toIdx.length ∧ p.2 < toIdx.length)
    (l : List ℕ) (hl : ∀ k ∈ l, k < e.g.pairs.length) (inf : ℕ → K) :
    ∃ inf', l.foldlM (pass2 e toIdx) inf = some inf' ∧ (∀ k, inf k ≤ inf' k) ∧
      ∀ id ∈ l, ∀ p, e.g.pairs[id]? = some p → pairEnabled e.g e.active id = true → ∀ i k : ℕ, (i = p.1 ∨ i = p.2) →
        toIdx[i]? = some (some k) → (e.brk id + e.margin id) * (1 / 2) ≤ inf' k := by
  induction l generalizing inf with
  | nil => exact ⟨inf, rfl, fun _ => le_rfl, by simp⟩
  | cons id l ih =>
    have hid : id < e.g.pairs.length := hl id (List.mem_cons_self ..)
    obtain ⟨p, hp⟩ : ∃ p, e.g.pairs[id]? = some p := ⟨_, List.getElem?_eq_getElem hid⟩
    obtain ⟨v1, v2⟩ := hv p (List.mem_of_getElem? hp)
    obtain ⟨i1, h1⟩ : ∃ i, toIdx[p.1]? = some i := ⟨_, List.getElem?_eq_getElem v1⟩
    obtain ⟨i2, h2⟩ : ∃ i, toIdx[p.2]? = some i := ⟨_, List.getElem?_eq_getElem v2⟩
    have hstep : ∃ inf1, pass2 e toIdx inf id = some inf1 ∧ (∀ k, inf k ≤ inf1 k) ∧
        (pairEnabled e.g e.active id = true → ∀ i k : ℕ, (i = p.1 ∨ i = p.2) → toIdx[i]? = some (some k) →
          (e.brk id + e.margin id) * (1 / 2) ≤ inf1 k) := by
      unfold pass2
      simp only [hp, h1, h2]
      split
      · next hn =>
        refine ⟨inf, rfl, fun _ => le_rfl, fun _ i k hi hk => ?_⟩
        exfalso
        rcases hi with rfl | rfl
        · rw [h1] at hk; injection hk with hk; subst hk; simp at hn
        · rw [h2] at hk; injection hk with hk; subst hk; simp at hn
      · split
        · next hn =>
          exact ⟨inf, rfl, fun _ => le_rfl, fun he => by rw [he] at hn; simp at hn⟩
        · refine ⟨_, rfl, fun k => (inflate_le _ _ _ k).trans (inflate_le _ _ _ k), fun _ i k hi hk => ?_⟩
          rcases hi with rfl | rfl
          · rw [h1] at hk; injection hk with hk; subst hk
            exact (inflate_ge _ _ k).trans (inflate_le _ _ _ k)
          · rw [h2] at hk; injection hk with hk; subst hk
            exact inflate_ge _ _ k
    obtain ⟨inf1, e1, le1, b1⟩ := hstep
    obtain ⟨inf2, e2, le2, b2⟩ := ih (fun k hk => hl k (List.mem_cons_of_mem _ hk)) inf1
    refine ⟨inf2, ?_, fun k => (le1 k).trans (le2 k), ?_⟩
    · rw [List.foldlM_cons, e1]; exact e2
    · intro id' hid' p' hp' he i k hi hk
      rcases List.mem_cons.1 hid' with rfl | hm
      · rw [hp] at hp'; injection hp' with hp'; subst hp'
        exact (b1 he i k hi hk).trans (le2 k)
      · exact b2 id' hm p' hp' he i k hi hk

/-- what holds of a manager at any time -/
structure Man.Inv (filter : ℕ → Bool) (n : ℕ) (m : Man K) : Prop where
  sel : m.selected = (List.range n).filter filter
  len : m.toIdx.length = n
  idx : ∀ i k : ℕ, m.selected[k]? = some i → m.toIdx[i]? = some (some k)
  nodup : m.registered.Nodup
  reg : ∀ k, k ∈ m.registered ↔ k < m.selected.length ∧ m.isActive k = true

/-- what holds of a manager after `update` -/
structure Man.Fresh (F : Fcl K) (e : Env K) (comp : ℕ → Bool) (m : Man K) : Prop where
  act : ∀ k < m.selected.length, m.isActive k = tgt F comp e m.selected k
  geom : ∀ k ∈ m.registered, m.objGeom k = e.geom (m.selected.getD k 0)
  box : ∀ k ∈ m.registered, m.objBox k =
    (F.box (e.geom (m.selected.getD k 0)) (e.oMg (m.selected.getD k 0))).expand (m.inflation k)
  pos : ∀ k, 0 ≤ m.inflation k
  infl : ∀ (id : ℕ) p, e.g.pairs[id]? = some p → pairEnabled e.g e.active id = true → ∀ i k : ℕ, (i = p.1 ∨ i = p.2) →
        m.toIdx[i]? = some (some k) → (e.brk id + e.margin id) * (1 / 2) ≤ m.inflation k

omit [LinearOrder K] in
theorem set_fold (sel : List ℕ) (hn : sel.Nodup) (n : ℕ) (hs : ∀ i ∈ sel, i < n) (N : ℕ) (hN : N ≤ sel.length) :
    let t := (List.range N).foldl (fun t k => t.set (sel.getD k 0) (some k)) (List.replicate n (none : Option ℕ))
    t.length = n ∧ ∀ i k : ℕ, k < N → sel[k]? = some i → t[i]? = some (some k) := by
  induction N with
  | zero => simp
  | succ N ih =>
    obtain ⟨h1, h2⟩ := ih (by omega)
    rw [List.range_succ, List.foldl_append, List.foldl_cons, List.foldl_nil]
    generalize (List.range N).foldl (fun t k => t.set (sel.getD k 0) (some k)) (List.replicate n (none : Option ℕ)) = t at h1 h2
    refine ⟨by simp [h1], fun i k hk hi => ?_⟩
    have hkl : k < sel.length := by omega
    have hi' : sel[k] = i := by rw [List.getElem?_eq_getElem hkl] at hi; injection hi
    have hNl : N < sel.length := by omega
    have eN : sel.getD N 0 = sel[N] := by rw [List.getD_eq_getElem?_getD, List.getElem?_eq_getElem hNl]; rfl
    by_cases e : k = N
    · subst e
      rw [eN, hi', List.getElem?_set_self (by rw [h1]; exact hs i (hi' ▸ List.getElem_mem hkl))]
    · rw [eN, List.getElem?_set_ne, h2 i k (by omega) hi]
      intro h
      rw [← hi'] at h
      exact e ((hn.getElem_inj_iff).1 h).symm

theorem construct_inv (F : Fcl K) (e : Env K) (filter : ℕ → Bool) (comp : ℕ → Bool) :
    Man.Inv filter e.g.objects.length (construct F e filter comp).1 := by
  have hnd : ((List.range e.g.objects.length).filter filter).Nodup := List.nodup_range.filter _
  obtain ⟨h1, h2⟩ := set_fold ((List.range e.g.objects.length).filter filter) hnd e.g.objects.length
    (fun i hi => List.mem_range.1 (List.mem_filter.1 hi).1) _ le_rfl
  refine ⟨rfl, h1, fun i k hk => h2 i k ?_ hk, List.nodup_range.filter _, fun k => ?_⟩
  · exact (List.getElem?_eq_some_iff.1 hk).1
  · simp [construct]

theorem tgt_comp {F : Fcl K} {comp : ℕ → Bool} {e : Env K} {sel : List ℕ} {k : ℕ} (h : tgt F comp e sel k = true) :
    comp (e.geom (sel.getD k 0)) = true := by
  unfold tgt Fcl.degenerate at h
  cases hc : comp (e.geom (sel.getD k 0))
  · rw [hc] at h; simp at h
  · rfl

theorem update_ok {F : Fcl K} {e : Env K} {b : Bool} {filter : ℕ → Bool} {n : ℕ} {mc mc' : Man K × (ℕ → Bool)}
    (hi : mc.1.Inv filter n) (h : update F e b mc = some mc') :
    mc'.1.Inv filter n ∧ mc'.2 = mc.2 ∧ mc'.1.selected = mc.1.selected ∧
      ((∀ p ∈ e.g.pairs, p.1 < n ∧ p.2 < n) → mc'.1.Fresh F e mc.2) := by
  unfold update at h
  dsimp only at h
  split at h
  · exact absurd h (by simp)
  split at h
  · exact absurd h (by simp)
  next inflation hinf =>
  injection h with h
  obtain ⟨a1, a2, a3⟩ := pass1_fold F mc.2 e mc.1.selected mc.1.isActive mc.1.selected.length
  generalize (List.range mc.1.selected.length).foldl (pass1 F mc.2 e mc.1.selected) (mc.1.isActive, [], []) = p1 at a1 a2 a3 h
  have hact : ∀ k < mc.1.selected.length, p1.1 k = tgt F mc.2 e mc.1.selected k := fun k hk => by rw [a1, if_pos hk]
  obtain ⟨b1, b2, b3⟩ := pass3_fold F e { mc.1 with isActive := p1.1, inflation := inflation } b mc.2
    (fun k hk hk' => tgt_comp (by rw [← hact k hk]; exact hk')) mc.1.selected.length le_rfl
  dsimp only at b1 b2 b3
  generalize (List.range mc.1.selected.length).foldl (pass3 F e { mc.1 with isActive := p1.1, inflation := inflation } b)
    (mc.1.objGeom, mc.1.objBox, mc.2) = p3 at b1 b2 b3 h
  have hreg : ∀ k, k ∈ p1.2.2.foldl List.erase mc.1.registered ++ p1.2.1 ↔ k < mc.1.selected.length ∧ p1.1 k = true := by
    intro k
    rw [List.mem_append, ← List.diff_eq_foldl, hi.nodup.mem_sdiff_iff, a2, a3, hi.reg, List.mem_filter, List.mem_filter,
      List.mem_range]
    constructor
    · rintro (⟨⟨h1, h2⟩, h3⟩ | ⟨h1, h2⟩)
      · refine ⟨h1, ?_⟩
        rw [hact k h1]
        cases ht : tgt F mc.2 e mc.1.selected k
        · exact absurd ⟨h1, by simp [ht, h2]⟩ h3
        · rfl
      · refine ⟨h1, ?_⟩
        rw [hact k h1]
        simp only [Bool.and_eq_true] at h2
        exact h2.1
    · rintro ⟨h1, h2⟩
      rw [hact k h1] at h2
      cases ha : mc.1.isActive k
      · right; exact ⟨h1, by simp [h2]⟩
      · left; exact ⟨⟨h1, rfl⟩, fun h => by simp [h2] at h⟩
  subst h
  refine ⟨⟨hi.sel, hi.len, hi.idx, ?_, hreg⟩, b3, rfl, fun hv => ?_⟩
  · rw [← List.diff_eq_foldl]
    refine List.Nodup.append (hi.nodup.diff) (by rw [a2]; exact List.nodup_range.filter _) ?_
    intro k h1 h2
    rw [hi.nodup.mem_sdiff_iff, hi.reg] at h1
    rw [a2, List.mem_filter] at h2
    simp [h1.1.2] at h2
  · obtain ⟨inf', e1, e2, e3⟩ := pass2_fold e mc.1.toIdx (by rw [hi.len]; exact hv) (List.range e.g.pairs.length)
      (fun k hk => List.mem_range.1 hk) (fun _ => 0)
    rw [hinf] at e1
    injection e1 with e1
    subst e1
    refine ⟨hact, fun k hk => ?_, fun k hk => ?_, e2, ?_⟩
    · have := (hreg k).1 hk
      dsimp only
      rw [b1, if_pos this]
    · have := (hreg k).1 hk
      dsimp only
      rw [b2, if_pos this]
    · intro id p hp
      have : id < e.g.pairs.length := by
        by_contra hh
        rw [List.getElem?_eq_none (by omega)] at hp
        simp at hp
      exact e3 id (List.mem_range.2 this) p hp

theorem update_total {F : Fcl K} {e : Env K} (b : Bool) {filter : ℕ → Bool} {n : ℕ} {mc : Man K × (ℕ → Bool)}
    (hi : mc.1.Inv filter n) (hn : e.g.objects.length = n) (hv : ∀ p ∈ e.g.pairs, p.1 < n ∧ p.2 < n) :
    ∃ mc', update F e b mc = some mc' := by
  obtain ⟨inf', e1, -⟩ := pass2_fold e mc.1.toIdx (by rw [hi.len]; exact hv) (List.range e.g.pairs.length)
    (fun k hk => List.mem_range.1 hk) (fun _ => 0)
  unfold update
  dsimp only
  rw [if_neg, e1]
  · exact ⟨_, rfl⟩
  · rw [not_not, List.all_eq_true]
    intro i h
    rw [hi.sel, List.mem_filter, List.mem_range] at h
    rw [hn]; exact decide_eq_true h.1

/-! ## the callback -/

/-- the pair of collision objects `ab` makes the callback find a collision -/
def hit (F : Fcl K) (e : Env K) (m1 m2 : Man K) (ab : ℕ × ℕ) : Bool :=
  let z := e.g.map (m1.selected.getD ab.1 0) (m2.selected.getD ab.2 0)
  decide (z ≠ -1) && pairEnabled e.g e.active z.toNat && pairCol F.narrow e.g e.oMg z.toNat

/-- neither of the two exceptions of the callback -/
def Sound (e : Env K) (m1 m2 : Man K) (ab : ℕ × ℕ) : Prop :=
  m1.selected.getD ab.1 0 < e.g.ngeoms ∧ m2.selected.getD ab.2 0 < e.g.ngeoms ∧
  m1.objGeom ab.1 = e.geom (m1.selected.getD ab.1 0) ∧ m2.objGeom ab.2 = e.geom (m2.selected.getD ab.2 0)

/-- what the callback has done between `c` and `c'`, when `H` tells whether a collision was met, and `N` is what was met -/
structure Did (F : Fcl K) (e : Env K) (stop : Bool) (H : Prop) (N : ℕ → Prop) (c c' : CB) : Prop where
  coll : c'.collision = true ↔ c.collision = true ∨ H
  keep : c.collision = true → c'.pairIndex = c.pairIndex
  idx : c.collision = false → c'.collision = true →
    pairEnabled e.g e.active c'.pairIndex = true ∧ pairCol F.narrow e.g e.oMg c'.pairIndex = true
  res : ∀ k, c'.results k = c.results k ∨
    (pairEnabled e.g e.active k = true ∧ c'.results k = pairCol F.narrow e.g e.oMg k)
  all : stop = false → ∀ k, N k → c'.results k = true
  mono : ∀ k, pairEnabled e.g e.active k = true → pairCol F.narrow e.g e.oMg k = true → c.results k = true → c'.results k = true

theorem Did.refl (F : Fcl K) (e : Env K) (stop : Bool) (c : CB) : Did F e stop False (fun _ => False) c c :=
  ⟨by simp, fun _ => rfl, fun h h' => by rw [h] at h'; simp at h', fun _ => Or.inl rfl, fun _ _ h => h.elim,
    fun _ _ _ h => h⟩

/-- one collision or another -/
theorem Did.trans {F : Fcl K} {e : Env K} {stop : Bool} {H H' : Prop} {N N' : ℕ → Prop} {c c' c'' : CB}
    (hN : ∀ k, N k → pairEnabled e.g e.active k = true ∧ pairCol F.narrow e.g e.oMg k = true)
    (h : Did F e stop H N c c') (h' : Did F e stop H' N' c' c'') :
    Did F e stop (H ∨ H') (fun k => N k ∨ N' k) c c'' where
  coll := by rw [h'.coll, h.coll, or_assoc]
  keep := fun hc => (h'.keep ((h.coll).2 (Or.inl hc))).trans (h.keep hc)
  idx := fun hc hc' => by
    cases hm : c'.collision
    · exact h'.idx hm hc'
    · rw [h'.keep hm]; exact h.idx hc hm
  res := fun k => by
    rcases h'.res k with e1 | e1
    · rw [e1]; exact h.res k
    · exact Or.inr e1
  all := fun hs k hk => by
    rcases hk with hk | hk
    · exact h'.mono k (hN k hk).1 (hN k hk).2 (h.all hs k hk)
    · exact h'.all hs k hk
  mono := fun k h1 h2 h3 => h'.mono k h1 h2 (h.mono k h1 h2 h3)

/-- stopping: what has not been visited does not matter -/
theorem Did.stop {F : Fcl K} {e : Env K} {H H' : Prop} {N N' : ℕ → Prop} {c c' : CB} (h : Did F e true H N c c')
    (hc : c'.collision = true) : Did F e true (H ∨ H') N' c c' where
  coll := by
    constructor
    · intro h1
      rcases h.coll.1 h1 with h | h
      · exact Or.inl h
      · exact Or.inr (Or.inl h)
    · intro _; exact hc
  keep := h.keep
  idx := h.idx
  res := h.res
  all := fun h => by simp at h
  mono := h.mono

theorem collide_did (F : Fcl K) (e : Env K) (stop : Bool) (m1 m2 : Man K) (ab : ℕ × ℕ) (hs : Sound e m1 m2 ab) (c : CB) :
    ∃ c' b, c.collide F e stop (m1.selected.getD ab.1 0) (m1.objGeom ab.1) (m2.selected.getD ab.2 0) (m2.objGeom ab.2)
        = some (c', b) ∧
      Did F e stop (hit F e m1 m2 ab = true) (fun k => hit F e m1 m2 ab = true ∧
        k = (e.g.map (m1.selected.getD ab.1 0) (m2.selected.getD ab.2 0)).toNat) c c' ∧
      b = (stop && hit F e m1 m2 ab) := by
  obtain ⟨h1, h2, h3, h4⟩ := hs
  unfold CB.collide hit
  dsimp only
  rw [if_neg (by rw [not_not]; exact ⟨h1, h2⟩)]
  generalize hz : e.g.map (m1.selected.getD ab.1 0) (m2.selected.getD ab.2 0) = z
  by_cases hm : z = -1
  · refine ⟨c, false, by rw [if_pos hm], ?_, by simp [hm]⟩
    have := Did.refl F e stop c
    simpa [hm] using this
  rw [if_neg hm]
  cases he : pairEnabled e.g e.active z.toNat
  · refine ⟨c, false, by simp, ?_, by simp⟩
    have := Did.refl F e stop c
    simpa using this
  rw [if_neg (by simp), if_neg (by rw [h3, h4]; simp)]
  cases hr : pairCol F.narrow e.g e.oMg z.toNat
  · refine ⟨_, _, rfl, ?_, by cases stop <;> simp⟩
    refine ⟨by simp, fun _ => rfl, fun h h' => by simp [h] at h', fun k => ?_, fun _ k hk => by simp at hk, fun k k1 k2 k3 => ?_⟩
    · by_cases hk : k = z.toNat
      · subst hk; right; exact ⟨he, by simp [upd, hr]⟩
      · left; simp [upd, Function.update_of_ne hk]
    · have hk : k ≠ z.toNat := by rintro rfl; rw [hr] at k2; simp at k2
      simp [upd, Function.update_of_ne hk, k3]
  · refine ⟨_, _, rfl, ?_, by cases stop <;> simp [hm]⟩
    cases hc : c.collision
    · refine ⟨by simp [hm, hc], fun h => by rw [hc] at h; simp at h, fun _ _ => ?_, fun k => ?_, fun _ k hk => ?_,
        fun k k1 k2 k3 => ?_⟩
      · simp [hc, he, hr]
      · by_cases hk : k = z.toNat
        · subst hk; right; exact ⟨he, by simp [upd, hr, hc]⟩
        · left; simp [upd, Function.update_of_ne hk, hc]
      · rw [hk.2]; simp [upd, hc]
      · by_cases hk : k = z.toNat
        · subst hk; simp [upd, hc]
        · simp [upd, Function.update_of_ne hk, k3, hc]
    · refine ⟨by simp [hm, hc], fun _ => by simp [hc], fun h => by rw [hc] at h; simp at h, fun k => ?_, fun _ k hk => ?_,
        fun k k1 k2 k3 => ?_⟩
      · by_cases hk : k = z.toNat
        · subst hk; right; exact ⟨he, by simp [upd, hr, hc]⟩
        · left; simp [upd, Function.update_of_ne hk, hc]
      · rw [hk.2]; simp [upd, hc]
      · by_cases hk : k = z.toNat
        · subst hk; simp [upd, hc]
        · simp [upd, Function.update_of_ne hk, k3, hc]

/-- the pair `k` is met among `l` and collides -/
def Met (F : Fcl K) (e : Env K) (m1 m2 : Man K) (l : List (ℕ × ℕ)) (k : ℕ) : Prop :=
  ∃ ab ∈ l, hit F e m1 m2 ab = true ∧ k = (e.g.map (m1.selected.getD ab.1 0) (m2.selected.getD ab.2 0)).toNat

theorem Met.col {F : Fcl K} {e : Env K} {m1 m2 : Man K} {l : List (ℕ × ℕ)} {k : ℕ} (h : Met F e m1 m2 l k) :
    pairEnabled e.g e.active k = true ∧ pairCol F.narrow e.g e.oMg k = true := by
  obtain ⟨ab, -, h, rfl⟩ := h
  unfold hit at h
  simp only [Bool.and_eq_true] at h
  exact ⟨h.1.2, h.2⟩

theorem Did.congr {F : Fcl K} {e : Env K} {stop : Bool} {H H' : Prop} {N N' : ℕ → Prop} {c c' : CB}
    (h : Did F e stop H N c c') (hH : H ↔ H') (hN : ∀ k, N' k → N k) : Did F e stop H' N' c c' :=
  ⟨by rw [h.coll, hH], h.keep, h.idx, h.res, fun hs k hk => h.all hs k (hN k hk), h.mono⟩

theorem visit_did (F : Fcl K) (e : Env K) (stop : Bool) (m1 m2 : Man K) (l : List (ℕ × ℕ))
    (hs : ∀ ab ∈ l, Sound e m1 m2 ab) (c : CB) :
    ∃ c', visit F e stop m1 m2 l c = some c' ∧
      Did F e stop (∃ ab ∈ l, hit F e m1 m2 ab = true) (Met F e m1 m2 l) c c' := by
  induction l generalizing c with
  | nil => exact ⟨c, rfl, (Did.refl F e stop c).congr (by simp) (by rintro k ⟨ab, h, -⟩; simp at h)⟩
  | cons ab l ih =>
    obtain ⟨c1, b, e1, d1, hb⟩ := collide_did F e stop m1 m2 ab (hs ab (List.mem_cons_self ..)) c
    have hmet : ∀ k, (hit F e m1 m2 ab = true ∧ k = (e.g.map (m1.selected.getD ab.1 0) (m2.selected.getD ab.2 0)).toNat) →
        pairEnabled e.g e.active k = true ∧ pairCol F.narrow e.g e.oMg k = true := fun k hk =>
      Met.col (l := [ab]) ⟨ab, by simp, hk.1, hk.2⟩
    unfold visit
    rw [e1]
    cases b
    · obtain ⟨c2, e2, d2⟩ := ih (fun x hx => hs x (List.mem_cons_of_mem _ hx)) c1
      refine ⟨c2, e2, (d1.trans hmet d2).congr (by simp) ?_⟩
      rintro k ⟨x, hx, h1, h2⟩
      rcases List.mem_cons.1 hx with rfl | hx
      · exact Or.inl ⟨h1, h2⟩
      · exact Or.inr ⟨x, hx, h1, h2⟩
    · have hb2 := hb.symm
      rw [Bool.and_eq_true] at hb2
      obtain ⟨rfl, hb2⟩ := hb2
      refine ⟨c1, rfl, (d1.stop (H' := ∃ x ∈ l, hit F e m1 m2 x = true) (N' := Met F e m1 m2 (ab :: l))
        (d1.coll.2 (Or.inr hb2))).congr (by simp) fun _ h => h⟩

/-- what `outer` meets with `inner` -/
def cr (F : Fcl K) (outer inner : Man K) : List (ℕ × ℕ) :=
  F.cross outer.registered outer.objBox inner.registered inner.objBox

theorem treeInner_did (F : Fcl K) (e : Env K) (stop : Bool) (outer : Man K) (l : List (Man K))
    (hs : ∀ m ∈ l, ∀ ab ∈ cr F outer m, Sound e outer m ab) (c : CB) :
    ∃ c', treeInner F e stop outer l c = some c' ∧
      Did F e stop (∃ m ∈ l, ∃ ab ∈ cr F outer m, hit F e outer m ab = true)
        (fun k => ∃ m ∈ l, Met F e outer m (cr F outer m) k) c c' := by
  induction l generalizing c with
  | nil => exact ⟨c, rfl, (Did.refl F e stop c).congr (by simp) (by rintro k ⟨m, h, -⟩; simp at h)⟩
  | cons m l ih =>
    obtain ⟨c1, e1, d1⟩ := visit_did F e stop outer m (cr F outer m) (hs m (List.mem_cons_self ..)) c
    unfold treeInner
    rw [show F.cross outer.registered outer.objBox m.registered m.objBox = cr F outer m from rfl, e1]
    cases hst : c1.stop stop
    · obtain ⟨c2, e2, d2⟩ := ih (fun x hx => hs x (List.mem_cons_of_mem _ hx)) c1
      refine ⟨c2, by simpa [hst] using e2, (d1.trans (fun k hk => hk.col) d2).congr (by simp) ?_⟩
      rintro k ⟨x, hx, h⟩
      rcases List.mem_cons.1 hx with rfl | hx
      · exact Or.inl h
      · exact Or.inr ⟨x, hx, h⟩
    · unfold CB.stop at hst
      rw [Bool.and_eq_true] at hst
      obtain ⟨rfl, hc⟩ := hst
      refine ⟨c1, by simp [CB.stop, hc], (d1.stop (H' := ∃ m ∈ l, ∃ ab ∈ cr F outer m, hit F e outer m ab = true)
        (N' := fun k => ∃ x ∈ m :: l, Met F e outer x (cr F outer x) k) hc).congr (by simp) fun _ h => h⟩

/-- some pair of managers of the list, in the order of the list, has the property -/
inductive Two (R : Man K → Man K → Prop) : List (Man K) → Prop
  | here {m m' : Man K} {l : List (Man K)} : m' ∈ l → R m m' → Two R (m :: l)
  | there {m : Man K} {l : List (Man K)} : Two R l → Two R (m :: l)

omit [LinearOrder K] in
theorem two_cons {R : Man K → Man K → Prop} {m : Man K} {l : List (Man K)} :
    Two R (m :: l) ↔ (∃ m' ∈ l, R m m') ∨ Two R l := by
  constructor
  · intro h
    cases h with
    | here h1 h2 => exact Or.inl ⟨_, h1, h2⟩
    | there h => exact Or.inr h
  · rintro (⟨m', h1, h2⟩ | h)
    · exact .here h1 h2
    · exact .there h

omit [LinearOrder K] in
theorem two_iff {R : Man K → Man K → Prop} {l : List (Man K)} :
    Two R l ↔ ∃ (i j : ℕ) (m m' : Man K), i < j ∧ l[i]? = some m ∧ l[j]? = some m' ∧ R m m' := by
  induction l with
  | nil =>
    constructor
    · intro h; cases h
    · rintro ⟨i, j, m, m', -, h, -⟩; simp at h
  | cons x l ih =>
    rw [two_cons, ih]
    constructor
    · rintro (⟨m', h1, h2⟩ | ⟨i, j, m, m', h1, h2, h3, h4⟩)
      · obtain ⟨j, hj⟩ := List.mem_iff_getElem?.1 h1
        exact ⟨0, j + 1, x, m', by omega, rfl, by simpa using hj, h2⟩
      · exact ⟨i + 1, j + 1, m, m', by omega, by simpa using h2, by simpa using h3, h4⟩
    · rintro ⟨i, j, m, m', h1, h2, h3, h4⟩
      obtain ⟨j, rfl⟩ : ∃ j', j = j' + 1 := ⟨j - 1, by omega⟩
      rcases i with _ | i
      · left
        simp only [List.getElem?_cons_zero, Option.some.injEq] at h2
        subst h2
        exact ⟨m', List.mem_iff_getElem?.2 ⟨j, by simpa using h3⟩, h4⟩
      · right
        exact ⟨i, j, m, m', by omega, by simpa using h2, by simpa using h3, h4⟩

theorem treeOuter_did (F : Fcl K) (e : Env K) (stop : Bool) (l : List (Man K))
    (hs : ∀ m ∈ l, ∀ m' ∈ l, ∀ ab ∈ cr F m m', Sound e m m' ab) (c : CB) :
    ∃ c', treeOuter F e stop l c = some c' ∧
      Did F e stop (Two (fun m m' => ∃ ab ∈ cr F m m', hit F e m m' ab = true) l)
        (fun k => Two (fun m m' => Met F e m m' (cr F m m') k) l) c c' := by
  induction l generalizing c with
  | nil => exact ⟨c, rfl, (Did.refl F e stop c).congr (by simp [two_iff]) (by simp [two_iff])⟩
  | cons m l ih =>
    obtain ⟨c1, e1, d1⟩ := treeInner_did F e stop m l
      (fun m' h => hs m (List.mem_cons_self ..) m' (List.mem_cons_of_mem _ h)) c
    unfold treeOuter
    rw [e1]
    cases hst : c1.stop stop
    · obtain ⟨c2, e2, d2⟩ := ih (fun x hx y hy => hs x (List.mem_cons_of_mem _ hx) y (List.mem_cons_of_mem _ hy)) c1
      refine ⟨c2, by simpa [hst] using e2, (d1.trans (fun k hk => hk.choose_spec.2.col) d2).congr
        (two_cons (R := fun m m' => ∃ ab ∈ cr F m m', hit F e m m' ab = true)).symm ?_⟩
      intro k h
      exact two_cons.1 h
    · unfold CB.stop at hst
      rw [Bool.and_eq_true] at hst
      obtain ⟨rfl, hc⟩ := hst
      refine ⟨c1, by simp [CB.stop, hc], (d1.stop hc).congr
        (two_cons (R := fun m m' => ∃ ab ∈ cr F m m', hit F e m m' ab = true)).symm fun _ h => h⟩

end

end Pin.Broadphase
