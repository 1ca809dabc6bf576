import Verif.Spec.Reduce
import Verif.Model.ReachLemmas

/-! # Lemmas on `buildReducedModel` -/

set_option linter.unusedSectionVars false
set_option linter.unusedSimpArgs false
set_option linter.unusedVariables false

namespace Pin
open Finset

/-! ## ranks -/

theorem keptBefore_succ_of_not_mem {L : List ℕ} {j : ℕ} (h : j ∉ L) : keptBefore L (j + 1) = keptBefore L j ++ [j] := by
  simp [keptBefore, List.range_succ, h]

theorem keptBefore_succ_of_mem {L : List ℕ} {j : ℕ} (h : j ∈ L) : keptBefore L (j + 1) = keptBefore L j := by
  simp [keptBefore, List.range_succ, h]

theorem rank_succ_of_not_mem {L : List ℕ} {j : ℕ} (h : j ∉ L) : rank L (j + 1) = rank L j + 1 := by
  simp [rank, keptBefore_succ_of_not_mem h]

theorem rank_succ_of_mem {L : List ℕ} {j : ℕ} (h : j ∈ L) : rank L (j + 1) = rank L j := by
  simp [rank, keptBefore_succ_of_mem h]

theorem rank_mono {L : List ℕ} {i j : ℕ} (h : i ≤ j) : rank L i ≤ rank L j := by
  induction j, h using Nat.le_induction with
  | base => exact le_rfl
  | succ j _ ih =>
    by_cases hj : j ∈ L
    · rw [rank_succ_of_mem hj]; exact ih
    · rw [rank_succ_of_not_mem hj]; omega

theorem rank_lt {L : List ℕ} {i j : ℕ} (h : i < j) (hi : i ∉ L) : rank L i < rank L j := by
  have := rank_mono (L := L) (i := i + 1) (j := j) h
  rw [rank_succ_of_not_mem hi] at this
  omega

theorem rank_inj {L : List ℕ} {i j : ℕ} (hi : i ∉ L) (hj : j ∉ L) (h : rank L i = rank L j) : i = j := by
  rcases Nat.lt_trichotomy i j with h1 | h1 | h1
  · have := rank_lt h1 hi; omega
  · exact h1
  · have := rank_lt h1 hj; omega

theorem keptBefore_getElem {L : List ℕ} {j : ℕ} : ∀ {i : ℕ}, i < j → i ∉ L → (keptBefore L j)[rank L i]? = some i := by
  induction j with
  | zero => intro i h; omega
  | succ j ih =>
    intro i hi hL
    by_cases hj : j ∈ L
    · rw [keptBefore_succ_of_mem hj]
      exact ih (by rcases Nat.lt_succ_iff_lt_or_eq.1 hi with h | h; exact h; subst h; exact absurd hj hL) hL
    · rw [keptBefore_succ_of_not_mem hj]
      rcases Nat.lt_succ_iff_lt_or_eq.1 hi with h | h
      · rw [List.getElem?_append_left (rank_lt h hL)]
        exact ih h hL
      · subst h
        simp [rank]

theorem mem_keptBefore {L : List ℕ} {i j : ℕ} : i ∈ keptBefore L j ↔ i < j ∧ i ∉ L := by
  simp [keptBefore]

/-! ## attach -/
variable {K : Type*}

theorem attach_kept [CommRing K] {par : ℕ → ℕ} {pl M : ℕ → SE3 K} {L : List ℕ} {j : ℕ} (h : j ∉ L) :
    attach par pl M L j = (j, 1) := by
  rw [attach]; simp [h]

theorem attach_lock [CommRing K] {par : ℕ → ℕ} {pl M : ℕ → SE3 K} {L : List ℕ} {j : ℕ} (h : j ∈ L) (hp : par j < j) :
    attach par pl M L j = ((attach par pl M L (par j)).1, (attach par pl M L (par j)).2 * pl j * M j) := by
  conv_lhs => rw [attach]
  simp [h, hp]

/-- the body goes to a joint that is not locked and not after it -/
theorem attach_ok [CommRing K] {par : ℕ → ℕ} {pl M : ℕ → SE3 K} {L : List ℕ} {n : ℕ} (hp : ∀ i, 1 ≤ i → i < n → par i < i)
    (h0 : 0 ∉ L) : ∀ j < n, (attach par pl M L j).1 ≤ j ∧ (attach par pl M L j).1 ∉ L := by
  intro j
  induction j using Nat.strong_induction_on with
  | _ j ih =>
    intro hj
    by_cases h : j ∈ L
    · have h1 : 1 ≤ j := by rcases Nat.eq_zero_or_pos j with rfl | h1; exact absurd h h0; exact h1
      have hlt := hp j h1 hj
      rw [attach_lock h hlt]
      have := ih _ hlt (by omega)
      exact ⟨by omega, this.2⟩
    · rw [attach_kept h]; exact ⟨le_rfl, h⟩


namespace Model
variable {P : Type*} [Field K] [LinearOrder K] [HasEps K]

/-! ## segments of parameter vectors -/

theorem selV_append {e : JEntry P} {l x : List K} (h : e.desc.nv = 0 ∨ e.idx_v + e.desc.nv ≤ l.length) :
    selV e (l ++ x) = selV e l := by
  unfold selV
  rcases h with h | h
  · simp [h]
  · rw [List.drop_append_of_le_length (by omega), List.take_append_of_le_length (by simp; omega)]

theorem selQ_append {e : JEntry P} {l x : List K} (h : e.desc.nq = 0 ∨ e.idx_q + e.desc.nq ≤ l.length) :
    selQ e (l ++ x) = selQ e l := by
  unfold selQ
  rcases h with h | h
  · simp [h]
  · rw [List.drop_append_of_le_length (by omega), List.take_append_of_le_length (by simp; omega)]

theorem selV_last {e : JEntry P} {l x : List K} (hx : x.length = e.desc.nv) (h : e.desc.nv = 0 ∨ e.idx_v = l.length) :
    selV e (l ++ x) = x := by
  unfold selV
  rcases h with h | h
  · rw [h] at hx; simp [h, List.length_eq_zero_iff.1 hx]
  · rw [h, List.drop_left, ← hx, List.take_length]

theorem selQ_last {e : JEntry P} {l x : List K} (hx : x.length = e.desc.nq) (h : e.desc.nq = 0 ∨ e.idx_q = l.length) :
    selQ e (l ++ x) = x := by
  unfold selQ
  rcases h with h | h
  · rw [h] at hx; simp [h, List.length_eq_zero_iff.1 hx]
  · rw [h, List.drop_left, ← hx, List.take_length]

theorem setSeg_last {l x y : List K} {i : ℕ} (hx : x.length = y.length) (h : y = [] ∨ i = l.length) :
    setSeg (l ++ x) i y = l ++ y := by
  unfold setSeg
  rcases h with h | h
  · subst h; simp at hx; subst hx; simp
  · subst h; rw [List.take_left]; simp [← hx]

/-! ## frames -/

theorem addFrame_false {m m' : Model K P} {f : Frame K} {i : ℕ} (h : m.addFrame f false = .ok m' i) :
    m' = m ∨ m' = { m with frames := m.frames ++ [f], nframes := m.nframes + 1 } := by
  unfold addFrame at h
  split at h
  · cases h
  · split at h
    · split at h
      · simp only [Res.ok.injEq] at h; exact Or.inl h.1.symm
      · cases h
    · simp only [Res.ok.injEq] at h; exact Or.inr h.1.symm

theorem copyFrame_ok {inp m m' : Model K P} {L : List ℕ} {f : Frame K} (h : copyFrame inp L m f = .ok m' ()) :
    m' = m ∨ ∃ g : Frame K, g.name = f.name ∧ g.type = f.type ∧
      m' = { m with frames := m.frames ++ [g], nframes := m.nframes + 1 } := by
  unfold copyFrame at h
  split at h
  · cases h
  split at h
  · split at h
    · simp only [Res.ok.injEq] at h; exact Or.inl h.1.symm
    split at h
    · cases h
    split at h
    · split at h
      · cases h
      split at h
      · rename_i he
        simp only [Res.ok.injEq, and_true] at h
        subst h
        rcases addFrame_false he with e | e
        · exact Or.inl e
        · refine Or.inr ⟨_, ?_, ?_, e⟩ <;> rfl
      · cases h
      · cases h
    · cases h
  · split at h
    · cases h
    split at h
    · cases h
    split at h
    · rename_i he
      simp only [Res.ok.injEq, and_true] at h
      subst h
      rcases addFrame_false he with e | e
      · exact Or.inl e
      · refine Or.inr ⟨_, ?_, ?_, e⟩ <;> rfl
    · cases h
    · cases h

/-- a property kept by adding a frame named and typed like one of the input is kept by the copy of the frames -/
theorem copyUpTo_ok {inp : Model K P} {L : List ℕ} {name : String} (Q : Model K P → Prop)
    (hQ : ∀ m f g, f ∈ inp.frames → g.name = f.name → g.type = f.type → Q m →
      Q { m with frames := m.frames ++ [g], nframes := m.nframes + 1 }) :
    ∀ (fuel fi : ℕ) (m : Model K P) (r : Model K P × ℕ), Q m → copyUpTo inp L name fuel fi m = .ok r () → Q r.1 := by
  intro fuel
  induction fuel with
  | zero => intro fi m r _ h; cases h
  | succ n ih =>
    intro fi m r hm h
    unfold copyUpTo at h
    split at h
    · cases h
    split at h
    · simp only [Res.ok.injEq, and_true] at h; subst h; exact hm
    split at h
    · cases h
    · rename_i g hg
      split at h
      · simp only [Res.ok.injEq, and_true] at h; subst h; exact hm
      split at h
      · rename_i m' _ he
        refine ih _ _ _ ?_ h
        rcases copyFrame_ok he with e | ⟨g', h1, h2, e⟩
        · exact e ▸ hm
        · rw [e]; exact hQ m g g' (List.mem_of_getElem? hg) h1 h2 hm
      · cases h
      · cases h

theorem copyRest_ok {inp : Model K P} {L : List ℕ} (Q : Model K P → Prop)
    (hQ : ∀ m f g, f ∈ inp.frames → g.name = f.name → g.type = f.type → Q m →
      Q { m with frames := m.frames ++ [g], nframes := m.nframes + 1 }) :
    ∀ (l : List (Frame K)) (m m' : Model K P), (∀ f ∈ l, f ∈ inp.frames) → Q m → copyRest inp L l m = .ok m' () → Q m' := by
  intro l
  induction l with
  | nil => intro m m' _ hm h; simp only [copyRest, Res.ok.injEq, and_true] at h; exact h ▸ hm
  | cons f l ih =>
    intro m m' hl hm h
    unfold copyRest at h
    split at h
    · rename_i m1 _ he
      refine ih _ _ (fun g hg => hl g (by simp [hg])) ?_ h
      rcases copyFrame_ok he with e | ⟨g', h1, h2, e⟩
      · exact e ▸ hm
      · rw [e]; exact hQ m f g' (hl f (by simp)) h1 h2 hm
    · cases h
    · cases h

/-! ## the invariant of the loop over the joints -/

/-- the joint transforms of the input, frames named as joints, masses -/
structure RHyp (inp : Model K (Joint K)) (L : List ℕ) : Prop where
  inv : Inv inp
  j0 : ∃ p0, inp.joints[0]? = some ⟨⟨p0, 0, 0, 0, none⟩, 0, 0, 0, 0⟩
  names : inp.names.Nodup
  /-- no frame of the input with the type of a fixed joint has the name of a joint -/
  fixed : ∀ f ∈ inp.frames, FIXED_JOINT &&& f.type ≠ 0 → ∀ i, 1 ≤ i → i < inp.njoints → f.name ≠ inp.name i
  mimic : ∀ (i : ℕ) (e : JEntry (Joint K)), inp.joints[i]? = some e → e.desc.mimic ≠ none → e.desc.nq = 0 ∧ e.desc.nv = 0
  mimicked : ∀ (i : ℕ) (e : JEntry (Joint K)) (x : ℕ × ℕ × ℕ), inp.joints[i]? = some e → e.desc.mimic = some x → x.1 < inp.njoints
  mass : ∀ i < inp.njoints, MassFine (inp.inertia i).mass
  lock : 0 ∉ L

/-- after the joints below `j` have been processed -/
structure RInv (inp : Model K (Joint K)) (L : List ℕ) (qref : List K) (j : ℕ) (m : Model K (Joint K)) : Prop where
  inv : Inv m
  nj : m.njoints = rank L j
  names : m.names = (keptBefore L j).map inp.name
  kept : ∀ i, 1 ≤ i → i < j → i ∉ L → SameJoint inp m i (rank L i) ∧
    m.par (rank L i) = rank L (inp.att L qref (inp.par i)).1 ∧ m.pl (rank L i) = (inp.att L qref (inp.par i)).2 * inp.pl i
  mim : ∀ (i : ℕ) (e : JEntry (Joint K)) (x : ℕ × ℕ × ℕ), 1 ≤ i → i < j → i ∉ L → inp.joints[i]? = some e →
    e.desc.mimic = some x → x.1 < i ∧ x.1 ∉ L ∧ ∃ o p : JEntry (Joint K), m.joints[rank L i]? = some o ∧
      m.joints[rank L x.1]? = some p ∧ o.desc.mimic = some (rank L x.1, p.idx_q, p.idx_v) ∧ o.idx_q = p.idx_q ∧ o.idx_v = p.idx_v
  fix : ∀ i, 1 ≤ i → i < j → i ∈ L → ∃ g ∈ m.frames, g.name = inp.name i ∧ g.type = FIXED_JOINT ∧
    g.parentJoint = rank L (inp.att L qref i).1 ∧ g.placement = (inp.att L qref i).2
  clean : ∀ g ∈ m.frames, FIXED_JOINT &&& g.type ≠ 0 → ∀ i, 1 ≤ i → i < inp.njoints → g.name = inp.name i → i < j ∧ i ∈ L
  arm : ∀ x ∈ m.armature, x = 0
  iner : ∀ k, k < j → k ∉ L → MassFine (m.inertia (rank L k)).mass ∧
    (m.inertia (rank L k)).mass = ∑ i ∈ range j with (inp.att L qref i).1 = k, (inp.inertia i).mass ∧
    (m.inertia (rank L k)).matrix = ∑ i ∈ range j with (inp.att L qref i).1 = k,
      ((inp.inertia i).act (inp.att L qref i).2).matrix

variable {inp : Model K (Joint K)} {L : List ℕ} {qref : List K}

theorem RInv.frame {j : ℕ} {m : Model K (Joint K)} (h : RInv inp L qref j m) (g : Frame K)
    (hg : FIXED_JOINT &&& g.type ≠ 0 → ∀ i, 1 ≤ i → i < inp.njoints → g.name = inp.name i → i < j ∧ i ∈ L) :
    RInv inp L qref j { m with frames := m.frames ++ [g], nframes := m.nframes + 1 } := by
  refine ⟨?_, h.nj, h.names, ?_, h.mim, ?_, ?_, h.arm, h.iner⟩
  · exact inv_frames h.inv m.inertias _ _ m.nbodies rfl (by simp [h.inv.lens.nframes])
  · intro i h1 hi hL
    obtain ⟨⟨a, b⟩, c⟩ := h.kept i h1 hi hL
    exact ⟨⟨a, b⟩, c⟩
  · intro i h1 hi hL
    obtain ⟨g', hg', r⟩ := h.fix i h1 hi hL
    exact ⟨g', List.mem_append_left _ hg', r⟩
  · intro g' hg' ht
    rcases List.mem_append.1 hg' with h1 | h1
    · exact h.clean g' h1 ht
    · simp at h1; subst h1; exact hg ht

theorem name_getElem {m : Model K P} (h : Inv m) {i : ℕ} (hi : i < m.njoints) : m.names[i]? = some (m.name i) := by
  have : i < m.names.length := by rw [h.lens.names]; exact hi
  simp [Model.name, List.getD, List.getElem?_eq_getElem this]

theorem RHyp.name_inj (h : RHyp inp L) {i j : ℕ} (hi : i < inp.njoints) (hj : j < inp.njoints)
    (e : inp.name i = inp.name j) : i = j := by
  have a := name_getElem h.inv hi
  have b := name_getElem h.inv hj
  rw [← e] at b
  exact (List.getElem?_inj (by rw [h.inv.lens.names]; exact hi) h.names).1 (a.trans b.symm)

theorem RInv.exist {j : ℕ} {m : Model K (Joint K)} (H : RHyp inp L) (h : RInv inp L qref j m) (hj : j ≤ inp.njoints)
    {p : ℕ} (hp : p < inp.njoints) : m.existJointName (inp.name p) = true ↔ p < j ∧ p ∉ L := by
  unfold existJointName
  rw [h.names, List.any_map, List.any_eq_true]
  constructor
  · rintro ⟨i, hi, e⟩
    rw [mem_keptBefore] at hi
    simp only [Function.comp, beq_iff_eq] at e
    have := H.name_inj (by omega) hp e
    exact this ▸ hi
  · rintro hp
    exact ⟨p, mem_keptBefore.2 hp, by simp⟩

theorem RInv.jointId {j : ℕ} {m : Model K (Joint K)} (H : RHyp inp L) (h : RInv inp L qref j m) (hj : j ≤ inp.njoints)
    {p : ℕ} (hp : p < j) (hL : p ∉ L) : m.getJointId (inp.name p) = rank L p := by
  unfold getJointId
  rw [h.names]
  have hk := keptBefore_getElem hp hL
  have hlt : rank L p < (keptBefore L j).length := rank_lt hp hL
  rw [List.findIdx_eq (by simpa using hlt)]
  rw [List.getElem?_eq_getElem hlt] at hk
  have hk := Option.some.inj hk
  constructor
  · simp [hk]
  · intro t ht
    simp only [List.getElem_map, beq_eq_false_iff_ne]
    intro e
    have hm : (keptBefore L j)[t]'(by omega) ∈ keptBefore L j := List.getElem_mem _
    rw [mem_keptBefore] at hm
    have := H.name_inj (by omega) (by omega) e
    have hn : (keptBefore L j).Nodup := (List.nodup_range).filter _
    have := (List.Nodup.getElem_inj_iff hn (hi := by omega) (hj := hlt)).1 (this.trans hk.symm)
    omega

theorem getFrameId_unique {m : Model K P} {name : String} {mask f : ℕ} {g : Frame K} (hg : g ∈ m.frames)
    (hm : filterFrame name mask g = true) (h : m.getFrameId name mask = some f) : m.frames[f]? = some g := by
  unfold getFrameId at h
  simp only at h
  split at h
  · rename_i hc
    have hlt : m.frames.findIdx (filterFrame name mask) < m.frames.length := List.findIdx_lt_length.2 ⟨g, hg, hm⟩
    have hf := Option.some.inj h
    rcases hc with hc | hc
    · omega
    obtain ⟨t, ht, rfl⟩ := List.getElem_of_mem hg
    have h1 : ¬ t < f := by
      intro hlt
      rw [← hf] at hlt
      exact absurd hm (by simpa using List.not_of_lt_findIdx hlt)
    have h2 : ¬ f < t := by
      intro hlt
      rw [List.any_eq_false] at hc
      refine hc m.frames[t] ?_ hm
      rw [hf]
      refine List.mem_of_getElem? (i := t - (f + 1)) ?_
      rw [List.getElem?_drop, show f + 1 + (t - (f + 1)) = t by omega, List.getElem?_eq_getElem ht]
    have : t = f := by omega
    subst this
    exact List.getElem?_eq_getElem ht
  · cases h

theorem RInv.parent {j : ℕ} {m : Model K (Joint K)} (H : RHyp inp L) (h : RInv inp L qref j m) (hj : j ≤ inp.njoints)
    {p : ℕ} (hp : p < j) {r : ℕ × SE3 K × ℕ} (hr : reducedParent m (inp.name p) = some (some r)) :
    r.1 = rank L (inp.att L qref p).1 ∧ r.2.1 = (inp.att L qref p).2 := by
  unfold reducedParent at hr
  by_cases hL : p ∈ L
  · have : m.existJointName (inp.name p) = false := by
      rw [Bool.eq_false_iff]
      intro e
      exact ((h.exist H hj (by omega)).1 e).2 hL
    rw [this] at hr
    simp only [Bool.false_eq_true, if_false] at hr
    split at hr
    · simp at hr
    · rename_i f hf
      obtain ⟨g, hg, e1, e2, e3, e4⟩ := h.fix p (by
        rcases Nat.eq_zero_or_pos p with rfl | h1
        · exact absurd hL H.lock
        · exact h1) hp hL
      have := getFrameId_unique hg (by simp [filterFrame, e1, e2, ANY, JOINT, FIXED_JOINT, BODY, OP_FRAME, SENSOR]) hf
      rw [this] at hr
      simp only [Option.some.injEq] at hr
      subst hr
      exact ⟨e3, e4⟩
  · rw [(h.exist H hj (by omega)).2 ⟨hp, hL⟩] at hr
    simp only [if_true, Option.some.injEq] at hr
    subst hr
    rw [h.jointId H hj hp hL, att, attach_kept hL]
    exact ⟨rfl, rfl⟩

theorem RHyp.att_lt (H : RHyp inp L) {p : ℕ} (hp : p < inp.njoints) :
    (inp.att L qref p).1 ≤ p ∧ (inp.att L qref p).1 ∉ L :=
  attach_ok (par := inp.par) (n := inp.njoints) (fun i h1 hi => H.inv.par i h1 hi) H.lock p hp

theorem RHyp.att_lock (H : RHyp inp L) {j : ℕ} (hj : j < inp.njoints) (hL : j ∈ L) :
    1 ≤ j ∧ inp.par j < j ∧ inp.att L qref j = ((inp.att L qref (inp.par j)).1,
      (inp.att L qref (inp.par j)).2 * inp.pl j * inp.jointM qref j) := by
  have h1 : 1 ≤ j := by
    rcases Nat.eq_zero_or_pos j with rfl | h1
    · exact absurd hL H.lock
    · exact h1
  have hp : inp.par j < j := H.inv.par j h1 hj
  exact ⟨h1, hp, attach_lock hL hp⟩

theorem mem_modify {α : Type*} {l : List α} {n : ℕ} {f : α → α} {x : α} (h : x ∈ l.modify n f) :
    ∃ y ∈ l, x = y ∨ x = f y := by
  obtain ⟨i, hi, rfl⟩ := List.getElem_of_mem h
  rw [List.getElem_modify]
  have hi' : i < l.length := by simpa using hi
  refine ⟨l[i], List.getElem_mem _, ?_⟩
  split
  · exact Or.inr rfl
  · exact Or.inl rfl

theorem mem_modify' {α : Type*} {l : List α} (n : ℕ) (f : α → α) {y : α} (h : y ∈ l) :
    y ∈ l.modify n f ∨ f y ∈ l.modify n f := by
  obtain ⟨i, hi, rfl⟩ := List.getElem_of_mem h
  by_cases hn : n = i
  · right
    refine List.mem_of_getElem? (i := i) ?_
    simp [List.getElem?_modify, hn, List.getElem?_eq_getElem hi]
  · left
    refine List.mem_of_getElem? (i := i) ?_
    simp [List.getElem?_modify, hn, List.getElem?_eq_getElem hi]

theorem act_mass (M : SE3 K) (Y : Inertia K) : (Y.act M).mass = Y.mass := rfl

variable [IsStrictOrderedRing K]

/-- what locking a joint does to the reduced model -/
theorem RInv.lock {j : ℕ} {m m' : Model K (Joint K)} (H : RHyp inp L) (h : RInv inp L qref j m) (hj : j < inp.njoints)
    (hL : j ∈ L) (g : Frame K) (hn : g.name = inp.name j) (ht : g.type = FIXED_JOINT)
    (hpj : g.parentJoint = rank L (inp.att L qref j).1) (hpl : g.placement = (inp.att L qref j).2) (id : ℕ)
    (hm : m' = { m with
      frames := (m.frames ++ [g]).modify id (fun f => { f with parentFrame := id })
      inertias := m.inertias.modify g.parentJoint (fun Y => Y + (inp.inertia j).act g.placement)
      nframes := m.nframes + 1 }) : RInv inp L qref (j + 1) m' := by
  obtain ⟨h1, hp, hatt⟩ := H.att_lock (qref := qref) hj hL
  have halt := H.att_lt (qref := qref) hj
  subst hm
  have lt_of : ∀ {i}, i < j + 1 → i ∉ L → i < j := by
    intro i hi hiL
    rcases Nat.lt_succ_iff_lt_or_eq.1 hi with e | e
    · exact e
    · subst e; exact absurd hL hiL
  refine ⟨?_, ?_, ?_, ?_, ?_, ?_, ?_, h.arm, ?_⟩
  · exact inv_frames h.inv _ _ _ m.nbodies (by simp) (by simp [h.inv.lens.nframes])
  · rw [rank_succ_of_mem hL]; exact h.nj
  · rw [keptBefore_succ_of_mem hL]; exact h.names
  · intro i h1 hi hiL
    obtain ⟨⟨a, b⟩, c⟩ := h.kept i h1 (lt_of hi hiL) hiL
    exact ⟨⟨a, b⟩, c⟩
  · intro i e x h1 hi hiL
    exact h.mim i e x h1 (lt_of hi hiL) hiL
  · intro i h1 hi hiL
    have : ∃ g' ∈ m.frames ++ [g], g'.name = inp.name i ∧ g'.type = FIXED_JOINT ∧
        g'.parentJoint = rank L (inp.att L qref i).1 ∧ g'.placement = (inp.att L qref i).2 := by
      rcases Nat.lt_succ_iff_lt_or_eq.1 hi with e | e
      · obtain ⟨g', hg', r⟩ := h.fix i h1 e hiL
        exact ⟨g', List.mem_append_left _ hg', r⟩
      · subst e
        exact ⟨g, by simp, hn, ht, hpj, hpl⟩
    obtain ⟨g', hg', r⟩ := this
    rcases mem_modify' id (fun f : Frame K => { f with parentFrame := id }) hg' with e | e
    · exact ⟨g', e, r⟩
    · exact ⟨_, e, r⟩
  · intro g' hg' ht'
    obtain ⟨g0, hg0, e⟩ := mem_modify hg'
    have en : g'.name = g0.name ∧ g'.type = g0.type := by rcases e with e | e <;> subst e <;> exact ⟨rfl, rfl⟩
    rw [en.2] at ht'
    rw [en.1]
    intro i h1 hi hname
    rcases List.mem_append.1 hg0 with h2 | h2
    · have := h.clean g0 h2 ht' i h1 hi hname
      exact ⟨by omega, this.2⟩
    · simp at h2; subst h2
      rw [hn] at hname
      have := H.name_inj hi hj hname.symm
      subst this
      exact ⟨by omega, hL⟩
  · intro k hk hkL
    have hkj := lt_of hk hkL
    obtain ⟨a, b, c⟩ := h.iner k hkj hkL
    have hlen : rank L k < m.inertias.length := by rw [h.inv.lens.inertias, h.nj]; exact rank_lt hkj hkL
    simp only [sum_filter, sum_range_succ] at b c ⊢
    unfold Model.inertia at a b c ⊢
    dsimp only
    rw [getD_modify _ _ _ _ _ hlen, hpj]
    by_cases e : (inp.att L qref j).1 = k
    · rw [if_pos (by rw [e]), if_pos e, if_pos e]
      obtain ⟨f1, f2⟩ := fine_add (X := m.inertias.getD (rank L k) 0) (Y := (inp.inertias.getD j 0).act g.placement) a
        (H.mass j hj)
      refine ⟨?_, ?_, ?_⟩
      · rw [f2]; exact a.add (H.mass j hj)
      · rw [f2]; exact congrArg (· + _) b
      · rw [f1, hpl]; exact congrArg (· + _) c
    · have : ¬ rank L (inp.att L qref j).1 = rank L k := fun e' => e (rank_inj halt.2 hkL e')
      rw [if_neg this, if_neg e, if_neg e, add_zero, add_zero]
      exact ⟨a, b, c⟩

theorem RInv.lockJoint {s s' : RState K (Joint K)} {j : ℕ} (H : RHyp inp L) (h : RInv inp L qref j s.m)
    (hj : j < inp.njoints) (hL : j ∈ L) {e : JEntry (Joint K)} (he : inp.joints[j]? = some e) {p : ℕ × SE3 K × ℕ}
    (hp : reducedParent s.m (inp.name (inp.par j)) = some (some p))
    (hs : Model.lockJoint inp L qref s j (inp.name j) e p = .ok s' ()) :
    RInv inp L qref (j + 1) s'.m ∧ s'.cur = s.cur + 1 := by
  obtain ⟨h1, hpar, hatt⟩ := H.att_lock (qref := qref) hj hL
  obtain ⟨p1, p2⟩ := h.parent H (by omega) hpar hp
  have halt := H.att_lt (qref := qref) hj
  unfold Model.lockJoint at hs
  split at hs
  · cases hs
  · cases hs
  rename_i m fi _ hc
  have hm : RInv inp L qref j m := by
    refine copyUpTo_ok (RInv inp L qref j) ?_ _ _ _ _ h hc
    intro m f g hf hgn hgt hm
    refine hm.frame g fun ht i h1 hi hname => ?_
    rw [hgt] at ht
    rw [hgn] at hname
    exact absurd hname (H.fixed f hf ht i h1 hi)
  have hM : inp.jointM qref j = e.desc.payload.M (seg (fun k => qref.getD k 0) e.idx_q) := by
    simp [jointM, he]
  have hli : p.2.1 * inp.jointPlacements.getD j 1 * e.desc.payload.M (seg (fun k => qref.getD k 0) e.idx_q)
      = (inp.att L qref j).2 := by
    rw [hatt, p2, hM]; rfl
  have hp1 : p.1 = rank L (inp.att L qref j).1 := by rw [hatt, p1]
  dsimp only at hs
  rw [hli, hp1] at hs
  have hjt : rank L (inp.att L qref j).1 < m.njoints := by
    rw [hm.nj, hatt]
    have := H.att_lt (qref := qref) (p := inp.par j) (by omega)
    exact rank_lt (by omega) this.2
  have hex : m.existFrame (inp.name j) FIXED_JOINT = false := by
    unfold existFrame
    rw [List.any_eq_false]
    intro g hg hf
    simp only [filterFrame, Bool.and_eq_true, bne_iff_ne, beq_iff_eq] at hf
    have := hm.clean g hg hf.1 j h1 hj hf.2.symm
    omega
  unfold addFrame at hs
  rw [if_neg (by simpa using hjt)] at hs
  dsimp only at hs
  rw [hex] at hs
  simp only [Bool.false_eq_true, if_false, if_true, Res.ok.injEq, and_true] at hs
  subst hs
  exact ⟨hm.lock H hj hL ⟨inp.name j, _, _, _, FIXED_JOINT, inp.inertias.getD j 0⟩ rfl rfl rfl rfl _ rfl, rfl⟩

theorem inv_rotor {m : Model K P} (h : Inv m) (a b : List K) (ha : a.length = m.nv) (hb : b.length = m.nv) :
    Inv { m with rotorInertia := a, rotorGearRatio := b } := by
  have hl := h.lens
  exact ⟨⟨hl.pos, hl.inertias, hl.jointPlacements, hl.joints, hl.idx_qs, hl.nqs, hl.idx_vs,
    hl.nvs, hl.idx_vxs, hl.nvxs, hl.parents, hl.children, hl.names, hl.supports, hl.mimicSupports,
    hl.subtrees, hl.nframes, hl.armature, ha, hb, hl.friction, hl.damping,
    hl.effortLimit, hl.velocityLimit, hl.lowerPositionLimit, hl.upperPositionLimit⟩,
    h.par, h.qsum, h.vsum, h.vxsum, h.q0, h.v0, h.vx0, h.idxq, h.idxv, h.idxvx, h.ent, h.chi, h.sup0,
    h.sup, h.sub⟩

theorem sum_take_le (l : List ℕ) (i : ℕ) (hi : i < l.length) : (l.take i).sum + l[i] ≤ l.sum := by
  rw [← List.sum_take_succ]
  conv_rhs => rw [← List.take_append_drop (i + 1) l, List.sum_append]
  exact Nat.le_add_right _ _

/-- the segments of a joint that is not a mimic joint are inside the vectors -/
theorem seg_in {m : Model K P} (h : Inv m) {i : ℕ} {e : JEntry P} (he : m.joints[i]? = some e) (hm : e.desc.mimic = none) :
    e.idx_v + e.desc.nv ≤ m.nv ∧ e.idx_q + e.desc.nq ≤ m.nq := by
  have hi : i < m.njoints := by
    rw [← h.lens.joints]
    by_contra hc
    rw [List.getElem?_eq_none (by omega)] at he; cases he
  obtain ⟨-, -, -, -, hq, hv, -, hidx⟩ := h.ent i e he
  obtain ⟨e1, e2⟩ := hidx hm
  have hlv : i < m.nvs.length := by rw [h.lens.nvs]; exact hi
  have hlq : i < m.nqs.length := by rw [h.lens.nqs]; exact hi
  rw [List.getElem?_eq_getElem hlv] at hv
  rw [List.getElem?_eq_getElem hlq] at hq
  rw [e1, e2, ← h.vsum, ← h.qsum, ← Option.some.inj hv, ← Option.some.inj hq]
  exact ⟨sum_take_le _ _ hlv, sum_take_le _ _ hlq⟩

/-- what keeping a joint does to the reduced model -/
theorem RInv.keep {j : ℕ} {m m1 m' : Model K (Joint K)} (H : RHyp inp L) (h : RInv inp L qref j m) (h1 : 1 ≤ j)
    (hj : j < inp.njoints) (hL : j ∉ L) {e o : JEntry (Joint K)} (he : inp.joints[j]? = some e) {d : JDesc (Joint K)}
    (hd : d.payload = e.desc.payload ∧ d.nq = e.desc.nq ∧ d.nv = e.desc.nv ∧ d.nvx = e.desc.nvx ∧
      (d.mimic = none ↔ e.desc.mimic = none))
    (hx : ∀ x, e.desc.mimic = some x → x.1 < j ∧ x.1 ∉ L ∧ ∃ p : JEntry (Joint K), m.joints[rank L x.1]? = some p ∧
      d.mimic = some (rank L x.1, p.idx_q, p.idx_v) ∧ o.idx_q = p.idx_q ∧ o.idx_v = p.idx_v)
    {a : JointArgs K (Joint K)}
    (ha : a = ⟨rank L (inp.att L qref (inp.par j)).1, d, (inp.att L qref (inp.par j)).2 * inp.pl j, inp.name j,
      selV e inp.effortLimit, selV e inp.velocityLimit, selQ e inp.lowerPositionLimit, selQ e inp.upperPositionLimit,
      selV e inp.friction, selV e inp.damping⟩)
    (hA : ArgsOk m a) (hok : OpOk m (.addJoint a)) (ad : Added m a o m1)
    (hm : m' = { m1 with
      inertias := m1.inertias.modify m.njoints (fun X => X + (inp.inertia j).act 1)
      nbodies := m1.nbodies + 1
      rotorInertia := setSeg m1.rotorInertia o.idx_v (selV e inp.rotorInertia)
      rotorGearRatio := setSeg m1.rotorGearRatio o.idx_v (selV e inp.rotorGearRatio) }) :
    RInv inp L qref (j + 1) m' := by
  have hI := inv_added h.inv hA hok ad
  obtain ⟨l1, l2, l3, l4, l5, l6, l7⟩ := hA
  obtain ⟨d1, d2, d3, d4, d5⟩ := hd
  have hl := h.inv.lens
  have hil := H.inv.lens
  subst ha
  dsimp only at l1 l2 l3 l4 l5 l6 l7
  have lenV : ∀ x : List K, x.length = inp.nv → (selV e x).length = d.nv := by
    intro x hx
    rw [← l1]
    simp [selV, hx, hil.effortLimit]
  have od := ad.desc
  have idv : d.nv = 0 ∨ o.idx_v = m.nv := by
    by_cases hc : d.mimic = none
    · exact Or.inr (ad.plain hc).2
    · refine Or.inl ?_
      rw [d3]; exact (H.mimic j e he fun hn => hc (d5.2 hn)).2
  have idq : d.nq = 0 ∨ o.idx_q = m.nq := by
    by_cases hc : d.mimic = none
    · exact Or.inr (ad.plain hc).1
    · refine Or.inl ?_
      rw [d2]; exact (H.mimic j e he fun hn => hc (d5.2 hn)).1
  have rI : setSeg m1.rotorInertia o.idx_v (selV e inp.rotorInertia) = m.rotorInertia ++ selV e inp.rotorInertia := by
    rw [ad.rotorInertia]
    apply setSeg_last
    · simp [lenV _ hil.rotorInertia]
    · rcases idv with hv | hv
      · left; apply List.length_eq_zero_iff.1; rw [lenV _ hil.rotorInertia, hv]
      · right; rw [hv, hl.rotorInertia]
  have rG : setSeg m1.rotorGearRatio o.idx_v (selV e inp.rotorGearRatio)
      = m.rotorGearRatio ++ selV e inp.rotorGearRatio := by
    rw [ad.rotorGearRatio]
    apply setSeg_last
    · simp [lenV _ hil.rotorGearRatio]
    · rcases idv with hv | hv
      · left; apply List.length_eq_zero_iff.1; rw [lenV _ hil.rotorGearRatio, hv]
      · right; rw [hv, hl.rotorGearRatio]
  rw [rI, rG] at hm
  have hnj := h.nj
  subst hm
  refine ⟨?_, ?_, ?_, ?_, ?_, ?_, ?_, ?_, ?_⟩
  · refine inv_rotor (inv_frames hI _ m1.frames m1.nframes (m1.nbodies + 1) (List.length_modify ..) hI.lens.nframes) _ _ ?_ ?_
    · dsimp only; rw [ad.nv]; simp [hl.rotorInertia, lenV _ hil.rotorInertia]
    · dsimp only; rw [ad.nv]; simp [hl.rotorGearRatio, lenV _ hil.rotorGearRatio]
  · dsimp only
    rw [ad.njoints, rank_succ_of_not_mem hL, hnj]
  · dsimp only
    rw [ad.names, keptBefore_succ_of_not_mem hL, h.names]
    simp
  · intro i hi1 hi hiL
    rcases Nat.lt_succ_iff_lt_or_eq.1 hi with hlt | rfl
    · obtain ⟨⟨a, e0, o0, b1, b2, b3, b4, b5, b6, b7, b8, b9, b10, b11, b12, b13, b14, b15⟩, c1, c2⟩ := h.kept i hi1 hlt hiL
      have hk : rank L i < m.njoints := by rw [hnj]; exact rank_lt hlt hiL
      have sv : o0.desc.nv = 0 ∨ o0.idx_v + o0.desc.nv ≤ m.nv := by
        by_cases hc : o0.desc.mimic = none
        · exact Or.inr (seg_in h.inv b2 hc).1
        · left; rw [b5]; exact (H.mimic i e0 b1 fun hn => hc (b7.2 hn)).2
      have sq : o0.desc.nq = 0 ∨ o0.idx_q + o0.desc.nq ≤ m.nq := by
        by_cases hc : o0.desc.mimic = none
        · exact Or.inr (seg_in h.inv b2 hc).2
        · left; rw [b4]; exact (H.mimic i e0 b1 fun hn => hc (b7.2 hn)).1
      refine ⟨⟨?_, e0, o0, b1, ?_, b3, b4, b5, b6, b7, ?_, ?_, ?_, ?_, ?_, ?_, ?_, ?_⟩, ?_, ?_⟩
      · unfold Model.name at a ⊢; dsimp only
        rw [ad.names, getD_append_lt _ _ _ (by rw [hl.names]; exact hk)]; exact a
      · dsimp only
        rw [ad.joints, List.getElem?_append_left (by rw [hl.joints]; exact hk)]; exact b2
      · dsimp only; rw [ad.effortLimit, selV_append (by rw [hl.effortLimit]; exact sv)]; exact b8
      · dsimp only; rw [ad.velocityLimit, selV_append (by rw [hl.velocityLimit]; exact sv)]; exact b9
      · dsimp only; rw [ad.lowerPositionLimit, selQ_append (by rw [hl.lowerPositionLimit]; exact sq)]; exact b10
      · dsimp only; rw [ad.upperPositionLimit, selQ_append (by rw [hl.upperPositionLimit]; exact sq)]; exact b11
      · dsimp only; rw [ad.friction, selV_append (by rw [hl.friction]; exact sv)]; exact b12
      · dsimp only; rw [ad.damping, selV_append (by rw [hl.damping]; exact sv)]; exact b13
      · dsimp only; rw [selV_append (by rw [hl.rotorInertia]; exact sv)]; exact b14
      · dsimp only; rw [selV_append (by rw [hl.rotorGearRatio]; exact sv)]; exact b15
      · unfold Model.par at c1 ⊢; dsimp only
        rw [ad.parents, getD_append_lt _ _ _ (by rw [hl.parents]; exact hk)]; exact c1
      · unfold Model.pl at c2 ⊢; dsimp only
        rw [ad.jointPlacements, getD_append_lt _ _ _ (by rw [hl.jointPlacements]; exact hk)]; exact c2
    · have dv : o.desc.nv = 0 ∨ o.idx_v = m.nv := by rw [od]; exact idv
      have dq : o.desc.nq = 0 ∨ o.idx_q = m.nq := by rw [od]; exact idq
      refine ⟨⟨?_, e, o, he, ?_, ?_, ?_, ?_, ?_, ?_, ?_, ?_, ?_, ?_, ?_, ?_, ?_, ?_⟩, ?_, ?_⟩
      · unfold Model.name; dsimp only
        rw [ad.names, getD_append_eq _ _ _ (by rw [hl.names, hnj])]; rfl
      · dsimp only; rw [ad.joints, ← hnj, ← hl.joints]; simp
      · rw [od]; exact d1
      · rw [od]; exact d2
      · rw [od]; exact d3
      · rw [od]; exact d4
      · rw [od]; exact d5
      · dsimp only; rw [ad.effortLimit]; exact selV_last (by rw [l1, od]) (by rw [hl.effortLimit]; exact dv)
      · dsimp only; rw [ad.velocityLimit]; exact selV_last (by rw [l2, od]) (by rw [hl.velocityLimit]; exact dv)
      · dsimp only; rw [ad.lowerPositionLimit]; exact selQ_last (by rw [l3, od]) (by rw [hl.lowerPositionLimit]; exact dq)
      · dsimp only; rw [ad.upperPositionLimit]; exact selQ_last (by rw [l4, od]) (by rw [hl.upperPositionLimit]; exact dq)
      · dsimp only; rw [ad.friction]; exact selV_last (by rw [l5, od]) (by rw [hl.friction]; exact dv)
      · dsimp only; rw [ad.damping]; exact selV_last (by rw [l6, od]) (by rw [hl.damping]; exact dv)
      · dsimp only; exact selV_last (by rw [lenV _ hil.rotorInertia, od]) (by rw [hl.rotorInertia]; exact dv)
      · dsimp only; exact selV_last (by rw [lenV _ hil.rotorGearRatio, od]) (by rw [hl.rotorGearRatio]; exact dv)
      · unfold Model.par; dsimp only
        rw [ad.parents, getD_append_eq _ _ _ (by rw [hl.parents, hnj])]; rfl
      · unfold Model.pl; dsimp only
        rw [ad.jointPlacements, getD_append_eq _ _ _ (by rw [hl.jointPlacements, hnj])]; rfl
  · intro i e0 x hi1 hi hiL he0 hmx
    dsimp only
    rw [ad.joints]
    have hup : ∀ {k : ℕ} {p : JEntry (Joint K)}, m.joints[k]? = some p → (m.joints ++ [o])[k]? = some p := by
      intro k p hk
      rw [List.getElem?_append_left]
      · exact hk
      · by_contra hc
        rw [List.getElem?_eq_none (by omega)] at hk; cases hk
    rcases Nat.lt_succ_iff_lt_or_eq.1 hi with hlt | rfl
    · obtain ⟨a1, a2, o0, p, a3, a4, a5⟩ := h.mim i e0 x hi1 hlt hiL he0 hmx
      exact ⟨a1, a2, o0, p, hup a3, hup a4, a5⟩
    · rw [he] at he0
      obtain rfl := Option.some.inj he0
      obtain ⟨a1, a2, p, a3, a4, a5⟩ := hx x hmx
      exact ⟨a1, a2, o, p, by rw [← hnj, ← hl.joints]; simp, hup a3, by rw [od]; exact a4, a5⟩
  · intro i hi1 hi hiL
    have hlt : i < j := by
      rcases Nat.lt_succ_iff_lt_or_eq.1 hi with e | e
      · exact e
      · subst e; exact absurd hiL hL
    dsimp only
    rw [ad.frames]
    exact h.fix i hi1 hlt hiL
  · dsimp only
    rw [ad.frames]
    intro g hg ht i hi1 hi hname
    have := h.clean g hg ht i hi1 hi hname
    exact ⟨by omega, this.2⟩
  · dsimp only
    rw [ad.armature]
    intro x hx
    rcases List.mem_append.1 hx with hx | hx
    · exact h.arm x hx
    · exact (List.mem_replicate.1 hx).2
  · intro k hk hkL
    unfold Model.inertia
    dsimp only
    rw [ad.inertias]
    have hjj : inp.att L qref j = (j, 1) := attach_kept hL
    rcases Nat.lt_succ_iff_lt_or_eq.1 hk with hlt | rfl
    · obtain ⟨a, b, c⟩ := h.iner k hlt hkL
      have hlen : rank L k < m.inertias.length := by rw [hl.inertias, hnj]; exact rank_lt hlt hkL
      simp only [sum_filter, sum_range_succ] at b c ⊢
      rw [getD_modify _ _ _ _ _ (by simp; omega), getD_append_lt _ _ _ hlen,
        if_neg (by rw [hnj]; have := rank_lt hlt hkL; omega), hjj, if_neg (by simp; omega), if_neg (by simp; omega),
        add_zero, add_zero]
      exact ⟨a, b, c⟩
    · have hz : ∀ i < k, (inp.att L qref i).1 ≠ k := by
        intro i hi
        have := (H.att_lt (qref := qref) (p := i) (by omega)).1
        omega
      simp only [sum_filter, sum_range_succ]
      rw [sum_eq_zero (by intro i hi; rw [if_neg (hz i (mem_range.1 hi))]),
        sum_eq_zero (by intro i hi; rw [if_neg (hz i (mem_range.1 hi))]), zero_add, zero_add, hjj, if_pos rfl, if_pos rfl,
        getD_modify _ _ _ _ _ (by simp [hl.inertias, hnj]), if_pos hnj,
        getD_append_eq _ _ _ (by rw [hl.inertias, hnj])]
      obtain ⟨f1, f2⟩ := fine_add (X := (0 : Inertia K)) (Y := (inp.inertias.getD k 0).act 1) massFine_zero (H.mass k hj)
      refine ⟨?_, ?_, ?_⟩
      · rw [f2]; exact massFine_zero.add (H.mass k hj)
      · rw [f2]
        change 0 + _ = _
        rw [zero_add]; rfl
      · rw [f1]
        have : (0 : Inertia K).matrix = 0 := by
          ext <;> simp [Inertia.matrix, M3.alphaSkew, Sym3.subAlphaSkewSquare, Sym3.matrix]
        rw [this, zero_add]

theorem addJoint_mimic {m m' : Model K P} {a : JointArgs K P} {id : ℕ} {o : JEntry P} {x : ℕ × ℕ × ℕ}
    (h : m.addJoint a = .ok m' id) (ad : Added m a o m') (hx : a.joint.mimic = some x) : o.idx_q = x.2.1 ∧ o.idx_v = x.2.2 := by
  have hj := ad.joints
  unfold addJoint at h
  split at h
  · cases h
  split at h
  · cases h
  split at h
  · cases h
  split at h
  · cases h
  split at h
  · cases h
  split at h
  · cases h
  split at h
  · cases h
  dsimp only at h
  split at h
  · cases h
  · rename_i e he
    simp only [Res.ok.injEq] at h
    have h1 := congrArg Model.joints h.1
    dsimp only at h1
    rw [hj] at h1
    have h2 := List.append_cancel_left h1
    simp only [List.cons.injEq, and_true] at h2
    subst h2
    obtain ⟨mid, mq, mv⟩ := x
    unfold JDesc.setIndexes at he
    rw [hx] at he
    dsimp only at he
    split at he
    · rw [← Option.some.inj he]; exact ⟨rfl, rfl⟩
    · cases he

theorem RInv.keepJoint {s s' : RState K (Joint K)} {j : ℕ} (H : RHyp inp L) (h : RInv inp L qref j s.m) (h1 : 1 ≤ j)
    (hj : j < inp.njoints) (hL : j ∉ L) {e : JEntry (Joint K)} (he : inp.joints[j]? = some e) {p : ℕ × SE3 K × ℕ}
    (hp : reducedParent s.m (inp.name (inp.par j)) = some (some p))
    (hs : Model.keepJoint inp s j (inp.name j) e p = .ok s' ()) :
    RInv inp L qref (j + 1) s'.m ∧ s'.cur = s.cur := by
  obtain ⟨p1, p2⟩ := h.parent H (by omega) (H.inv.par j h1 hj) hp
  unfold Model.keepJoint at hs
  split at hs
  · cases hs
  rename_i d hd
  have hdd : d.payload = e.desc.payload ∧ d.nq = e.desc.nq ∧ d.nv = e.desc.nv ∧ d.nvx = e.desc.nvx ∧
      (d.mimic = none ↔ e.desc.mimic = none) ∧
      (∀ x, e.desc.mimic = some x → x.1 < j ∧ x.1 ∉ L ∧ ∃ p : JEntry (Joint K), s.m.joints[rank L x.1]? = some p ∧
        d.mimic = some (rank L x.1, p.idx_q, p.idx_v)) := by
    unfold keptDesc at hd
    split at hd
    · rename_i hn
      obtain rfl := Option.some.inj hd
      exact ⟨rfl, rfl, rfl, rfl, Iff.rfl, fun x hx => by rw [hn] at hx; cases hx⟩
    · rename_i mid a b hmm
      dsimp only at hd
      split at hd
      · rename_i q v hq hv
        obtain rfl := Option.some.inj hd
        refine ⟨rfl, rfl, rfl, rfl, by simp [hmm], fun x hx => ?_⟩
        rw [hmm] at hx
        obtain rfl := Option.some.inj hx
        have hmid : mid < inp.njoints := H.mimicked j e _ he hmm
        have hlt : s.m.getJointId (inp.names.getD mid "") < s.m.njoints := by
          rw [← h.inv.lens.idx_qs]
          by_contra hc
          rw [List.getElem?_eq_none (by omega)] at hq; cases hq
        have hex : s.m.existJointName (inp.name mid) = true := by
          unfold getJointId at hlt
          rw [← h.inv.lens.names, List.findIdx_lt_length] at hlt
          unfold existJointName
          rw [List.any_eq_true]
          obtain ⟨y, hy, hyy⟩ := hlt
          refine ⟨y, hy, ?_⟩
          exact hyy
        obtain ⟨m1, m2⟩ := (h.exist H (by omega) hmid).1 hex
        have hid := h.jointId H (by omega) m1 m2
        unfold Model.name at hid
        rw [hid] at hq hv ⊢
        have hjl : rank L mid < s.m.joints.length := by
          rw [h.inv.lens.joints, ← hid]; exact hlt
        have hjj := List.getElem?_eq_getElem hjl
        obtain ⟨-, e1, e2, -⟩ := h.inv.ent _ _ hjj
        rw [e1] at hq
        rw [e2] at hv
        refine ⟨m1, m2, _, hjj, ?_⟩
        rw [Option.some.inj hq, Option.some.inj hv]
      · cases hd
  obtain ⟨d1, d2, d3, d4, d5, d6⟩ := hdd
  have hok : OpOk s.m (.addJoint ⟨p.1, d, p.2.1 * inp.jointPlacements.getD j 1, inp.name j, selV e inp.effortLimit,
        selV e inp.velocityLimit, selQ e inp.lowerPositionLimit, selQ e inp.upperPositionLimit, selV e inp.friction,
        selV e inp.damping⟩) := by
    intro x hx
    dsimp only at hx ⊢
    have hne : e.desc.mimic ≠ none := fun hn => by rw [d5.2 hn] at hx; cases hx
    obtain ⟨a, b⟩ := H.mimic j e he hne
    obtain ⟨y, hy⟩ := Option.ne_none_iff_exists'.1 hne
    obtain ⟨y1, y2, p', y3, y4⟩ := d6 y hy
    refine ⟨d2.trans a, d3.trans b, ?_⟩
    rw [y4] at hx
    rw [← Option.some.inj hx]
    dsimp only
    rw [h.nj]; exact rank_lt y1 y2
  rcases addJoint_cases s.m _ h.inv hok with ⟨-, ht⟩ | ⟨hA, o, m1, hadd, ad⟩
  · rw [ht] at hs; cases hs
  rw [hadd] at hs
  dsimp only at hs
  have hlen : s.m.njoints < m1.inertias.length := by
    rw [ad.inertias]; simp [h.inv.lens.inertias]
  unfold appendBodyToJoint at hs
  rw [if_neg (by omega)] at hs
  dsimp only at hs
  have hjo : m1.joints[s.m.njoints]? = some o := by
    rw [ad.joints, ← h.inv.lens.joints]; simp
  rw [hjo] at hs
  dsimp only at hs
  obtain ⟨rfl, -⟩ := Res.ok.inj hs
  refine ⟨?_, rfl⟩
  dsimp only
  refine h.keep H h1 hj hL he (d := d) ⟨d1, d2, d3, d4, d5⟩ ?_ rfl ?_ ?_ (o := o) (m1 := m1) ?_ rfl
  · intro x hx
    obtain ⟨x1, x2, p', x3, x4⟩ := d6 x hx
    refine ⟨x1, x2, p', x3, x4, ?_⟩
    exact addJoint_mimic (x := (rank L x.1, p'.idx_q, p'.idx_v)) hadd ad x4
  · rw [p1, p2] at hA; exact hA
  · rw [p1, p2] at hok; exact hok
  · rw [p1, p2] at ad; exact ad

/-- position in the sorted list of joints to lock when joint `j` is about to be processed -/
def CurOk (L : List ℕ) (j cur : ℕ) : Prop :=
  (∀ k (hk : k < L.length), k < cur → L[k] < j) ∧ ∀ k (hk : k < L.length), cur ≤ k → j ≤ L[k]

theorem CurOk.iff {j cur : ℕ} (h : CurOk L j cur) (hs : L.Pairwise (· < ·)) (h1 : 1 ≤ j) : j = L.getD cur 0 ↔ j ∈ L := by
  constructor
  · intro e
    have : cur < L.length := by
      by_contra hc
      rw [List.getD_eq_default _ _ (by omega)] at e
      omega
    rw [e, List.getD_eq_getElem _ _ this]
    exact List.getElem_mem _
  · intro hj
    obtain ⟨k, hk, e⟩ := List.getElem_of_mem hj
    have hck : cur ≤ k := by
      by_contra hc
      have := h.1 k hk (by omega)
      omega
    have hcl : cur < L.length := by omega
    rw [List.getD_eq_getElem _ _ hcl]
    have a := h.2 cur hcl le_rfl
    rcases Nat.lt_or_eq_of_le hck with hlt | heq
    · have := List.pairwise_iff_getElem.1 hs cur k hcl hk hlt
      omega
    · subst heq; exact e.symm

theorem CurOk.lock {j cur : ℕ} (h : CurOk L j cur) (hs : L.Pairwise (· < ·)) (h1 : 1 ≤ j) (hj : j ∈ L) :
    CurOk L (j + 1) (cur + 1) := by
  have e := (h.iff hs h1).2 hj
  have hcl : cur < L.length := by
    by_contra hc
    rw [List.getD_eq_default _ _ (by omega)] at e
    omega
  rw [List.getD_eq_getElem _ _ hcl] at e
  constructor
  · intro k hk hlt
    rcases Nat.lt_succ_iff_lt_or_eq.1 hlt with a | a
    · have := h.1 k hk a; omega
    · subst a; omega
  · intro k hk hle
    have := List.pairwise_iff_getElem.1 hs cur k hcl hk (by omega)
    omega

theorem CurOk.keep {j cur : ℕ} (h : CurOk L j cur) (hj : j ∉ L) : CurOk L (j + 1) cur := by
  constructor
  · intro k hk hlt
    have := h.1 k hk hlt; omega
  · intro k hk hle
    have := h.2 k hk hle
    have : L[k] ≠ j := fun e => hj (e ▸ List.getElem_mem _)
    omega

theorem RInv.step {s s' : RState K (Joint K)} {j : ℕ} (H : RHyp inp L) (hs : L.Pairwise (· < ·))
    (h : RInv inp L qref j s.m) (hc : CurOk L j s.cur) (h1 : 1 ≤ j) (hj : j < inp.njoints)
    (hst : reduceStep inp L qref s j = .ok s' ()) : RInv inp L qref (j + 1) s'.m ∧ CurOk L (j + 1) s'.cur := by
  unfold reduceStep at hst
  dsimp only at hst
  rw [name_getElem H.inv hj] at hst
  have hjl : j < inp.joints.length := by rw [H.inv.lens.joints]; exact hj
  rw [List.getElem?_eq_getElem hjl] at hst
  dsimp only at hst
  split at hst
  · cases hst
  · cases hst
  · rename_i p hp
    by_cases hjL : j ∈ L
    · rw [if_pos ((hc.iff hs h1).2 hjL)] at hst
      obtain ⟨a, b⟩ := h.lockJoint H hj hjL (List.getElem?_eq_getElem hjl) hp hst
      rw [b]
      exact ⟨a, hc.lock hs h1 hjL⟩
    · rw [if_neg (fun e => hjL ((hc.iff hs h1).1 e))] at hst
      obtain ⟨a, b⟩ := h.keepJoint H h1 hj hjL (List.getElem?_eq_getElem hjl) hp hst
      rw [b]
      exact ⟨a, hc.keep hjL⟩

theorem RInv.loop (H : RHyp inp L) (hs : L.Pairwise (· < ·)) : ∀ (k j : ℕ) (s s' : RState K (Joint K)), 1 ≤ j →
    j + k = inp.njoints → RInv inp L qref j s.m → CurOk L j s.cur →
    reduceLoop inp L qref (List.range' j k) s = .ok s' () → RInv inp L qref inp.njoints s'.m := by
  intro k
  induction k with
  | zero =>
    intro j s s' _ hk h _ hl
    simp only [List.range'_zero, reduceLoop, Res.ok.injEq, and_true] at hl
    subst hl
    rw [← hk]; exact h
  | succ k ih =>
    intro j s s' h1 hk h hc hl
    rw [List.range'_succ] at hl
    unfold reduceLoop at hl
    split at hl
    · rename_i s1 _ he
      obtain ⟨a, b⟩ := h.step H hs hc h1 (by omega) he
      exact ih (j + 1) s1 s' (by omega) (by omega) a b hl
    · cases hl
    · cases hl

theorem empty_eq (p0 : P) : (empty p0 : Model K P) = { (bare p0 : Model K P) with
    frames := [universeFrame], nframes := 1, inertias := (empty p0 : Model K P).inertias } ∧
    (empty p0 : Model K P).inertias.length = 1 := by
  constructor <;> rfl

theorem act_one_matrix (Y : Inertia K) : (Y.act 1).matrix = Y.matrix := by
  have : Y.act 1 = Y := by
    ext <;> simp [Inertia.act, Sym3.rotate]
    ring
  rw [this]

theorem RInv.init (H : RHyp inp L) (p0 : Joint K) (hu : ∀ i, 1 ≤ i → i < inp.njoints → inp.name i ≠ "universe") :
    RInv inp L qref 1 (reduceInit inp p0) := by
  obtain ⟨c0, hc0⟩ := H.j0
  have hg : inp.joints.getD 0 ⟨⟨p0, 0, 0, 0, none⟩, 0, 0, 0, 0⟩ = ⟨⟨c0, 0, 0, 0, none⟩, 0, 0, 0, 0⟩ := by
    rw [List.getD, hc0]; rfl
  have h0 : keptBefore L 1 = [0] := by
    rw [keptBefore_succ_of_not_mem H.lock]; rfl
  have r0 : rank L 0 = 0 := rfl
  have hpos := H.inv.lens.pos
  refine ⟨⟨?_, ?_, ?_, ?_, ?_, ?_, ?_, ?_, ?_, ?_, ?_, ?_, ?_, ?_, ?_, ?_⟩, ?_, ?_, ?_, ?_, ?_, ?_, ?_, ?_⟩
  · constructor <;> rfl
  · intro i h1 hi
    have : i < 1 := hi
    omega
  · rfl
  · rfl
  · rfl
  · rfl
  · rfl
  · rfl
  · intro i hi hne
    have : i < 1 := hi
    obtain rfl : i = 0 := by omega
    exact absurd rfl hne
  · intro i hi hne
    have : i < 1 := hi
    obtain rfl : i = 0 := by omega
    exact absurd rfl hne
  · intro i hi
    have : i < 1 := hi
    obtain rfl : i = 0 := by omega
    rfl
  · intro i e he
    change [inp.joints.getD 0 ⟨⟨p0, 0, 0, 0, none⟩, 0, 0, 0, 0⟩][i]? = some e at he
    rw [hg] at he
    have : i < 1 := by
      by_contra hc
      rw [List.getElem?_eq_none (by simp; omega)] at he; cases he
    obtain rfl : i = 0 := by omega
    obtain rfl := Option.some.inj he
    exact ⟨rfl, rfl, rfl, rfl, rfl, rfl, rfl, fun _ => ⟨rfl, rfl⟩⟩
  · intro p hp
    have : p < 1 := hp
    obtain rfl : p = 0 := by omega
    rfl
  · rfl
  · intro i h1 hi
    have : i < 1 := hi
    omega
  · intro i hi
    have : i < 1 := hi
    obtain rfl : i = 0 := by omega
    rfl
  · rw [rank, h0]; rfl
  · rw [h0]; rfl
  · intro i h1 hi; omega
  · intro i e x h1 hi; omega
  · intro i h1 hi; omega
  · intro g hg ht i h1 hi hn
    have : g = universeFrame := by
      change g ∈ [universeFrame] at hg
      simpa using hg
    subst this
    exact absurd hn.symm (hu i h1 hi)
  · intro x hx
    cases hx
  · intro k hk hkL
    have : k = 0 := by omega
    subst this
    have ha : inp.att L qref 0 = (0, 1) := attach_kept H.lock
    have hi : (reduceInit inp p0).inertia (rank L 0) = inp.inertia 0 := rfl
    rw [hi]
    refine ⟨H.mass 0 (by omega), ?_, ?_⟩
    · simp [sum_filter, ha]
    · simp [sum_filter, ha, act_one_matrix]

end Model
end Pin
