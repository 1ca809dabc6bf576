import Verif.Algo.PvDelassusTab

/-! # `initPvDelassus` on new data fills the tables -/

namespace Pin
open Finset Classical

variable {K : Type*} {par : ℕ → ℕ} {n : ℕ} {ms : ℕ → RCM K} {nc : ℕ}

/-- the joint and the dimension of a contact -/
def jOf (ms : ℕ → RCM K) (c : ℕ) : ℕ := (ms c).j1
def dOf (ms : ℕ → RCM K) (c : ℕ) : ℕ := (ms c).type.dim

theorem dOf_pos (ms : ℕ → RCM K) (c : ℕ) : 0 < dOf ms c := by
  unfold dOf; cases (ms c).type <;> simp [CType.dim]

theorem accOwn_ok (ms : ℕ → RCM K) (nc : ℕ) :
    let t := upTo (accOwn ms) nc AccTab.new
    (∀ i, t.dim i = ∑ c ∈ (range nc).filter (fun c => jOf ms c = i), dOf ms c) ∧
    (∀ i, (∃ c < nc, jOf ms c = i) → t.desc i = i) ∧ (∀ i, (¬ ∃ c < nc, jOf ms c = i) → t.desc i = 0) ∧
    (∀ i c, c ∈ t.on i ↔ c < nc ∧ jOf ms c = i) ∧ t.sup = (fun _ => ∅) ∧ t.anc = (fun _ => 0) ∧ t.joints = [] := by
  refine upTo_ind (fun k (t : AccTab) =>
    (∀ i, t.dim i = ∑ c ∈ (range k).filter (fun c => jOf ms c = i), dOf ms c) ∧
    (∀ i, (∃ c < k, jOf ms c = i) → t.desc i = i) ∧ (∀ i, (¬ ∃ c < k, jOf ms c = i) → t.desc i = 0) ∧
    (∀ i c, c ∈ t.on i ↔ c < k ∧ jOf ms c = i) ∧ t.sup = (fun _ => ∅) ∧ t.anc = (fun _ => 0) ∧ t.joints = [])
    ⟨fun i => by simp [AccTab.new], fun i ⟨c, hc, _⟩ => by omega, fun _ _ => rfl, fun i c => by simp [AccTab.new], rfl, rfl,
      rfl⟩ ?_
  rintro k t hk ⟨a1, a2, a3, a4, a5, a6, a7⟩
  unfold accOwn
  dsimp only
  refine ⟨fun i => ?_, fun i hi => ?_, fun i hi => ?_, fun i c => ?_, a5, a6, a7⟩
  · rw [range_add_one, filter_insert]
    by_cases e : i = (ms k).j1
    · subst e
      rw [upd_self, if_pos (show jOf ms k = (ms k).j1 from rfl), sum_insert (by simp), a1, add_comm]; rfl
    · rw [upd_ne _ _ e, if_neg (fun h => e h.symm), a1]
  · by_cases e : i = (ms k).j1
    · rw [e, upd_self]
    · rw [upd_ne _ _ e]
      obtain ⟨c, hc, hj⟩ := hi
      refine a2 i ⟨c, ?_, hj⟩
      rcases Nat.lt_succ_iff_lt_or_eq.1 hc with h | rfl
      · exact h
      · exact absurd hj.symm e
  · by_cases e : i = (ms k).j1
    · exact absurd ⟨k, by omega, e.symm⟩ hi
    · rw [upd_ne _ _ e]
      exact a3 i fun ⟨c, hc, hj⟩ => hi ⟨c, by omega, hj⟩
  · by_cases e : i = (ms k).j1
    · subst e
      rw [upd_self, List.mem_append, a4, List.mem_singleton]
      constructor
      · rintro (⟨h1, h2⟩ | rfl)
        · exact ⟨by omega, h2⟩
        · exact ⟨by omega, rfl⟩
      · rintro ⟨h1, h2⟩
        rcases Nat.lt_succ_iff_lt_or_eq.1 h1 with h | h
        · exact Or.inl ⟨h, h2⟩
        · exact Or.inr h
    · rw [upd_ne _ _ e, a4]
      constructor
      · rintro ⟨h1, h2⟩; exact ⟨by omega, h2⟩
      · rintro ⟨h1, h2⟩
        rcases Nat.lt_succ_iff_lt_or_eq.1 h1 with h | rfl
        · exact ⟨h, h2⟩
        · exact absurd h2.symm e

/-- the contacts counted at joint `i` once the joints from `k` on have been visited -/
noncomputable def cnt (par J : ℕ → ℕ) (n nc k i : ℕ) : Finset ℕ :=
  (range nc).filter (fun c => J c = i ∨ ∃ b, k ≤ b ∧ b < n ∧ par b = i ∧ anc par b (J c))

theorem mem_cnt {J : ℕ → ℕ} {k i c : ℕ} : c ∈ cnt par J n nc k i ↔
    c < nc ∧ (J c = i ∨ ∃ b, k ≤ b ∧ b < n ∧ par b = i ∧ anc par b (J c)) := by
  unfold cnt; rw [mem_filter, mem_range]

theorem anc_base (hp : ParOk par n) : ∀ j, 1 ≤ j → j < n → ∃ b, 1 ≤ b ∧ b < n ∧ par b = 0 ∧ anc par b j := by
  intro j
  induction j using Nat.strong_induction_on with
  | _ j ih =>
    intro j1 jn
    have hlt := hp.2 j j1 jn
    rcases Nat.eq_zero_or_pos (par j) with h | h
    · exact ⟨j, j1, jn, h, anc_refl hp jn⟩
    · obtain ⟨b, b1, bn, bp, ba⟩ := ih _ hlt h (by omega)
      exact ⟨b, b1, bn, bp, anc_trans hp ba _ jn (anc_par hp j1 jn)⟩

theorem cnt_eq (hp : ParOk par n) {J : ℕ → ℕ} (hJ : ∀ c < nc, 1 ≤ J c ∧ J c < n) {k i : ℕ} (hk : 1 ≤ k) (hki : k ≤ i + 1)
    (hi : i < n) : cnt par J n nc k i = cs par J nc i := by
  ext c
  rw [mem_cnt, mem_cs]
  refine and_congr_right fun hc => ?_
  obtain ⟨j1, jn⟩ := hJ c hc
  constructor
  · rintro (rfl | ⟨b, b1, bn, rfl, ba⟩)
    · exact anc_refl hp jn
    · exact anc_trans hp (anc_par hp (by omega) bn) _ jn ba
  · intro ha
    rcases Nat.eq_zero_or_pos i with rfl | h1
    · obtain ⟨b, b1, bn, bp, ba⟩ := anc_base hp _ j1 jn
      exact Or.inr ⟨b, by omega, bn, bp, ba⟩
    · rcases anc_kid hp h1 _ jn ha with h | ⟨b, hb, ba⟩
      · exact Or.inl h
      · obtain ⟨⟨b1, bn⟩, bp⟩ := mem_kids.1 hb
        have := hp.2 b b1 bn
        exact Or.inr ⟨b, by omega, bn, bp, ba⟩

theorem cnt_step (hp : ParOk par n) {J : ℕ → ℕ} (hJ : ∀ c < nc, 1 ≤ J c ∧ J c < n) {i : ℕ} (h1 : 1 ≤ i) (hi : i < n) :
    cnt par J n nc i (par i) = cnt par J n nc (i + 1) (par i) ∪ cs par J nc i ∧
    Disjoint (cnt par J n nc (i + 1) (par i)) (cs par J nc i) ∧
    ∀ j, j ≠ par i → cnt par J n nc i j = cnt par J n nc (i + 1) j := by
  have hlt := hp.2 i h1 hi
  refine ⟨?_, ?_, fun j hj => ?_⟩
  · ext c
    rw [mem_union, mem_cnt, mem_cnt, mem_cs]
    constructor
    · rintro ⟨hc, h | ⟨b, b1, bn, bp, ba⟩⟩
      · exact Or.inl ⟨hc, Or.inl h⟩
      · rcases b1.lt_or_eq with hb | rfl
        · exact Or.inl ⟨hc, Or.inr ⟨b, hb, bn, bp, ba⟩⟩
        · exact Or.inr ⟨hc, ba⟩
    · rintro (⟨hc, h | ⟨b, b1, bn, bp, ba⟩⟩ | ⟨hc, ha⟩)
      · exact ⟨hc, Or.inl h⟩
      · exact ⟨hc, Or.inr ⟨b, by omega, bn, bp, ba⟩⟩
      · exact ⟨hc, Or.inr ⟨i, le_rfl, hi, rfl, ha⟩⟩
  · rw [disjoint_left]
    intro c hc hc'
    rw [mem_cnt] at hc
    obtain ⟨hcn, h | ⟨b, b1, bn, bp, ba⟩⟩ := hc
    · rw [mem_cs, h] at hc'
      have := anc_le hp _ (by omega) hc'.2
      omega
    · have := cs_disj hp hJ (a := b) (b := i) (by omega) bn h1 hi bp (mem_cs.2 ⟨hcn, ba⟩) hc'
      omega
  · ext c
    rw [mem_cnt, mem_cnt]
    refine and_congr_right fun _ => or_congr_right ⟨?_, ?_⟩
    · rintro ⟨b, b1, bn, bp, ba⟩
      refine ⟨b, ?_, bn, bp, ba⟩
      rcases b1.lt_or_eq with hb | rfl
      · exact hb
      · exact absurd bp.symm hj
    · rintro ⟨b, b1, bn, bp, ba⟩
      exact ⟨b, by omega, bn, bp, ba⟩

theorem accCount_ok (hp : ParOk par n) {J dm : ℕ → ℕ} (hJ : ∀ c < nc, 1 ≤ J c ∧ J c < n) {t0 : AccTab}
    (h0 : ∀ i, t0.dim i = ∑ c ∈ (range nc).filter (fun c => J c = i), dm c)
    (ho : ∀ i c, c ∈ t0.on i ↔ c < nc ∧ J c = i) (hs : t0.sup = fun _ => ∅) :
    let t := bwd (accCount par) n t0
    t.desc = t0.desc ∧ t.on = t0.on ∧ t.anc = t0.anc ∧ t.joints = t0.joints ∧
    (∀ i < n, t.dim i = ∑ c ∈ cs par J nc i, dm c) ∧ ∀ i, 1 ≤ i → i < n → t.sup i = cs par J nc i := by
  have key := bwd_ind (step := accCount par) (n := n) (d := t0)
    (fun k (t : AccTab) => t.desc = t0.desc ∧ t.on = t0.on ∧ t.anc = t0.anc ∧ t.joints = t0.joints ∧
      (∀ i, t.dim i = ∑ c ∈ cnt par J n nc k i, dm c) ∧
      ∀ i c, c ∈ t.sup i ↔ c ∈ cnt par J n nc k i ∧ (i ∈ Set.Ico k n ∨ J c ≠ i)) hp.1
    ⟨rfl, rfl, rfl, rfl, fun i => by
      rw [h0]; congr 1; ext c; rw [mem_cnt, mem_filter, mem_range]
      refine and_congr_right fun _ => ⟨Or.inl, ?_⟩
      rintro (h | ⟨b, b1, bn, -⟩)
      · exact h
      · omega, fun i c => by
      rw [hs, mem_cnt]
      constructor
      · intro h; simp at h
      · rintro ⟨⟨-, h | ⟨b, b1, bn, -⟩⟩, h' | h'⟩
        · have := h'.1; have := h'.2; omega
        · exact absurd h h'
        · omega
        · omega⟩ ?_
  · obtain ⟨a1, a2, a3, a4, a5, a6⟩ := key
    refine ⟨a1, a2, a3, a4, fun i hi => by rw [a5, cnt_eq hp hJ le_rfl (by omega) hi], fun i h1 hi => ?_⟩
    ext c
    rw [a6, cnt_eq hp hJ le_rfl (by omega) hi]
    exact ⟨fun h => h.1, fun h => ⟨h, Or.inl ⟨h1, hi⟩⟩⟩
  · rintro i t h1 hi ⟨a1, a2, a3, a4, a5, a6⟩
    have hlt := hp.2 i h1 hi
    obtain ⟨s1, s2, s3⟩ := cnt_step (nc := nc) hp hJ h1 hi
    have hci := cnt_eq (nc := nc) hp hJ (k := i + 1) (by omega) le_rfl hi
    have hsup : t.sup i ∪ (t.on i).toFinset = cs par J nc i := by
      ext c
      rw [mem_union, a6, hci, List.mem_toFinset, a2, ho]
      constructor
      · rintro (h | ⟨h, rfl⟩)
        · exact h.1
        · exact mem_cs.2 ⟨h, anc_refl hp hi⟩
      · intro h
        by_cases e : J c = i
        · exact Or.inr ⟨(mem_cs.1 h).1, e⟩
        · exact Or.inl ⟨h, Or.inr e⟩
    unfold accCount
    dsimp only
    refine ⟨a1, a2, a3, a4, fun j => ?_, fun j c => ?_⟩
    · by_cases e : j = par i
      · subst e
        rw [upd_self, a5, a5, hci, s1, sum_union s2]
      · rw [upd_ne _ _ e, a5, s3 j e]
    · by_cases e : j = par i
      · subst e
        rw [upd_self, upd_self, hsup, upd_ne _ _ (show par i ≠ i by omega), mem_union, a6, s1, mem_union]
        constructor
        · rintro (⟨h, h' | h'⟩ | h)
          · have := h'.1; omega
          · exact ⟨Or.inl h, Or.inr h'⟩
          · refine ⟨Or.inr h, Or.inr fun e => ?_⟩
            rw [mem_cs, e] at h
            have := anc_le hp _ (by omega) h.2
            omega
        · rintro ⟨h | h, h' | h'⟩
          · have := h'.1; omega
          · exact Or.inl ⟨h, Or.inr h'⟩
          · exact Or.inr h
          · exact Or.inr h
      · rw [upd_ne _ _ e]
        by_cases e2 : j = i
        · subst e2
          rw [upd_self, hsup, s3 j e, hci]
          exact ⟨fun h => ⟨h, Or.inl ⟨le_rfl, hi⟩⟩, fun h => h.1⟩
        · rw [upd_ne _ _ e2, a6, s3 j e]
          refine and_congr_right fun _ => or_congr_left ?_
          rw [Set.mem_Ico, Set.mem_Ico]
          omega

theorem accDesc_ok (hp : ParOk par n) {J dm : ℕ → ℕ} (hJ : ∀ c < nc, 1 ≤ J c ∧ J c < n) (hdm : ∀ c, 0 < dm c) {t0 : AccTab}
    (hd : ∀ i < n, t0.dim i = ∑ c ∈ cs par J nc i, dm c) (hs : ∀ i, 1 ≤ i → i < n → t0.sup i = cs par J nc i)
    (ho : ∀ i c, c ∈ t0.on i ↔ c < nc ∧ J c = i)
    (hdes : (∀ i, (∃ c < nc, J c = i) → t0.desc i = i) ∧ (∀ i, (¬ ∃ c < nc, J c = i) → t0.desc i = 0)) :
    let t := bwd (accDesc par) n t0
    TabD par n J dm nc t ∧ t.anc = t0.anc ∧ t.joints = t0.joints := by
  have hpos : ∀ i < n, t0.dim i > 0 ↔ (cs par J nc i).Nonempty := by
    intro i hi
    rw [hd i hi]
    constructor
    · intro h
      rw [nonempty_iff_ne_empty]
      rintro e
      rw [e] at h
      simp at h
    · intro h
      exact sum_pos (fun c _ => hdm c) h
  have hgt : ∀ i, 1 ≤ i → i < n → (t0.dim (par i) > t0.dim i ↔ cs par J nc i ≠ cs par J nc (par i)) := by
    intro i h1 hi
    have hlt := hp.2 i h1 hi
    rw [hd i hi, hd _ (by omega)]
    constructor
    · rintro h e
      rw [e] at h
      omega
    · intro h
      obtain ⟨c, hc, hc'⟩ := exists_of_ssubset (lt_of_le_of_ne (cs_par hp hJ h1 hi) h)
      exact sum_lt_sum_of_subset (cs_par hp hJ h1 hi) hc hc' (hdm c) (fun _ _ _ => Nat.zero_le _)
  have key := bwd_ind (step := accDesc par) (n := n) (d := t0)
    (fun k (t : AccTab) => t.dim = t0.dim ∧ t.sup = t0.sup ∧ t.on = t0.on ∧ t.anc = t0.anc ∧ t.joints = t0.joints ∧
      (∀ b, k ≤ b → b < n → (cs par J nc b).Nonempty →
        (cs par J nc b = cs par J nc (par b) → t.desc (par b) = t.desc b) ∧
        (cs par J nc b ≠ cs par J nc (par b) → t.desc (par b) = par b)) ∧
      ∀ i, (∀ b, k ≤ b → b < n → par b = i → cs par J nc b = ∅) → t.desc i = t0.desc i) hp.1
    ⟨rfl, rfl, rfl, rfl, rfl, fun b hb hb' => by omega, fun _ _ => rfl⟩ ?_
  · obtain ⟨a1, a2, a3, a4, a5, a6, a7⟩ := key
    refine ⟨⟨fun i hi => by rw [a1]; exact hd i hi, fun i h1 hi => by rw [a2]; exact hs i h1 hi,
      fun i c => by rw [a3]; exact ho i c, fun b b1 bn hne => a6 b b1 bn hne, fun i h1 hi hne hk => ?_, fun i h1 hi he => ?_⟩,
      a4, a5⟩
    · rw [a7 i hk]
      apply hdes.1
      obtain ⟨c, hc⟩ := hne
      obtain ⟨hcn, hca⟩ := mem_cs.1 hc
      rcases anc_kid hp h1 _ (hJ c hcn).2 hca with h | ⟨b, hb, ba⟩
      · exact ⟨c, hcn, h⟩
      · obtain ⟨⟨b1, bn⟩, bp⟩ := mem_kids.1 hb
        have : c ∈ cs par J nc b := mem_cs.2 ⟨hcn, ba⟩
        rw [hk b b1 bn bp] at this
        simp at this
    · rw [a7 i]
      · apply hdes.2
        rintro ⟨c, hc, rfl⟩
        have : c ∈ cs par J nc (J c) := mem_cs.2 ⟨hc, anc_refl hp hi⟩
        rw [he] at this
        simp at this
      · rintro b b1 bn rfl
        exact subset_empty.1 (he ▸ cs_par hp hJ b1 bn)
  · rintro i t h1 hi ⟨a1, a2, a3, a4, a5, a6, a7⟩
    have hlt := hp.2 i h1 hi
    unfold accDesc
    by_cases hne : (cs par J nc i).Nonempty
    · rw [if_pos (by rw [a1]; exact (hpos i hi).2 hne)]
      have hval : ∃ e, (if ({ t with desc := upd t.desc (par i) (t.desc i) } : AccTab).dim (par i)
            > ({ t with desc := upd t.desc (par i) (t.desc i) } : AccTab).dim i
          then ({ t with desc := upd (upd t.desc (par i) (t.desc i)) (par i) (par i) } : AccTab)
          else { t with desc := upd t.desc (par i) (t.desc i) }) = { t with desc := upd t.desc (par i) e } ∧
          (cs par J nc i = cs par J nc (par i) → e = t.desc i) ∧ (cs par J nc i ≠ cs par J nc (par i) → e = par i) := by
        by_cases e : cs par J nc i = cs par J nc (par i)
        · refine ⟨t.desc i, ?_, fun _ => rfl, fun h => absurd e h⟩
          rw [if_neg]
          dsimp only
          rw [a1]
          exact fun h => (hgt i h1 hi).1 h e
        · refine ⟨par i, ?_, fun h => absurd h e, fun _ => rfl⟩
          rw [if_pos]
          · congr 1
            funext j
            by_cases hj : j = par i
            · subst hj; rw [upd_self, upd_self]
            · rw [upd_ne _ _ hj, upd_ne _ _ hj, upd_ne _ _ hj]
          · dsimp only
            rw [a1]
            exact (hgt i h1 hi).2 e
      obtain ⟨e, he, he1, he2⟩ := hval
      dsimp only at he ⊢
      rw [he]
      refine ⟨a1, a2, a3, a4, a5, fun b hb bn bne => ?_, fun j hj => ?_⟩
      · dsimp only
        have hblt := hp.2 b (by omega) bn
        rcases hb.lt_or_eq with hb' | rfl
        · rw [upd_ne t.desc _ (show b ≠ par i by omega)]
          by_cases hpe : par b = par i
          · have hdis : ∀ c, c ∈ cs par J nc b → c ∉ cs par J nc i := fun c h h' => by
              have := cs_disj hp hJ (a := b) (b := i) (by omega) bn h1 hi hpe h h'
              omega
            constructor
            · intro h
              obtain ⟨c, hc⟩ := hne
              exact absurd hc (hdis c (by rw [h, hpe]; exact cs_par hp hJ h1 hi hc))
            · intro _
              rw [hpe, upd_self]
              apply he2
              intro h
              obtain ⟨c, hc⟩ := bne
              exact hdis c hc (by rw [h, ← hpe]; exact cs_par hp hJ (by omega) bn hc)
          · rw [upd_ne t.desc _ hpe]
            exact a6 b (by omega) bn bne
        · rw [upd_self, upd_ne t.desc _ (show i ≠ par i by omega)]
          exact ⟨he1, he2⟩
      · dsimp only
        by_cases hje : j = par i
        · have := hj i le_rfl hi hje.symm
          rw [this] at hne
          simp at hne
        · rw [upd_ne _ _ hje]
          exact a7 j fun b hb => hj b (by omega)
    · rw [if_neg (by rw [a1]; exact fun h => hne ((hpos i hi).1 h))]
      refine ⟨a1, a2, a3, a4, a5, fun b hb bn bne => ?_, fun j hj => a7 j fun b hb => hj b (by omega)⟩
      rcases hb.lt_or_eq with hb' | rfl
      · exact a6 b hb' bn bne
      · exact absurd bne hne

theorem TabD.congr {J dm : ℕ → ℕ} {t t' : AccTab} (h : TabD par n J dm nc t) (e1 : t'.dim = t.dim) (e2 : t'.sup = t.sup)
    (e3 : t'.on = t.on) (e4 : t'.desc = t.desc) : TabD par n J dm nc t' := by
  obtain ⟨a1, a2, a3, a4, a5, a6⟩ := h
  constructor <;> simpa only [e1, e2, e3, e4]

theorem initPvDelassus_ok (hp : ParOk par n) (hJ : ∀ c < nc, 1 ≤ (ms c).j1 ∧ (ms c).j1 < n) :
    TabOk par n (jOf ms) (dOf ms) nc (initPvDelassus par n ms nc AccTab.new) := by
  unfold initPvDelassus
  obtain ⟨b1, b2, b3, b4, b5, b6, b7⟩ := accOwn_ok ms nc
  have hnew : ({ AccTab.new with dim := fun _ => 0 } : AccTab) = AccTab.new := rfl
  rw [hnew]
  dsimp only
  set t1 := upTo (accOwn ms) nc AccTab.new
  obtain ⟨c1, c2, c3, c4, c5, c6⟩ := accCount_ok (J := jOf ms) (dm := dOf ms) hp hJ b1 b4 b5
  set t2 := bwd (accCount par) n t1
  obtain ⟨d1, d2, d3⟩ := accDesc_ok (J := jOf ms) (dm := dOf ms) hp hJ (dOf_pos ms) (t0 := t2) c5 c6 (by rw [c2]; exact b4)
    (by rw [c1]; exact ⟨b2, b3⟩)
  set t3 := bwd (accDesc par) n t2
  have j := fwd_ind (step := accJoint) (n := n) (d := t3) (fun k (t : AccTab) => t.dim = t3.dim ∧ t.sup = t3.sup ∧
    t.on = t3.on ∧ t.desc = t3.desc ∧ t.anc = t3.anc ∧ t.joints = (List.range' 1 (k - 1)).filter (fun i => decide (t3.desc i = i))) hp.1
    ⟨rfl, rfl, rfl, rfl, rfl, by rw [d3, c4, b7]; rfl⟩ (by
      rintro i t h1 hi ⟨a1, a2, a3, a4, a5, a6⟩
      have hr : List.range' 1 (i + 1 - 1) = List.range' 1 (i - 1) ++ [i] := by
        rw [show i + 1 - 1 = (i - 1) + 1 by omega, List.range'_1_concat]
        congr 2; omega
      unfold accJoint
      rw [hr, List.filter_append, ← a6]
      by_cases e : t.desc i = i
      · rw [if_pos e]
        refine ⟨a1, a2, a3, a4, a5, ?_⟩
        rw [a4] at e
        simp [e]
      · rw [if_neg e]
        refine ⟨a1, a2, a3, a4, a5, ?_⟩
        rw [a4] at e
        simp [e])
  set t4 := fwd accJoint n t3
  obtain ⟨j1, j2, j3, j4, j5, j6⟩ := j
  have D4 := d1.congr j1 j2 j3 j4
  have k := bwd_ind (step := accAnc par) (n := n) (d := t4) (fun k (t : AccTab) => t.dim = t4.dim ∧ t.sup = t4.sup ∧
    t.on = t4.on ∧ t.desc = t4.desc ∧ t.joints = t4.joints ∧ t.anc 0 = 0 ∧
    (∀ i, k ≤ i → i < n → t4.desc i ≠ 0 → t4.desc (par i) = par i → t.anc (t4.desc i) = par i) ∧
    ∀ a, a ≠ 0 → (∀ i, k ≤ i → i < n → t4.desc i = a → t4.desc (par i) ≠ par i) → t.anc a = 0) hp.1
    ⟨rfl, rfl, rfl, rfl, rfl, by rw [j5, d2, c3, b6], fun i h1 h2 => by omega, fun a _ _ => by rw [j5, d2, c3, b6]⟩ (by
      rintro i t h1 hi ⟨a1, a2, a3, a4, a5, a8, a6, a7⟩
      unfold accAnc
      rw [a4]
      by_cases e : t4.desc (par i) = par i
      · rw [if_pos e]
        by_cases e0 : t4.desc i ≠ 0
        · rw [if_pos e0]
          refine ⟨a1, a2, a3, rfl, a5, by dsimp only; rw [upd_ne _ _ (Ne.symm e0)]; exact a8, fun i' h1' hi' n0 e' => ?_, fun a ha hall => ?_⟩
          · dsimp only
            rcases h1'.lt_or_eq with hl | rfl
            · rw [upd_ne]
              · exact a6 i' (by omega) hi' n0 e'
              · intro hee
                have hc := (D4.chain hp hJ h1 hl hi' e0 hee.symm).2.1
                have hle := (D4.desc_ok hp hJ (i := i') (by omega) hi' (D4.ne hp hJ (by omega) hi' n0)).2.2.2.2
                have hlt := hp.2 i' (by omega) hi'
                omega
            · rw [upd_self]
          · dsimp only
            rw [upd_ne]
            · exact a7 a ha fun i' h' => hall i' (by omega)
            · rintro rfl
              exact hall i le_rfl hi rfl e
        · rw [if_neg e0]
          push Not at e0
          refine ⟨a1, a2, a3, a4, a5, a8, fun i' h1' hi' n0 e' => ?_, fun a ha hall => a7 a ha fun i' h' => hall i' (by omega)⟩
          rcases h1'.lt_or_eq with hl | rfl
          · exact a6 i' (by omega) hi' n0 e'
          · exact absurd e0 n0
      · rw [if_neg e]
        refine ⟨a1, a2, a3, a4, a5, a8, fun i' h1' hi' n0 e' => ?_, fun a ha hall => a7 a ha fun i' h' => hall i' (by omega)⟩
        rcases h1'.lt_or_eq with hl | rfl
        · exact a6 i' (by omega) hi' n0 e'
        · exact absurd e' e)
  obtain ⟨k1, k2, k3, k4, k5, k8, k6, k7⟩ := k
  exact { D4.congr k1 k2 k3 k4 with
    joints := by rw [k5, j6, k4, j4]
    top := by rw [k4]; exact fun i h1 hi => k6 i h1 hi
    anc0 := k8
    top0 := by rw [k4]; exact fun a ha hall => k7 a ha hall }

end Pin
