import Verif.Algo.PvDelassus
import Verif.Algo.DelassusLemmas
import Verif.Algo.PvLemmas
import Verif.Algo.Subtree

/-! # The tables of `initPvDelassus` -/

namespace Pin
open Finset Classical

section tree
variable {par : ℕ → ℕ} {n : ℕ} {J dm : ℕ → ℕ} {nc : ℕ}

/-- the contacts that joint `i` supports -/
noncomputable def cs (par J : ℕ → ℕ) (nc i : ℕ) : Finset ℕ := (range nc).filter (fun c => anc par i (J c))

theorem mem_cs {i c : ℕ} : c ∈ cs par J nc i ↔ c < nc ∧ anc par i (J c) := by
  unfold cs; rw [mem_filter, mem_range]

theorem cs_mono (hp : ParOk par n) (hJ : ∀ c < nc, 1 ≤ J c ∧ J c < n) {i j : ℕ} (h : anc par i j) :
    cs par J nc j ⊆ cs par J nc i := by
  intro c hc
  rw [mem_cs] at hc ⊢
  exact ⟨hc.1, anc_trans hp h _ (hJ c hc.1).2 hc.2⟩

theorem anc_par (hp : ParOk par n) {b : ℕ} (h1 : 1 ≤ b) (hb : b < n) : anc par (par b) b := by
  have := hp.2 b h1 hb
  rw [anc_step h1 this]
  exact Or.inr (anc_refl hp (by omega))

theorem cs_par (hp : ParOk par n) (hJ : ∀ c < nc, 1 ≤ J c ∧ J c < n) {b : ℕ} (h1 : 1 ≤ b) (hb : b < n) :
    cs par J nc b ⊆ cs par J nc (par b) := cs_mono hp hJ (anc_par hp h1 hb)

theorem cs_disj (hp : ParOk par n) (hJ : ∀ c < nc, 1 ≤ J c ∧ J c < n) {a b c : ℕ} (a1 : 1 ≤ a) (an : a < n) (b1 : 1 ≤ b)
    (bn : b < n) (hab : par a = par b) (ha : c ∈ cs par J nc a) (hb : c ∈ cs par J nc b) : a = b := by
  rw [mem_cs] at ha hb
  have := hp.2 b b1 bn
  exact kids_disjoint hp (i := par b) (by omega) (mem_kids.2 ⟨⟨a1, an⟩, hab⟩) (mem_kids.2 ⟨⟨b1, bn⟩, rfl⟩) (hJ c ha.1).2
    ha.2 hb.2

theorem anc_of_lt (hp : ParOk par n) {i j k : ℕ} (hk : k < n) (hi : anc par i k) (hj : anc par j k) (hij : i ≤ j) :
    anc par i j := by
  have jn : j < n := lt_of_le_of_lt (anc_le hp k hk hj) hk
  rcases anc_total hp k hk hi hj with h | h
  · exact h
  · have := anc_le hp i (by have := anc_le hp k hk hi; omega) h
    obtain rfl : i = j := by omega
    exact anc_refl hp jn

theorem anc_up (hp : ParOk par n) {i j : ℕ} (j1 : 1 ≤ j) (jn : j < n) (h : anc par i j) (hne : i ≠ j) :
    anc par i (par j) := ((anc_step j1 (hp.2 j j1 jn)).1 h).resolve_left hne

/-- the tables, without the ancestors -/
structure TabD (par : ℕ → ℕ) (n : ℕ) (J dm : ℕ → ℕ) (nc : ℕ) (t : AccTab) : Prop where
  dim : ∀ i < n, t.dim i = ∑ c ∈ cs par J nc i, dm c
  sup : ∀ i, 1 ≤ i → i < n → t.sup i = cs par J nc i
  on : ∀ i c, c ∈ t.on i ↔ c < nc ∧ J c = i
  kid : ∀ b, 1 ≤ b → b < n → (cs par J nc b).Nonempty →
    (cs par J nc b = cs par J nc (par b) → t.desc (par b) = t.desc b) ∧
    (cs par J nc b ≠ cs par J nc (par b) → t.desc (par b) = par b)
  leaf : ∀ i, 1 ≤ i → i < n → (cs par J nc i).Nonempty →
    (∀ b, 1 ≤ b → b < n → par b = i → cs par J nc b = ∅) → t.desc i = i
  none : ∀ i, 1 ≤ i → i < n → cs par J nc i = ∅ → t.desc i = 0

/-- the tables after `initPvDelassus` on new data -/
structure TabOk (par : ℕ → ℕ) (n : ℕ) (J dm : ℕ → ℕ) (nc : ℕ) (t : AccTab) : Prop extends TabD par n J dm nc t where
  joints : t.joints = (List.range' 1 (n - 1)).filter (fun i => t.desc i = i)
  top : ∀ i, 1 ≤ i → i < n → t.desc i ≠ 0 → t.desc (par i) = par i → t.anc (t.desc i) = par i
  anc0 : t.anc 0 = 0
  top0 : ∀ a, a ≠ 0 → (∀ i, 1 ≤ i → i < n → t.desc i = a → t.desc (par i) ≠ par i) → t.anc a = 0

variable {t : AccTab} (hp : ParOk par n) (hJ : ∀ c < nc, 1 ≤ J c ∧ J c < n)
include hp hJ

theorem TabD.ne (h : TabD par n J dm nc t) {i : ℕ} (h1 : 1 ≤ i) (hi : i < n) (hd : t.desc i ≠ 0) :
    (cs par J nc i).Nonempty := by
  rw [nonempty_iff_ne_empty]
  exact fun e => hd (h.none i h1 hi e)

theorem TabD.desc_ok (h : TabD par n J dm nc t) {i : ℕ} (h1 : 1 ≤ i) (hi : i < n) (hne : (cs par J nc i).Nonempty) :
    anc par i (t.desc i) ∧ t.desc i < n ∧ cs par J nc (t.desc i) = cs par J nc i ∧ t.desc (t.desc i) = t.desc i ∧
      i ≤ t.desc i := by
  have key : ∀ m i, n - i ≤ m → 1 ≤ i → i < n → (cs par J nc i).Nonempty →
      anc par i (t.desc i) ∧ t.desc i < n ∧ cs par J nc (t.desc i) = cs par J nc i ∧ t.desc (t.desc i) = t.desc i ∧
      i ≤ t.desc i := by
    intro m
    induction m with
    | zero => intro i hm _ hi; omega
    | succ m ih =>
      intro i hm h1 hi hne
      by_cases hk : ∃ b, 1 ≤ b ∧ b < n ∧ par b = i ∧ (cs par J nc b).Nonempty
      · obtain ⟨b, b1, bn, bp, bne⟩ := hk
        have hlt := hp.2 b b1 bn
        obtain ⟨k1, k2⟩ := h.kid b b1 bn bne
        rw [bp] at k1 k2
        by_cases e : cs par J nc b = cs par J nc i
        · rw [k1 e]
          obtain ⟨a1, a2, a3, a4, a5⟩ := ih b (by omega) b1 bn bne
          exact ⟨anc_trans hp (bp ▸ anc_par hp b1 bn) _ a2 a1, a2, a3.trans e, a4, by omega⟩
        · rw [k2 e]
          exact ⟨anc_refl hp hi, hi, rfl, k2 e, le_rfl⟩
      · have e := h.leaf i h1 hi hne fun b b1 bn bp => not_nonempty_iff_eq_empty.1 fun bne => hk ⟨b, b1, bn, bp, bne⟩
        rw [e]
        exact ⟨anc_refl hp hi, hi, rfl, e, le_rfl⟩
  exact key _ i le_rfl h1 hi hne

theorem TabD.desc_eq (h : TabD par n J dm nc t) {b : ℕ} (b1 : 1 ≤ b) : ∀ a, a < n → anc par b a →
    cs par J nc b = cs par J nc a → (cs par J nc a).Nonempty → t.desc b = t.desc a := by
  intro a
  induction a using Nat.strong_induction_on with
  | _ a ih =>
    intro an hba e hne
    by_cases hab : b = a
    · rw [hab]
    · have hle := anc_le hp a an hba
      have hlt := hp.2 a (by omega) an
      have hu := anc_up hp (by omega) an hba hab
      have e1 := cs_par hp hJ (b := a) (by omega) an
      have e2 := cs_mono (J := J) (nc := nc) hp hJ hu
      have e3 : cs par J nc a = cs par J nc (par a) := subset_antisymm e1 (by rw [← e]; exact e2)
      rw [ih _ hlt (by omega) hu (e.trans e3) (e3 ▸ hne)]
      exact (h.kid a (by omega) an hne).1 e3

theorem TabD.desc_contact (h : TabD par n J dm nc t) {c : ℕ} (hc : c < nc) :
    t.desc (J c) = J c ∧ c ∈ cs par J nc (J c) := by
  obtain ⟨j1, jn⟩ := hJ c hc
  have hm : c ∈ cs par J nc (J c) := mem_cs.2 ⟨hc, anc_refl hp jn⟩
  refine ⟨?_, hm⟩
  by_cases hk : ∃ b, 1 ≤ b ∧ b < n ∧ par b = J c ∧ (cs par J nc b).Nonempty
  · obtain ⟨b, b1, bn, bp, bne⟩ := hk
    have hlt := hp.2 b b1 bn
    have := (h.kid b b1 bn bne).2
    rw [bp] at this
    apply this
    intro e
    rw [← e, mem_cs] at hm
    have := anc_le hp _ jn hm.2
    omega
  · exact h.leaf _ j1 jn ⟨c, hm⟩ fun b b1 bn bp => not_nonempty_iff_eq_empty.1 fun bne => hk ⟨b, b1, bn, bp, bne⟩

theorem TabD.chain (h : TabD par n J dm nc t) {i i' : ℕ} (i1 : 1 ≤ i) (hlt : i < i') (hn : i' < n) (hd : t.desc i ≠ 0)
    (e : t.desc i = t.desc i') : anc par i i' ∧ t.desc (par i') = t.desc i' ∧ i ≤ par i' := by
  obtain ⟨a1, a2, a3, -, -⟩ := h.desc_ok hp hJ i1 (by omega) (h.ne hp hJ i1 (by omega) hd)
  have ne' := h.ne hp hJ (i := i') (by omega) hn (e ▸ hd)
  obtain ⟨b1, -, b3, -, -⟩ := h.desc_ok hp hJ (i := i') (by omega) hn ne'
  have ha : anc par i i' := anc_of_lt hp a2 a1 (e ▸ b1) hlt.le
  have hu := anc_up hp (by omega) hn ha (by omega)
  have hpl := hp.2 i' (by omega) hn
  refine ⟨ha, ?_, anc_le hp _ (by omega) hu⟩
  apply (h.kid i' (by omega) hn ne').1
  apply subset_antisymm (cs_par hp hJ (by omega) hn)
  rw [← b3, ← e, a3]
  exact cs_mono hp hJ hu

/-- the top of the chain of an accumulation joint -/
theorem TabOk.top_ok (h : TabOk par n J dm nc t) {a : ℕ} (a1 : 1 ≤ a) (an : a < n) (ha : t.desc a = a) :
    ∃ i, 1 ≤ i ∧ i < n ∧ t.desc i = a ∧ anc par i a ∧ t.anc a = par i ∧
      (par i = 0 ∨ t.desc (par i) = par i ∧ par i < a ∧ cs par J nc a ⊂ cs par J nc (par i)) := by
  have hex : ∃ i, 1 ≤ i ∧ i < n ∧ t.desc i = a := ⟨a, a1, an, ha⟩
  obtain ⟨i1, hin, hia⟩ := Nat.find_spec hex
  have hmin : ∀ i', 1 ≤ i' → i' < n → t.desc i' = a → Nat.find hex ≤ i' := fun i' a b c => Nat.find_min' hex ⟨a, b, c⟩
  set i := Nat.find hex with hi
  have hne := h.ne hp hJ i1 hin (by omega)
  obtain ⟨d1, d2, d3, d4, d5⟩ := h.desc_ok hp hJ i1 hin hne
  rw [hia] at d1 d2 d3 d5
  have hlt := hp.2 i i1 hin
  refine ⟨i, i1, hin, hia, d1, ?_, ?_⟩
  · by_cases h0 : t.desc (par i) = par i
    · rw [← hia]; exact h.top i i1 hin (by omega) h0
    · have hp0 : par i = 0 := by
        by_contra hpos
        by_cases e : cs par J nc i = cs par J nc (par i)
        · have := (h.kid i i1 hin hne).1 e
          have := hmin (par i) (by omega) (by omega) (by omega)
          omega
        · exact h0 ((h.kid i i1 hin hne).2 e)
      rw [hp0]
      apply h.top0 a (by omega)
      intro i' i1' hin' hia' e
      have hle := hmin i' i1' hin' hia'
      rcases hle.lt_or_eq with hl | hl
      · have := (h.chain hp hJ i1 hl hin' (by omega) (by omega)).2.1
        have hlt' := hp.2 i' i1' hin'
        have := (h.desc_ok hp hJ i1' hin' (h.ne hp hJ i1' hin' (by omega))).2.2.2.2
        omega
      · rw [← hl] at e; exact h0 e
  · by_cases hp0 : par i = 0
    · exact Or.inl hp0
    · right
      have hnd : t.desc (par i) ≠ a := fun e => by
        have := hmin (par i) (by omega) (by omega) e
        omega
      have hce : cs par J nc i ≠ cs par J nc (par i) := fun e => hnd (((h.kid i i1 hin hne).1 e).trans hia)
      refine ⟨(h.kid i i1 hin hne).2 hce, by omega, ?_⟩
      rw [d3]
      exact lt_of_le_of_ne (cs_par hp hJ i1 hin) hce

theorem TabOk.anc_ok (h : TabOk par n J dm nc t) {a : ℕ} (a1 : 1 ≤ a) (an : a < n) (ha : t.desc a = a) :
    t.anc a < a ∧ anc par (t.anc a) a ∧ (t.anc a = 0 ∨ t.desc (t.anc a) = t.anc a ∧ 2 ≤ (cs par J nc (t.anc a)).card) := by
  obtain ⟨i, i1, hin, hia, hanc, e, hor⟩ := h.top_ok hp hJ a1 an ha
  have hlt := hp.2 i i1 hin
  have hle := anc_le hp _ an hanc
  rw [e]
  refine ⟨by omega, anc_trans hp (anc_par hp i1 hin) _ an hanc, ?_⟩
  rcases hor with h0 | ⟨k1, k2, k3⟩
  · exact Or.inl h0
  · right
    refine ⟨k1, ?_⟩
    have := card_lt_card k3
    have : 0 < (cs par J nc a).card := card_pos.2 (h.ne hp hJ a1 an (by omega))
    omega

theorem TabOk.chain_or (h : TabOk par n J dm nc t) {a b : ℕ} (a1 : 1 ≤ a) (an : a < n) (ha : t.desc a = a) (b1 : 1 ≤ b)
    (hb : anc par b a) : t.desc b = a ∨ anc par b (t.anc a) := by
  obtain ⟨i, i1, hin, hia, hanc, e, hor⟩ := h.top_ok hp hJ a1 an ha
  have hane := h.ne hp hJ a1 an (by omega)
  by_cases hib : i ≤ b
  · left
    rw [← ha]
    apply h.desc_eq hp hJ b1 a an hb _ hane
    apply subset_antisymm
    · have hib' := anc_of_lt hp an hanc hb hib
      have hd := (h.desc_ok hp hJ i1 hin (h.ne hp hJ i1 hin (by omega))).2.2.1
      rw [hia] at hd
      rw [hd]
      exact cs_mono hp hJ hib'
    · exact cs_mono hp hJ hb
  · right
    rw [e]
    exact anc_up hp i1 hin (anc_of_lt hp an hb hanc (by omega)) (by omega)

/-- a joint on the way from a contact up -/
def OnWay (par J : ℕ → ℕ) (n : ℕ) (t : AccTab) (c x : ℕ) : Prop := x = 0 ∨ 1 ≤ x ∧ x < n ∧ t.desc x = x ∧ anc par x (J c)

theorem OnWay.next (h : TabOk par n J dm nc t) {c x : ℕ} (hc : c < nc) (x1 : 1 ≤ x) (hx : OnWay par J n t c x) :
    OnWay par J n t c (t.anc x) ∧ t.anc x < x := by
  obtain ⟨-, xn, xd, xa⟩ := hx.resolve_left (by omega)
  obtain ⟨a1, a2, a3⟩ := h.anc_ok hp hJ x1 xn xd
  refine ⟨?_, a1⟩
  rcases a3 with h0 | ⟨h1, -⟩
  · exact Or.inl h0
  · rcases Nat.eq_zero_or_pos (t.anc x) with h0 | h0
    · exact Or.inl h0
    · exact Or.inr ⟨h0, by omega, h1, anc_trans hp a2 _ (hJ c hc).2 xa⟩

theorem gcaLoop_ok (h : TabOk par n J dm nc t) {c1 c2 : ℕ} (hc1 : c1 < nc) (hc2 : c2 < nc) : ∀ m j1 j2 a1 a2, j1 + j2 ≤ m →
    OnWay par J n t c1 j1 → OnWay par J n t c2 j2 →
    ∃ u1 u2, gcaLoop t.anc m j1 j2 a1 a2 = ((t.anc)^[u1] j1, a1 + u1, a2 + u2) ∧ (t.anc)^[u2] j2 = (t.anc)^[u1] j1 ∧
      (j1 ≠ j2 → ((t.anc)^[u1] j1 ≠ j1 → 1 ≤ u1) ∧ ((t.anc)^[u1] j1 ≠ j2 → 1 ≤ u2)) ∧
      OnWay par J n t c1 ((t.anc)^[u1] j1) ∧ OnWay par J n t c2 ((t.anc)^[u1] j1) ∧
      ∀ b, 1 ≤ b → anc par b j1 → anc par b j2 → anc par b ((t.anc)^[u1] j1) := by
  intro m
  induction m with
  | zero =>
    intro j1 j2 a1 a2 hm h1 h2
    obtain ⟨rfl, rfl⟩ : j1 = 0 ∧ j2 = 0 := by omega
    exact ⟨0, 0, rfl, rfl, fun e => absurd rfl e, h1, h2, fun _ _ x _ => x⟩
  | succ m ih =>
    intro j1 j2 a1 a2 hm h1 h2
    unfold gcaLoop
    by_cases e : j1 = j2
    · subst e
      rw [if_pos rfl]
      exact ⟨0, 0, rfl, rfl, fun e => absurd rfl e, h1, h2, fun _ _ x _ => x⟩
    · rw [if_neg e]
      have blk : ∀ {ca cb ja jb b : ℕ}, ca < nc → cb < nc → OnWay par J n t ca ja → OnWay par J n t cb jb → ja > jb → 1 ≤ b →
          anc par b ja → anc par b jb → anc par b (t.anc ja) := by
        intro ca cb ja jb b hca hcb ha hb hgt b1 hba hbb
        obtain ⟨x1, xn, xd, xa⟩ := ha.resolve_left (by omega)
        rcases hb with rfl | ⟨y1, yn, yd, ya⟩
        · have := anc_zero.1 hbb
          omega
        refine (h.chain_or hp hJ x1 xn xd b1 hba).resolve_left fun hd => ?_
        have hble := anc_le hp _ yn hbb
        have hbn : b < n := by omega
        have hbne := h.ne hp hJ b1 hbn (by omega)
        have hcs := (h.desc_ok hp hJ b1 hbn hbne).2.2.1
        rw [hd] at hcs
        have hm2 : cb ∈ cs par J nc ja := by
          rw [hcs]
          exact mem_cs.2 ⟨hcb, anc_trans hp hbb _ (hJ cb hcb).2 ya⟩
        have hja := anc_of_lt hp (hJ cb hcb).2 ya (mem_cs.1 hm2).2 hgt.le
        have : t.desc jb = t.desc ja := by
          apply h.desc_eq hp hJ y1 ja xn hja _ ⟨_, hm2⟩
          apply subset_antisymm
          · rw [hcs]; exact cs_mono hp hJ hbb
          · exact cs_mono hp hJ hja
        omega
      by_cases hgt : j1 > j2
      · rw [if_pos hgt]
        obtain ⟨o1, o2⟩ := OnWay.next hp hJ h hc1 (by omega) h1
        obtain ⟨u1, u2, e1, e2, e3, e4, e5, e6⟩ := ih (t.anc j1) j2 (a1 + 1) a2 (by omega) o1 h2
        refine ⟨u1 + 1, u2, ?_, e2, fun _ => ⟨fun _ => by omega, fun hne => ?_⟩, e4, e5, fun b b1 hb1 hb2 =>
          e6 b b1 (blk hc1 hc2 h1 h2 hgt b1 hb1 hb2) hb2⟩
        · rw [e1, Function.iterate_succ_apply]
          congr 2; omega
        · rcases Nat.eq_zero_or_pos u2 with rfl | hu
          · exact absurd e2.symm hne
          · exact hu
      · rw [if_neg hgt]
        obtain ⟨o1, o2⟩ := OnWay.next hp hJ h hc2 (by omega) h2
        obtain ⟨u1, u2, e1, e2, e3, e4, e5, e6⟩ := ih j1 (t.anc j2) a1 (a2 + 1) (by omega) h1 o1
        refine ⟨u1, u2 + 1, ?_, e2, fun _ => ⟨fun hne => ?_, fun _ => by omega⟩, e4, e5, fun b b1 hb1 hb2 =>
          e6 b b1 hb1 (blk hc2 hc1 h2 h1 (by omega) b1 hb2 hb1)⟩
        · rw [e1]
          congr 2; omega
        · rcases Nat.eq_zero_or_pos u1 with rfl | hu
          · exact absurd rfl hne
          · exact hu

end tree
end Pin
