import Verif.Algo.PvDelassusMain

/-! # The contacts and the matrix of `computePvDelassusMatrix` -/

namespace Pin
open Finset Classical

section field
variable {K : Type*} [Field K] {s : Sys K} {Jc dm : ℕ → ℕ} {nc : ℕ} {t : AccTab}

theorem anc_zero_left (hp : ParOk par n) : ∀ j, j < n → anc par 0 j := by
  intro j
  induction j using Nat.strong_induction_on with
  | _ j ih =>
    intro jn
    rcases Nat.eq_zero_or_pos j with rfl | h1
    · exact anc_refl hp jn
    · have hlt := hp.2 j h1 jn
      rw [anc_step h1 hlt]
      exact Or.inr (ih _ hlt (by omega))

theorem pdContact_ok (ms : ℕ → RCM K) (mu : K) (nc : ℕ) (d : Data K) (cd : ℕ → OContact K) :
    let y := upTo (pdContact ms mu) nc (d, cd)
    y.1.J = d.J ∧ y.1.oMi = d.oMi ∧
    (∀ i, y.1.oYaba i = d.oYaba i + ∑ k ∈ range nc,
      if (ms k).j1 = i then (conInertia (ms k).type mu (d.oMi (ms k).j1 * (ms k).P1)).matrix else 0) ∧
    ∀ k < nc, (y.2 k).oMc1 = d.oMi (ms k).j1 * (ms k).P1 ∧
      ∀ r < (ms k).type.dim, (y.2 k).prop 0 r = (d.oMi (ms k).j1 * (ms k).P1).toActionMatrixInverse.rowF r := by
  refine upTo_ind (fun n (y : Data K × (ℕ → OContact K)) => y.1.J = d.J ∧ y.1.oMi = d.oMi ∧
    (∀ i, y.1.oYaba i = d.oYaba i + ∑ k ∈ range n,
      if (ms k).j1 = i then (conInertia (ms k).type mu (d.oMi (ms k).j1 * (ms k).P1)).matrix else 0) ∧
    ∀ k < n, (y.2 k).oMc1 = d.oMi (ms k).j1 * (ms k).P1 ∧
      ∀ r < (ms k).type.dim, (y.2 k).prop 0 r = (d.oMi (ms k).j1 * (ms k).P1).toActionMatrixInverse.rowF r)
    ⟨rfl, rfl, fun i => by simp, fun k hk => by omega⟩ ?_
  rintro n y hn ⟨a, b, c, f⟩
  refine ⟨a, b, fun i => ?_, fun k hk => ?_⟩
  · unfold pdContact osimContact
    dsimp only
    rw [sum_range_succ, ← add_assoc, ← c i, b]
    by_cases hi : i = (ms n).j1
    · subst hi; rw [upd_self, if_pos rfl]
    · rw [upd_ne _ _ hi, if_neg (Ne.symm hi), add_zero]
  · unfold pdContact osimContact
    dsimp only
    by_cases hkn : k = n
    · subst hkn
      rw [upd_self, upd_self, b]
      refine ⟨rfl, fun r hr => ?_⟩
      dsimp only
      rw [upd_self]
      rw [if_neg]
      rintro ⟨h3, h4⟩
      rw [h3] at hr
      simp only [CType.dim] at hr
      omega
    · rw [upd_ne _ _ hkn, upd_ne _ _ hkn]; exact f k (by omega)

/-! ## the propagators of a contact -/

theorem anc_iter_zero (h0 : t.anc 0 = 0) (u : ℕ) : (t.anc)^[u] 0 = 0 := Function.iterate_fixed h0 u

theorem cempLoop_ok (h : s.Packed) (hJ : ∀ c < nc, 1 ≤ Jc c ∧ Jc c < s.n) (hdm : ∀ c, dm c = 3 ∨ dm c = 6)
    (ht : TabOk s.par s.n Jc dm nc t) {S : ℕ → Motion K} {A : ℕ → M6 K} {cd : ℕ → OContact K} {x : PData K}
    (hx : Accd s t (eRow t cd) S A x) {e : ℕ} (he : e < nc) (X : ℕ → Force K) (d : ℕ) :
    ∀ m a k (c : OContact K), a ≤ m → 1 ≤ k → OnWay s.par Jc s.n t e a → (a ≠ 0 → 2 ≤ (cs s.par Jc nc a).card) →
      (a ≠ 0 → ∀ r < d, c.prop (k - 1) r = pull s.par (lMap s S A) (Jc e) a (X r)) →
      (∀ i < k, (cempLoop t x d m a k c).prop i = c.prop i) ∧
      ∀ u, (t.anc)^[u] a ≠ 0 → ∀ r < d, (cempLoop t x d m a k c).prop (k - 1 + u) r
        = pull s.par (lMap s S A) (Jc e) ((t.anc)^[u] a) (X r) := by
  intro m
  induction m with
  | zero =>
    intro a k c hm _ _ _ _
    obtain rfl : a = 0 := by omega
    exact ⟨fun i _ => rfl, fun u hu => absurd (anc_iter_zero ht.anc0 u) hu⟩
  | succ m ih =>
    intro a k c hm hk how h2 hc
    unfold cempLoop
    by_cases ha : a > 1
    swap
    · rw [if_neg ha]
      refine ⟨fun i _ => rfl, fun u hu r hr => ?_⟩
      rcases Nat.eq_zero_or_pos a with rfl | a1
      · exact absurd (anc_iter_zero ht.anc0 u) hu
      · cases u with
        | zero => exact hc (by omega) r hr
        | succ u =>
          have := (OnWay.next h.par hJ ht he a1 how).2
          rw [Function.iterate_succ_apply, show t.anc a = 0 by omega] at hu
          exact absurd (anc_iter_zero ht.anc0 u) hu
    rw [if_pos ha]
    obtain ⟨w1, w2⟩ := OnWay.next h.par hJ ht he (by omega) how
    obtain ⟨-, an, ad, aa⟩ := how.resolve_left (by omega)
    obtain ⟨q1, q2, q3⟩ := ht.many hdm (a := a) (by omega) an (h2 (by omega))
    obtain ⟨n1, n2, n3⟩ := ht.anc_ok h.par hJ (a := a) (by omega) an ad
    obtain ⟨i1, i2⟩ := ih (t.anc a) (k + 1) { c with
        prop := upd c.prop k (fun r => if r < d then ∑ m ∈ range 6, (c.prop (k - 1) r).row m • x.emp2 a m
          else c.prop k r) } (by omega) (by omega) w1 (fun h0 => (n3.resolve_left h0).2) (by
      intro h0 r hr
      dsimp only
      rw [Nat.add_sub_cancel, upd_self]
      rw [if_pos hr, hc (by omega) r hr, ← pull_trans h.par n2 an _ (hJ e he).2 aa,
        ← Force.sum_units (pull s.par (lMap s S A) (Jc e) a (X r)), pull_lin (lin_ok s S A).l, Force.sum_units]
      apply sum_congr rfl
      intro m hm
      rw [hx.emp2 a (by omega) an ad h0 m (by rw [q3]; exact mem_range.1 hm)]
      unfold eRow
      rw [if_neg q1])
    refine ⟨fun i hi => ?_, fun u hu r hr => ?_⟩
    · rw [i1 i (by omega)]
      dsimp only
      rw [upd_ne _ _ (by omega)]
    · cases u with
      | zero =>
        rw [add_zero, i1 (k - 1) (by omega)]
        dsimp only
        rw [upd_ne _ _ (by omega)]
        exact hc (by omega) r hr
      | succ u =>
        rw [Function.iterate_succ_apply] at hu ⊢
        rw [← i2 u hu r hr]
        congr 1; omega

theorem upTo_each {D : Type*} (F : ℕ → D → D) (n : ℕ) (c : ℕ → D) :
    ∀ k, upTo (fun k c => upd c k (F k (c k))) n c k = if k < n then F k (c k) else c k := by
  refine upTo_ind (fun n (y : ℕ → D) => ∀ k, y k = if k < n then F k (c k) else c k) (fun k => by simp) ?_
  intro n y _ ih k
  by_cases e : k = n
  · subst e; rw [upd_self, ih, if_neg (by omega), if_pos (by omega)]
  · rw [upd_ne _ _ e, ih]
    by_cases hk : k < n
    · rw [if_pos hk, if_pos (by omega)]
    · rw [if_neg hk, if_neg (by omega)]

section contacts
variable {ms : ℕ → RCM K}

theorem dOf_cases (ms : ℕ → RCM K) (c : ℕ) : dOf ms c = 3 ∨ dOf ms c = 6 := by
  unfold dOf; cases (ms c).type <;> simp [CType.dim]

/-- one contact on its joint -/
theorem single_ok (h : s.Packed) (hJ : ∀ c < nc, 1 ≤ jOf ms c ∧ jOf ms c < s.n)
    (ht : TabOk s.par s.n (jOf ms) (dOf ms) nc t) {k : ℕ} (hk : k < nc) (h1 : ¬ 2 ≤ (cs s.par (jOf ms) nc (jOf ms k)).card)
    (cd : ℕ → OContact K) : (t.sup (jOf ms k)).card = 1 ∧ (∀ r, eRow t cd (jOf ms k) r = (cd k).prop 0 r) ∧
      t.dim (jOf ms k) = dOf ms k ∧ rdim t (jOf ms k) = dOf ms k ∧ cs s.par (jOf ms) nc (jOf ms k) = {k} := by
  obtain ⟨j1, jn⟩ := hJ k hk
  have hmem := (ht.desc_contact h.par hJ hk).2
  have hone : cs s.par (jOf ms) nc (jOf ms k) = {k} := by
    have hc : (cs s.par (jOf ms) nc (jOf ms k)).card = 1 := by
      have := card_pos.2 ⟨k, hmem⟩
      omega
    obtain ⟨b, hb⟩ := card_eq_one.1 hc
    rw [hb] at hmem ⊢
    rw [mem_singleton.1 hmem]
  have hs : (t.sup (jOf ms k)).card = 1 := by rw [ht.sup _ j1 jn, hone, card_singleton]
  have hd : t.dim (jOf ms k) = dOf ms k := by rw [ht.dim _ jn, hone, sum_singleton]
  refine ⟨hs, fun r => ?_, hd, ?_, hone⟩
  · unfold eRow
    rw [if_pos hs]
    have hon : k ∈ t.on (jOf ms k) := (ht.on _ k).2 ⟨hk, rfl⟩
    have : (t.on (jOf ms k)).getD 0 0 = k := by
      cases hl : t.on (jOf ms k) with
      | nil => rw [hl] at hon; simp at hon
      | cons b l =>
        have hb : b ∈ t.on (jOf ms k) := by rw [hl]; simp
        obtain ⟨b1, b2⟩ := (ht.on _ b).1 hb
        have : b ∈ cs s.par (jOf ms) nc (jOf ms k) := mem_cs.2 ⟨b1, by rw [b2]; exact anc_refl h.par jn⟩
        rw [hone] at this
        simpa using this
    rw [this]
  · unfold rdim
    rw [hd]
    rcases dOf_cases ms k with e | e <;> rw [e] <;> rfl

/-- the propagators of contact `k` -/
theorem cempRev_ok (h : s.Packed) (hJ : ∀ c < nc, 1 ≤ jOf ms c ∧ jOf ms c < s.n)
    (ht : TabOk s.par s.n (jOf ms) (dOf ms) nc t) {S : ℕ → Motion K} {A : ℕ → M6 K} {cd : ℕ → OContact K} {x : PData K}
    (hx : Accd s t (eRow t cd) S A x) {k : ℕ} (hk : k < nc) :
    (2 ≤ (cs s.par (jOf ms) nc (jOf ms k)).card →
      ∀ r < dOf ms k, (upTo (cempRev s ms t x) nc cd k).prop 0 r = (cd k).prop 0 r) ∧
    ∀ u g, (t.anc)^[u] (jOf ms k) = g → g ≠ 0 → (¬ 2 ≤ (cs s.par (jOf ms) nc (jOf ms k)).card → g ≠ jOf ms k) →
      ∀ r < dOf ms k, (upTo (cempRev s ms t x) nc cd k).prop
        ((if (t.sup (jOf ms k)).card > 1 then 1 else 0) + u - 1) r
        = pull s.par (lMap s S A) (jOf ms k) g ((cd k).prop 0 r) := by
  obtain ⟨j1, jn⟩ := hJ k hk
  have hd : (if (ms k).type.dim ≠ 3 then 6 else 3) = dOf ms k := by
    unfold dOf; cases (ms k).type <;> simp [CType.dim]
  have hup := upTo_each (fun k c => let j := (ms k).j1
    let d := if (ms k).type.dim ≠ 3 then 6 else 3
    if (t.sup j).card = 1 then cempLoop t x d s.n (t.anc j) 1 { c with prop := upd c.prop 0 (x.emp2 j) }
    else cempLoop t x d s.n j 1 c) nc cd k
  rw [if_pos hk] at hup
  change upTo (cempRev s ms t x) nc cd k = _ at hup
  dsimp only at hup
  rw [hd] at hup
  change _ = (if (t.sup (jOf ms k)).card = 1 then cempLoop t x (dOf ms k) s.n (t.anc (jOf ms k)) 1
    { cd k with prop := upd (cd k).prop 0 (x.emp2 (jOf ms k)) } else cempLoop t x (dOf ms k) s.n (jOf ms k) 1 (cd k)) at hup
  rw [hup]
  have hdesc := (ht.desc_contact h.par hJ hk).1
  have how : OnWay s.par (jOf ms) s.n t k (jOf ms k) := Or.inr ⟨j1, jn, hdesc, anc_refl h.par jn⟩
  by_cases h2 : 2 ≤ (cs s.par (jOf ms) nc (jOf ms k)).card
  · obtain ⟨q1, q2, -⟩ := ht.many (dOf_cases ms) j1 jn h2
    rw [if_neg q1, if_pos q2]
    obtain ⟨c1, c2⟩ := cempLoop_ok h hJ (dOf_cases ms) ht hx hk (fun r => (cd k).prop 0 r) (dOf ms k) s.n (jOf ms k) 1 (cd k)
      jn.le le_rfl how (fun _ => h2) (fun _ r _ => by rw [pull_self])
    refine ⟨fun _ r _ => by rw [c1 0 (by omega)], fun u g hg h0 _ r hr => ?_⟩
    rw [← hg] at h0 ⊢
    rw [← c2 u h0 r hr]
    congr 1; omega
  · obtain ⟨q1, q2, -, q4, -⟩ := single_ok h hJ ht hk h2 cd
    refine ⟨fun h => absurd h h2, fun u g hg h0 hne r hr => ?_⟩
    have hu : u ≠ 0 := by rintro rfl; exact hne h2 hg.symm
    obtain ⟨u, rfl⟩ := Nat.exists_eq_succ_of_ne_zero hu
    rw [if_pos q1, if_neg (by omega)]
    obtain ⟨w1, w2⟩ := OnWay.next h.par hJ ht hk j1 how
    obtain ⟨-, -, n3⟩ := ht.anc_ok h.par hJ j1 jn hdesc
    obtain ⟨-, c2⟩ := cempLoop_ok h hJ (dOf_cases ms) ht hx hk (fun r => (cd k).prop 0 r) (dOf ms k) s.n (t.anc (jOf ms k)) 1
      { cd k with prop := upd (cd k).prop 0 (x.emp2 (jOf ms k)) }
      (by omega) le_rfl w1 (fun h0 => (n3.resolve_left h0).2) (fun h0 r hr => by
        dsimp only
        rw [Nat.sub_self, upd_self, hx.emp2 _ j1 jn hdesc h0 r (by rw [q4]; exact hr), q2])
    rw [Nat.succ_eq_add_one, Function.iterate_succ_apply] at hg
    rw [← hg] at h0 ⊢
    rw [← c2 u h0 r hr]
    congr 1

/-- a block above the diagonal -/
theorem pdBlock_ok (h : s.Packed) (hJ : ∀ c < nc, 1 ≤ jOf ms c ∧ jOf ms c < s.n)
    (ht : TabOk s.par s.n (jOf ms) (dOf ms) nc t) {S : ℕ → Motion K} {A : ℕ → M6 K} {cd : ℕ → OContact K} {x : PData K}
    (hx : Accd s t (eRow t cd) S A x) (hx0 : ∀ r < 6, ∀ c < 6, x.Lam 0 r c = 0) {i k : ℕ} (hik : i < k) (hk : k < nc) :
    ∃ g, anc s.par g (jOf ms i) ∧ anc s.par g (jOf ms k) ∧
      (∀ b, 1 ≤ b → anc s.par b (jOf ms i) → anc s.par b (jOf ms k) → anc s.par b g) ∧
      ∀ r < dOf ms i, ∀ c < dOf ms k,
        bil (x.Lam (findGca t (jOf ms k) (jOf ms i)).1)
          ((upTo (cempRev s ms t x) nc cd i).prop (findGca t (jOf ms k) (jOf ms i)).2.2 r)
          ((upTo (cempRev s ms t x) nc cd k).prop (findGca t (jOf ms k) (jOf ms i)).2.1 c)
        = om s.par (lMap s S A) (kForm s S A) g (pull s.par (lMap s S A) (jOf ms i) g ((cd i).prop 0 r))
            (pull s.par (lMap s S A) (jOf ms k) g ((cd k).prop 0 c)) := by
  have hi : i < nc := by omega
  obtain ⟨i1, iN⟩ := hJ i hi
  obtain ⟨k1, kN⟩ := hJ k hk
  obtain ⟨di, mi⟩ := ht.desc_contact h.par hJ hi
  obtain ⟨dk, mk⟩ := ht.desc_contact h.par hJ hk
  have wi : OnWay s.par (jOf ms) s.n t i (jOf ms i) := Or.inr ⟨i1, iN, di, anc_refl h.par iN⟩
  have wk : OnWay s.par (jOf ms) s.n t k (jOf ms k) := Or.inr ⟨k1, kN, dk, anc_refl h.par kN⟩
  obtain ⟨u1, u2, e1, e2, -, g1, g2, g3⟩ := gcaLoop_ok h.par hJ ht hk hi (jOf ms k + jOf ms i) (jOf ms k) (jOf ms i)
    (if (t.sup (jOf ms k)).card > 1 then 1 else 0) (if (t.sup (jOf ms i)).card > 1 then 1 else 0) le_rfl wk wi
  have hf : findGca t (jOf ms k) (jOf ms i) = ((t.anc)^[u1] (jOf ms k),
      (if (t.sup (jOf ms k)).card > 1 then 1 else 0) + u1 - 1, (if (t.sup (jOf ms i)).card > 1 then 1 else 0) + u2 - 1) := by
    unfold findGca
    rw [if_neg (by omega), e1]
  rw [hf]
  set g := (t.anc)^[u1] (jOf ms k) with hg
  refine ⟨g, ?_, ?_, fun b b1 ba bb => g3 b b1 bb ba, fun r hr c hc => ?_⟩
  · rcases g2 with h0 | ⟨-, -, -, h0⟩
    · rw [h0]; exact anc_zero_left h.par _ iN
    · exact h0
  · rcases g1 with h0 | ⟨-, -, -, h0⟩
    · rw [h0]; exact anc_zero_left h.par _ kN
    · exact h0
  dsimp only
  by_cases h0 : g = 0
  · rw [h0, om_zero]
    unfold bil
    exact sum_eq_zero fun m hm => sum_eq_zero fun l hl => by
      rw [hx0 m (mem_range.1 hm) l (mem_range.1 hl)]; ring
  · obtain ⟨gp, gn, gd, gk⟩ := g1.resolve_left h0
    obtain ⟨-, -, -, gi⟩ := g2.resolve_left h0
    have two : ∀ {j}, anc s.par j (jOf ms i) → anc s.par j (jOf ms k) → 2 ≤ (cs s.par (jOf ms) nc j).card := by
      intro j ji jk
      have : ({i, k} : Finset ℕ) ⊆ cs s.par (jOf ms) nc j := by
        intro b hb
        rcases mem_insert.1 hb with rfl | hb
        · exact mem_cs.2 ⟨hi, ji⟩
        · rw [mem_singleton.1 hb]; exact mem_cs.2 ⟨hk, jk⟩
      have := card_le_card this
      rwa [card_pair (by omega)] at this
    obtain ⟨q1, -, q3⟩ := ht.many (dOf_cases ms) gp gn (two gi gk)
    rw [(cempRev_ok h hJ ht hx hi).2 u2 g e2 h0 (fun hn e => hn (by rw [← e]; exact two gi gk)) r hr,
      (cempRev_ok h hJ ht hx hk).2 u1 g rfl h0 (fun hn e => hn (by rw [← e]; exact two gi gk)) c hc]
    apply bil_om (lin_ok s S A)
    intro m hm l hl
    rw [hx.lam g gp gn gd m (by omega) l (by omega)]
    unfold eRow
    rw [if_neg q1, if_neg q1]

/-- a block on the diagonal -/
theorem pdDiag_ok (h : s.Packed) (hJ : ∀ c < nc, 1 ≤ jOf ms c ∧ jOf ms c < s.n)
    (ht : TabOk s.par s.n (jOf ms) (dOf ms) nc t) {S : ℕ → Motion K} {A : ℕ → M6 K} {cd : ℕ → OContact K} {x : PData K}
    (hx : Accd s t (eRow t cd) S A x) {k : ℕ} (hk : k < nc) {r c : ℕ} (hr : r < dOf ms k) (hc : c < dOf ms k) :
    (if t.dim (jOf ms k) > 6 ∨ (t.sup (jOf ms k)).card > 1 then
      bil (x.Lam (jOf ms k)) ((upTo (cempRev s ms t x) nc cd k).prop 0 r) ((upTo (cempRev s ms t x) nc cd k).prop 0 c)
      else x.Lam (jOf ms k) r c)
    = om s.par (lMap s S A) (kForm s S A) (jOf ms k) ((cd k).prop 0 r) ((cd k).prop 0 c) := by
  obtain ⟨k1, kN⟩ := hJ k hk
  obtain ⟨dk, mk⟩ := ht.desc_contact h.par hJ hk
  by_cases h2 : 2 ≤ (cs s.par (jOf ms) nc (jOf ms k)).card
  · obtain ⟨q1, q2, q3⟩ := ht.many (dOf_cases ms) k1 kN h2
    have hp := (cempRev_ok h hJ ht hx hk).1 h2
    rw [if_pos (Or.inr q2), hp r hr, hp c hc]
    apply bil_om (lin_ok s S A)
    intro m hm l hl
    rw [hx.lam _ k1 kN dk m (by omega) l (by omega)]
    unfold eRow
    rw [if_neg q1, if_neg q1]
  · obtain ⟨q1, q2, q3, q4, -⟩ := single_ok h hJ ht hk h2 cd
    rw [if_neg, hx.lam _ k1 kN dk r (by omega) c (by omega), q2, q2]
    have := dOf_cases ms k
    omega

/-- the main loop -/
theorem pdLoop_ok (ms : ℕ → RCM K) (t : AccTab) (x : PData K) (cd : ℕ → OContact K) (nc : ℕ) (D : ℕ → ℕ → K)
    (V : ℕ → ℕ → ℕ → ℕ → K)
    (hV : ∀ i k, i < k → k < nc → ∀ r < dOf ms i, ∀ c < dOf ms k,
      bil (x.Lam (findGca t (jOf ms k) (jOf ms i)).1) ((cd i).prop (findGca t (jOf ms k) (jOf ms i)).2.2 r)
        ((cd k).prop (findGca t (jOf ms k) (jOf ms i)).2.1 c) = V i r k c)
    (hd : ∀ k < nc, ∀ r < dOf ms k, ∀ c < dOf ms k,
      (if t.dim (jOf ms k) > 6 ∨ (t.sup (jOf ms k)).card > 1 then
        bil (x.Lam (jOf ms k)) ((cd k).prop 0 r) ((cd k).prop 0 c) else x.Lam (jOf ms k) r c) = V k r k c) :
    (∀ i k, i ≤ k → k < nc → ∀ r < dOf ms i, ∀ c < dOf ms k,
      upTo (pdStep ms t x cd) nc D (conRow ms i + r) (conRow ms k + c) = V i r k c) ∧
    ∀ R C, (∀ i k, i ≤ k → k < nc → ∀ r < dOf ms i, ∀ c < dOf ms k,
      ¬ (R = conRow ms i + r ∧ C = conRow ms k + c)) → upTo (pdStep ms t x cd) nc D R C = D R C := by
  refine upTo_ind (step := pdStep ms t x cd) (n := nc) (d := D) (fun n (Z : ℕ → ℕ → K) =>
    (∀ i k, i ≤ k → k < n → ∀ r < dOf ms i, ∀ c < dOf ms k, Z (conRow ms i + r) (conRow ms k + c) = V i r k c) ∧
    ∀ R C, (∀ i k, i ≤ k → k < n → ∀ r < dOf ms i, ∀ c < dOf ms k,
      ¬ (R = conRow ms i + r ∧ C = conRow ms k + c)) → Z R C = D R C)
    ⟨fun i k _ hk => by omega, fun _ _ _ => rfl⟩ ?_
  rintro n Dz hn ⟨hin, hout⟩
  obtain ⟨h3, h4⟩ := upTo_ind (step := pdBlock ms t x cd n) (n := n) (d := Dz) (fun b (E : ℕ → ℕ → K) =>
      (∀ i < b, ∀ r < dOf ms i, ∀ c < dOf ms n, E (conRow ms i + r) (conRow ms n + c) = V i r n c) ∧
      ∀ R C, (∀ i < b, ∀ r < dOf ms i, ∀ c < dOf ms n, ¬ (R = conRow ms i + r ∧ C = conRow ms n + c)) → E R C = Dz R C)
    ⟨fun i hi => by omega, fun _ _ _ => rfl⟩ (by
      rintro b E hb ⟨h3, h4⟩
      refine ⟨fun i hi r hr c hc => ?_, fun R C hRC => ?_⟩
      · unfold pdBlock
        by_cases e : i = b
        · subst e
          refine (putBlk_in _ _ hr hc).trans ?_
          exact hV i n hb hn r hr c hc
        · refine (putBlk_out _ _ ?_).trans (h3 i (by omega) r hr c hc)
          rintro r' c' hr' _ ⟨e1, -⟩
          exact e (conRow_inj ms hr hr' e1).1
      · unfold pdBlock
        refine (putBlk_out _ _ (fun r c hr hc => hRC b (by omega) r hr c hc)).trans ?_
        exact h4 R C fun i hi => hRC i (by omega))
  refine ⟨fun i k hik hk r hr c hc => ?_, fun R C hRC => ?_⟩
  · unfold pdStep
    by_cases e : k = n
    · subst e
      by_cases e2 : i = k
      · subst e2
        exact (putBlk_in _ _ hr hc).trans (hd i hn r hr c hc)
      · refine (putBlk_out _ _ ?_).trans (h3 i (by omega) r hr c hc)
        rintro r' c' hr' _ ⟨e1, -⟩
        exact e2 (conRow_inj ms hr hr' e1).1
    · refine (putBlk_out _ _ ?_).trans ((h4 _ _ ?_).trans (hin i k hik (by omega) r hr c hc))
      · rintro r' c' _ hc' ⟨-, e1⟩
        exact e (conRow_inj ms hc hc' e1).1
      · rintro i' hi' r' hr' c' hc' ⟨-, e1⟩
        exact e (conRow_inj ms hc hc' e1).1
  · unfold pdStep
    refine (putBlk_out _ _ (fun r c hr hc => hRC n n le_rfl (by omega) r hr c hc)).trans ?_
    exact (h4 R C fun i hi => hRC i n (by omega) (by omega)).trans (hout R C fun i k hik hk => hRC i k hik (by omega))

/-- what `computePvDelassusMatrix` returns -/
theorem pvDelassus_ok [LinearOrder K] (h : s.Packed) {q : ℕ → K} (hq : s.At q) {mu : K}
    (hmu : 0 ≤ mu) (hms : ∀ k < nc, 1 ≤ (ms k).j1 ∧ (ms k).j1 < s.n ∧ (ms k).P1.Valid)
    (hdef : s.DampedDef q ms nc mu) (ht : TabOk s.par s.n (jOf ms) (dOf ms) nc t) (x : PData K)
    (hx0 : ∀ r < 6, ∀ c < 6, x.Lam 0 r c = 0) (cd : ℕ → OContact K) (D : ℕ → ℕ → K) :
    ∃ (resp : ℕ → ℕ → ℕ → K) (z : PSim K),
      computePvDelassusMatrix s ms nc t x cd q (conRow ms nc) (conRow ms nc) D mu = .ok () z ∧ z.x.Lam 0 = x.Lam 0 ∧
      (∀ k < nc, ∀ c < (ms k).type.dim, s.IsResponse q ms nc mu k c (resp k c)) ∧
      (∀ i k, i ≤ k → k < nc → ∀ r < (ms i).type.dim, ∀ c < (ms k).type.dim,
        z.D (conRow ms i + r) (conRow ms k + c) = (s.conVel q (ms k) (resp i r)).row c) ∧
      ∀ R C, (∀ i k, i ≤ k → k < nc → ∀ r < (ms i).type.dim, ∀ c < (ms k).type.dim,
        ¬ (R = conRow ms i + r ∧ C = conRow ms k + c)) → z.D R C = D R C := by
  obtain ⟨f1, -⟩ := minvFwd1_ok h hq x.od.data
  change ∀ i, 1 ≤ i → i < s.n → (fwd (osimFwd s q) s.n x.od.data).oMi i = s.oM q i ∧
    (fwd (osimFwd s q) s.n x.od.data).oYaba i = s.oI q i ∧ ∀ l, l < s.jnv i →
    (fwd (osimFwd s q) s.n x.od.data).J (s.iv i + l) = s.Jc q i l at f1
  unfold computePvDelassusMatrix
  rw [if_neg (not_not.2 hmu), if_neg (by simp)]
  set d := fwd (osimFwd s q) s.n x.od.data with hd
  obtain ⟨y1, y2, y3, y5⟩ := pdContact_ok ms mu nc d cd
  set y := upTo (pdContact ms mu) nc (d, cd) with hy
  have hY : ∀ i, 1 ≤ i → i < s.n → y.1.oYaba i = dampI s q ms nc mu i := by
    intro i h1 hi
    rw [y3, (f1 i h1 hi).2.1]
    unfold dampI
    congr 1
    apply sum_congr rfl
    intro k hk
    obtain ⟨k1, kn, -⟩ := hms k (mem_range.1 hk)
    rw [(f1 _ k1 kn).1]
  have hJ : ∀ i, 1 ≤ i → i < s.n → ∀ l, l < s.jnv i → y.1.J (s.iv i + l) = s.Jc q i l := by
    intro i h1 hi l hl
    rw [y1]; exact (f1 i h1 hi).2.2 l hl
  obtain ⟨A, hA⟩ := IsAcc.exists h.par (artI s (minP s y.1.J)) (dampI s q ms nc mu)
  have hP : Prep s q y.1.J (dampI s q ms nc mu) A := by
    refine ⟨hJ, fun i _ _ => dampI_symm .., hA, ?_⟩
    refine art_regular (P := minP s y.1.J) h hA (fun i _ _ => dampI_symm ..) (fun i A hA => hA)
      (fun i A hA v => rfl) (fun i v f => rfl) (fun i => rfl) ?_
    intro w V V0 hV e
    apply hdef w
    have hVV : ∀ i, i < s.n → V i = s.oV q w i := by
      intro i hi; refine Sys.joint_ind s h.par ?_ ?_ i hi <;> clear hi i
      · rw [V0, s.oV_zero]
      · intro i h1 hi ih
        rw [hV i h1 hi, comb_world h hq hJ _ h1 hi, ← ih]; rfl
    rw [← dampedForm_world h hq hms, ← e]
    congr 1
    apply sum_congr rfl
    intro i hi
    rw [hVV i (mem_Ico.1 hi).2]
  have hresp : ∀ k c, ∃ pf r, k < nc → Resp s q y.1.J (dampI s q ms nc mu) A (ms k).j1
      ((y.2 k).oMc1.toActionMatrixInverse.rowF c) pf r := by
    intro k c
    by_cases hk : k < nc
    · obtain ⟨k1, kn, -⟩ := hms k hk
      obtain ⟨pf, r, hr⟩ := resp_exists h hq hP k1 kn ((y.2 k).oMc1.toActionMatrixInverse.rowF c)
      exact ⟨pf, r, fun _ => hr⟩
    · exact ⟨fun _ => 0, fun _ => 0, fun h => absurd h hk⟩
  choose pf rs hr using hresp
  have hrow : ∀ k < nc, ∀ c w, (s.oV q w (ms k).j1).dot ((y.2 k).oMc1.toActionMatrixInverse.rowF c)
      = (s.conVel q (ms k) w).row c := by
    intro k hk c w
    obtain ⟨k1, kn, kv⟩ := hms k hk
    rw [M6.dot_rowF, SE3.toActionMatrixInverse_mul, (y5 k hk).1, (f1 _ k1 kn).1, conVel_world h hq kn kv]
  have hJc : ∀ c < nc, 1 ≤ jOf ms c ∧ jOf ms c < s.n := fun k hk => ⟨(hms k hk).1, (hms k hk).2.1⟩
  obtain ⟨a1, a2⟩ := pdPasses_ok h hJc (dOf_cases ms) ht hA y.2 (x := { x with od := { x.od with data := y.1 } }) rfl hY
  dsimp only
  set w := t.joints.foldl (pdAcc t) (bwd (pdBwd s t) s.n (t.joints.foldl (pdStart t y.2)
    { x with od := { x.od with data := y.1 } })) with hw
  have hprop : ∀ k < nc, ∀ r < dOf ms k, (y.2 k).prop 0 r = (y.2 k).oMc1.toActionMatrixInverse.rowF r := by
    intro k hk r hr
    rw [(y5 k hk).2 r hr, (y5 k hk).1]
  obtain ⟨l1, l2⟩ := pdLoop_ok ms t w (upTo (cempRev s ms t w) nc y.2) nc D
    (fun i r k c => (s.conVel q (ms k) (rs i r)).row c)
    (by
      intro i k hik hk r hrd c hcd
      obtain ⟨g, g1, g2, g3, g4⟩ := pdBlock_ok h hJc ht a1 (by rw [a2]; exact hx0) hik hk
      rw [g4 r hrd c hcd, hprop i (by omega) r hrd, hprop k hk c hcd, ← hrow k hk c]
      exact ((hr i r (by omega)).entry h (hJc i (by omega)).2 (hJc k hk).2 g1 g2 g3 _).symm)
    (by
      intro k hk r hrd c hcd
      have hkk := anc_refl h.par (hJc k hk).2
      rw [pdDiag_ok h hJc ht a1 hk hrd hcd, hprop k hk r hrd, hprop k hk c hcd, ← hrow k hk c]
      have := (hr k r hk).entry h (hJc k hk).2 (hJc k hk).2 hkk hkk (fun _ _ a _ => a)
        ((y.2 k).oMc1.toActionMatrixInverse.rowF c)
      rw [pull_self, show (ms k).j1 = jOf ms k from rfl, pull_self] at this
      exact this.symm)
  refine ⟨rs, _, rfl, a2, ?_, l1, l2⟩
  intro k hk c _ w
  rw [← hrow k hk c w, (hr k c hk).form w, dampedForm_world h hq hms]

end contacts
end field
end Pin
