import Verif.Algo.PvDelassusCore

/-! # The passes of `computePvDelassusMatrix` over the joints -/

namespace Pin
open Finset Classical

section field
variable {K : Type*} [Field K] {s : Sys K}

/-- the number of rows in use at an accumulation joint -/
def rdim (t : AccTab) (a : ℕ) : ℕ := if t.dim a = 3 then 3 else 6

theorem lt_rdim {t : AccTab} {a r : ℕ} (h : r < rdim t a) : t.dim a ≠ 3 ∨ r < 3 := by
  unfold rdim at h
  split at h
  · exact Or.inr h
  · exact Or.inl ‹_›

/-! ## the steps -/

theorem pdBwd_od (t : AccTab) (i : ℕ) (x : PData K) : (pdBwd s t i x).od = osimBwd s i x.od := by
  unfold pdBwd
  dsimp only
  split_ifs <;> rfl

theorem pdBwd_none {t : AccTab} {i : ℕ} (hd : ¬ t.dim i > 0) (x : PData K) :
    pdBwd s t i x = { x with od := osimBwd s i x.od } := by
  unfold pdBwd
  dsimp only
  rw [if_neg hd]

theorem pdBwd_Lam {t : AccTab} {i : ℕ} (hd : t.dim i > 0) (x : PData K) :
    (pdBwd s t i x).Lam = upd x.Lam (t.desc i) (fun r c =>
      if s.jnv i = 1 ∧ t.dim (t.desc i) = 3 ∧ ¬ (r < 3 ∧ c < 3) then x.Lam (t.desc i) r c
      else x.Lam (t.desc i) r c + ∑ k ∈ range (s.jnv i), ∑ l ∈ range (s.jnv i),
        (seg (osimBwd s i x.od).data.J (s.iv i) k).dot (x.emp i r) * ((osimBwd s i x.od).data.joints i).Dinv k l
          * (seg (osimBwd s i x.od).data.J (s.iv i) l).dot (x.emp i c)) := by
  unfold pdBwd
  dsimp only
  rw [if_pos hd]
  split_ifs <;> rfl

theorem pdBwd_emp {t : AccTab} {i : ℕ} (hd : t.dim i > 0) (x : PData K) :
    (pdBwd s t i x).emp = if s.par i > 0 ∧ t.desc (s.par i) = t.desc i then
      upd x.emp (s.par i) (fun r => if t.dim (t.desc i) ≠ 3 ∨ r < 3 then ((osimBwd s i x.od).oL i).tr.mulFF (x.emp i r)
        else x.emp (s.par i) r) else x.emp := by
  unfold pdBwd
  dsimp only
  rw [if_pos hd]
  by_cases h1 : s.par i > 0 ∧ t.desc (s.par i) = t.desc i
  · rw [if_pos h1, if_pos h1]
  · rw [if_neg h1, if_neg h1]
    by_cases h2 : t.desc (s.par i) ≠ t.desc i
    · rw [if_pos h2]
    · rw [if_neg h2]

theorem pdBwd_emp2 {t : AccTab} {i : ℕ} (hd : t.dim i > 0) (x : PData K) :
    (pdBwd s t i x).emp2 = if t.desc (s.par i) ≠ t.desc i then
      upd x.emp2 (t.desc i) (fun r => ((osimBwd s i x.od).oL i).tr.mulFF (x.emp i r)) else x.emp2 := by
  unfold pdBwd
  dsimp only
  rw [if_pos hd]
  by_cases h1 : s.par i > 0 ∧ t.desc (s.par i) = t.desc i
  · rw [if_pos h1, if_neg (by simp [h1.2])]
  · rw [if_neg h1]
    by_cases h2 : t.desc (s.par i) ≠ t.desc i
    · rw [if_pos h2, if_pos h2]
    · rw [if_neg h2, if_neg h2]

variable {Jc dm : ℕ → ℕ} {nc : ℕ} {t : AccTab}

/-- the state of the backward loop when the joints from `k` on have been visited; `E a` are the initial rows at `a` -/
structure BInv (s : Sys K) (t : AccTab) (E : ℕ → ℕ → Force K) (S : ℕ → Motion K) (I0 A : ℕ → M6 K) (L0 : ℕ → ℕ → K)
    (k : ℕ) (x : PData K) : Prop where
  osim : OsimInv s S I0 A k x.od
  emp : ∀ i, 1 ≤ i → i < s.n → t.desc i ≠ 0 → (t.desc i = i ∨ ∃ b, k ≤ b ∧ b < s.n ∧ s.par b = i ∧ t.desc b = t.desc i) →
    ∀ r < rdim t (t.desc i), x.emp i r = pull s.par (lMap s S A) (t.desc i) i (E (t.desc i) r)
  fresh : ∀ a, 1 ≤ a → a < k → a < s.n → t.desc a = a → ∀ r c, x.Lam a r c = 0
  lam : ∀ i, 1 ≤ i → k ≤ i → i < s.n → t.desc i ≠ 0 → (s.par i < k ∨ t.desc (s.par i) ≠ t.desc i) →
    ∀ r < rdim t (t.desc i), ∀ c < rdim t (t.desc i), x.Lam (t.desc i) r c
      = om s.par (lMap s S A) (kForm s S A) (t.desc i) (E (t.desc i) r) (E (t.desc i) c)
        - om s.par (lMap s S A) (kForm s S A) (s.par i) (pull s.par (lMap s S A) (t.desc i) (s.par i) (E (t.desc i) r))
          (pull s.par (lMap s S A) (t.desc i) (s.par i) (E (t.desc i) c))
  emp2 : ∀ i, 1 ≤ i → k ≤ i → i < s.n → t.desc i ≠ 0 → t.desc (s.par i) ≠ t.desc i → ∀ r < rdim t (t.desc i),
    x.emp2 (t.desc i) r = pull s.par (lMap s S A) (t.desc i) (s.par i) (E (t.desc i) r)
  zero : x.Lam 0 = L0

theorem TabD.dim_pos (h : TabD s.par s.n Jc dm nc t) (hdm : ∀ c, 0 < dm c) {i : ℕ} (hi : i < s.n) :
    t.dim i > 0 ↔ (cs s.par Jc nc i).Nonempty := by
  rw [h.dim i hi]
  constructor
  · intro hpos
    by_contra hn
    rw [not_nonempty_iff_eq_empty.1 hn] at hpos
    simp at hpos
  · exact fun hn => sum_pos (fun c _ => hdm c) hn

theorem BInv.step (h : s.Packed) (hJ : ∀ c < nc, 1 ≤ Jc c ∧ Jc c < s.n) (hdm : ∀ c, 0 < dm c)
    (ht : TabD s.par s.n Jc dm nc t) {E : ℕ → ℕ → Force K} {S : ℕ → Motion K} {I0 A : ℕ → M6 K} {L0 : ℕ → ℕ → K}
    (hA : IsAcc s.par s.n (artI s (minP s S)) I0 A) {i : ℕ} (h1 : 1 ≤ i) (hi : i < s.n) {x : PData K}
    (hx : BInv s t E S I0 A L0 (i + 1) x) : BInv s t E S I0 A L0 i (pdBwd s t i x) := by
  have hp := h.par
  have hpi := hp.2 i h1 hi
  obtain ⟨o1, o2, o3⟩ := osim_step h hA h1 hi hx.osim
  by_cases hne : (cs s.par Jc nc i).Nonempty
  swap
  · have h0 := ht.none i h1 hi (not_nonempty_iff_eq_empty.1 hne)
    rw [pdBwd_none (fun hd => hne ((ht.dim_pos hdm hi).1 hd))]
    refine ⟨o1, fun i' i1 hin hd hor => hx.emp i' i1 hin hd (hor.imp id ?_), fun a a1 ai an => hx.fresh a a1 (by omega) an,
      fun i' i1 hk hin hd hor => ?_, fun i' i1 hk hin hd => ?_, hx.zero⟩
    · rintro ⟨b, hb, bn, bp, bd⟩
      refine ⟨b, ?_, bn, bp, bd⟩
      rcases hb.lt_or_eq with hl | hl
      · exact hl
      · rw [← hl, h0] at bd; exact absurd bd.symm hd
    · have : i' ≠ i := by rintro rfl; exact hd h0
      exact hx.lam i' i1 (by omega) hin hd (hor.imp (fun h => by omega) id)
    · have : i' ≠ i := by rintro rfl; exact hd h0
      exact hx.emp2 i' i1 (by omega) hin hd
  have hdi := (ht.dim_pos hdm hi).2 hne
  obtain ⟨d1, d2, d3, d4, d5⟩ := ht.desc_ok hp hJ h1 hi hne
  have hkid : t.desc i = i ∨ ∃ b, i + 1 ≤ b ∧ b < s.n ∧ s.par b = i ∧ t.desc b = t.desc i := by
    by_cases e : t.desc i = i
    · exact Or.inl e
    · right
      obtain ⟨b, hb, ba⟩ := (anc_kid hp h1 _ d2 d1).resolve_left e
      obtain ⟨⟨b1, bn⟩, bp⟩ := mem_kids.1 hb
      have hlt := hp.2 b b1 bn
      have c1 : cs s.par Jc nc (t.desc i) ⊆ cs s.par Jc nc b := cs_mono hp hJ ba
      have c2 : cs s.par Jc nc b ⊆ cs s.par Jc nc i := bp ▸ cs_par hp hJ b1 bn
      have c3 : cs s.par Jc nc b = cs s.par Jc nc (s.par b) := by rw [bp]; exact subset_antisymm c2 (d3 ▸ c1)
      refine ⟨b, by omega, bn, bp, ?_⟩
      have := (ht.kid b b1 bn (by rw [c3, bp]; exact hne)).1 c3
      rw [bp] at this
      exact this.symm
  have hE := hx.emp i h1 hi (by omega) hkid
  have hup : ∀ f : Force K, lMap s S A i (pull s.par (lMap s S A) (t.desc i) i f)
      = pull s.par (lMap s S A) (t.desc i) (s.par i) f := fun f => (pull_up hp h1 _ d2 d1 f).symm
  have hLe : ∀ r < rdim t (t.desc i), ((osimBwd s i x.od).oL i).tr.mulFF (x.emp i r)
      = pull s.par (lMap s S A) (t.desc i) (s.par i) (E (t.desc i) r) := by
    intro r hr
    rw [o2, hE r hr, ← hup]; rfl
  have hold : ∀ r < rdim t (t.desc i), ∀ c < rdim t (t.desc i), x.Lam (t.desc i) r c
      = om s.par (lMap s S A) (kForm s S A) (t.desc i) (E (t.desc i) r) (E (t.desc i) c)
        - om s.par (lMap s S A) (kForm s S A) i (pull s.par (lMap s S A) (t.desc i) i (E (t.desc i) r))
          (pull s.par (lMap s S A) (t.desc i) i (E (t.desc i) c)) := by
    intro r hr c hc
    rcases hkid with e | ⟨b, b1, bn, bp, bd⟩
    · rw [hx.fresh (t.desc i) (by omega) (by omega) d2 d4, e, pull_self, pull_self, sub_self]
    · have := hx.lam b (by omega) b1 bn (by omega) (Or.inl (by omega)) r (by rw [bd]; exact hr) c (by rw [bd]; exact hc)
      rwa [bd, bp] at this
  have hnew : ∀ r < rdim t (t.desc i), ∀ c < rdim t (t.desc i), (pdBwd s t i x).Lam (t.desc i) r c
      = om s.par (lMap s S A) (kForm s S A) (t.desc i) (E (t.desc i) r) (E (t.desc i) c)
        - om s.par (lMap s S A) (kForm s S A) (s.par i) (pull s.par (lMap s S A) (t.desc i) (s.par i) (E (t.desc i) r))
          (pull s.par (lMap s S A) (t.desc i) (s.par i) (E (t.desc i) c)) := by
    intro r hr c hc
    rw [pdBwd_Lam hdi, upd_self, if_neg, hold r hr c hc, o1.cols, o3, hE r hr, hE c hc, om_step hpi, hup, hup]
    · unfold kForm
      ring
    · rintro ⟨-, a, b⟩
      have := lt_rdim hr
      have := lt_rdim hc
      omega
  have hch : ∀ i', i < i' → i' < s.n → t.desc i' = t.desc i → t.desc (s.par i') = t.desc i' ∧ i ≤ s.par i' :=
    fun i' a b c => (ht.chain hp hJ h1 a b (by omega) c.symm).2
  refine ⟨by rw [pdBwd_od]; exact o1, fun i' i1 hin hd hor r hr => ?_, fun a a1 ai an ha r c => ?_,
    fun i' i1 hk hin hd hor r hr c hc => ?_, fun i' i1 hk hin hd hor r hr => ?_, ?_⟩
  · rw [pdBwd_emp hdi]
    by_cases hbr : i' = s.par i ∧ t.desc i' = t.desc i
    · obtain ⟨rfl, e⟩ := hbr
      rw [if_pos ⟨i1, e⟩, upd_self]
      rw [e] at hr ⊢
      rw [if_pos (lt_rdim hr), hLe r hr]
    · have e : (if s.par i > 0 ∧ t.desc (s.par i) = t.desc i then
        upd x.emp (s.par i) (fun r => if t.dim (t.desc i) ≠ 3 ∨ r < 3 then ((osimBwd s i x.od).oL i).tr.mulFF (x.emp i r)
          else x.emp (s.par i) r) else x.emp) i' = x.emp i' := by
        split
        · rename_i hc
          rw [upd_ne]
          rintro rfl
          exact hbr ⟨rfl, hc.2⟩
        · rfl
      rw [e]
      apply hx.emp i' i1 hin hd (hor.imp id ?_) r hr
      rintro ⟨b, hb, bn, bp, bd⟩
      refine ⟨b, ?_, bn, bp, bd⟩
      rcases hb.lt_or_eq with hl | hl
      · exact hl
      · subst hl; exact absurd ⟨bp.symm, bd.symm⟩ hbr
  · rw [pdBwd_Lam hdi, upd_ne _ _ (by omega)]
    exact hx.fresh a a1 (by omega) an ha r c
  · by_cases e : t.desc i' = t.desc i
    · rcases hk.lt_or_eq with hl | hl
      · obtain ⟨c1, c2⟩ := hch i' hl hin e
        rcases hor with h3 | h3
        · omega
        · exact absurd c1 h3
      · subst hl; exact hnew r hr c hc
    · rw [pdBwd_Lam hdi, upd_ne _ _ e]
      have : i' ≠ i := by rintro rfl; exact e rfl
      exact hx.lam i' i1 (by omega) hin hd (hor.imp (fun h => by omega) id) r hr c hc
  · rw [pdBwd_emp2 hdi]
    by_cases e : t.desc i' = t.desc i
    · rcases hk.lt_or_eq with hl | hl
      · exact absurd (hch i' hl hin e).1 hor
      · subst hl; rw [if_pos hor, upd_self]; exact hLe r hr
    · have : i' ≠ i := by rintro rfl; exact e rfl
      have e2 : (if t.desc (s.par i) ≠ t.desc i then
        upd x.emp2 (t.desc i) (fun r => ((osimBwd s i x.od).oL i).tr.mulFF (x.emp i r)) else x.emp2) (t.desc i')
        = x.emp2 (t.desc i') := by
        split
        · rw [upd_ne _ _ e]
        · rfl
      rw [e2]
      exact hx.emp2 i' i1 (by omega) hin hd hor r hr
  · rw [pdBwd_Lam hdi, upd_ne _ _ (by omega)]
    exact hx.zero

/-! ## the loops over the accumulation joints -/

theorem joints_foldl {D : Type*} (f : D → ℕ → D) (p : ℕ → Prop) [DecidablePred p] (n : ℕ) (d : D) :
    ((List.range' 1 (n - 1)).filter (fun i => p i)).foldl f d = fwd (fun i d => if p i then f d i else d) n d := by
  unfold fwd
  rw [List.foldl_filter]
  simp only [decide_eq_true_eq]

/-- the initial rows -/
def eRow (t : AccTab) (cd : ℕ → OContact K) (a r : ℕ) : Force K :=
  if (t.sup a).card = 1 then (cd ((t.on a).getD 0 0)).prop 0 r else (1 : M6 K).rowF r

theorem pdStart_ok (hn : 1 ≤ s.n) (ht : TabOk s.par s.n Jc dm nc t) (cd : ℕ → OContact K) (x : PData K) :
    let y := t.joints.foldl (pdStart t cd) x
    y.od = x.od ∧ y.Lam 0 = x.Lam 0 ∧
    ∀ a, 1 ≤ a → a < s.n → t.desc a = a → (∀ r, y.emp a r = eRow t cd a r) ∧ ∀ r c, y.Lam a r c = 0 := by
  intro y
  have key := fwd_ind (step := fun i d => if t.desc i = i then pdStart t cd d i else d) (n := s.n) (d := x)
    (fun k (y : PData K) => y.od = x.od ∧ y.Lam 0 = x.Lam 0 ∧
      ∀ a, 1 ≤ a → a < k → t.desc a = a → (∀ r, y.emp a r = eRow t cd a r) ∧ ∀ r c, y.Lam a r c = 0) hn
    ⟨rfl, rfl, fun a a1 h => by omega⟩ (by
      rintro i y i1 hi ⟨a1, a2, a3⟩
      split
      · rename_i hd
        refine ⟨a1, ?_, fun a b1 b2 b3 => ?_⟩
        · unfold pdStart; dsimp only; rw [upd_ne _ _ (by omega)]; exact a2
        · unfold pdStart
          dsimp only
          by_cases e : a = i
          · subst e
            rw [upd_self, upd_self]
            refine ⟨fun r => ?_, fun _ _ => rfl⟩
            unfold eRow
            split <;> rfl
          · rw [upd_ne _ _ e, upd_ne _ _ e]
            exact a3 a b1 (by omega) b3
      · rename_i hd
        refine ⟨a1, a2, fun a b1 b2 b3 => a3 a b1 ?_ b3⟩
        rcases Nat.lt_succ_iff_lt_or_eq.1 b2 with h | h
        · exact h
        · subst h; exact absurd b3 hd)
  have e : y = fwd (fun i d => if t.desc i = i then pdStart t cd d i else d) s.n x := by
    show t.joints.foldl (pdStart t cd) x = _
    rw [ht.joints]
    exact joints_foldl (pdStart t cd) (fun i => t.desc i = i) s.n x
  rw [e]
  exact key

theorem TabD.many (ht : TabD s.par s.n Jc dm nc t) (hdm : ∀ c, dm c = 3 ∨ dm c = 6) {a : ℕ} (a1 : 1 ≤ a) (an : a < s.n)
    (h2 : 2 ≤ (cs s.par Jc nc a).card) : (t.sup a).card ≠ 1 ∧ (t.sup a).card > 1 ∧ rdim t a = 6 := by
  rw [ht.sup a a1 an]
  refine ⟨by omega, by omega, ?_⟩
  unfold rdim
  rw [if_neg]
  rw [ht.dim a an]
  have : (cs s.par Jc nc a).card * 3 ≤ ∑ c ∈ cs s.par Jc nc a, dm c := by
    rw [← smul_eq_mul]
    exact card_nsmul_le_sum _ _ _ fun c _ => by rcases hdm c with h | h <;> omega
  omega

/-- what the passes over the joints leave -/
structure Accd (s : Sys K) (t : AccTab) (E : ℕ → ℕ → Force K) (S : ℕ → Motion K) (A : ℕ → M6 K) (x : PData K) : Prop where
  lam : ∀ a, 1 ≤ a → a < s.n → t.desc a = a → ∀ r < rdim t a, ∀ c < rdim t a,
    x.Lam a r c = om s.par (lMap s S A) (kForm s S A) a (E a r) (E a c)
  emp2 : ∀ a, 1 ≤ a → a < s.n → t.desc a = a → t.anc a ≠ 0 → ∀ r < rdim t a,
    x.emp2 a r = pull s.par (lMap s S A) a (t.anc a) (E a r)

theorem pdPasses_ok (h : s.Packed) (hJ : ∀ c < nc, 1 ≤ Jc c ∧ Jc c < s.n) (hdm : ∀ c, dm c = 3 ∨ dm c = 6)
    (ht : TabOk s.par s.n Jc dm nc t) {S : ℕ → Motion K} {I0 A : ℕ → M6 K}
    (hA : IsAcc s.par s.n (artI s (minP s S)) I0 A) (cd : ℕ → OContact K) {x : PData K} (hS : x.od.data.J = S)
    (hY : ∀ i, 1 ≤ i → i < s.n → x.od.data.oYaba i = I0 i) :
    let y := t.joints.foldl (pdAcc t) (bwd (pdBwd s t) s.n (t.joints.foldl (pdStart t cd) x))
    Accd s t (eRow t cd) S A y ∧ y.Lam 0 = x.Lam 0 := by
  intro y
  have hp := h.par
  obtain ⟨s1, s2, s3⟩ := pdStart_ok h.par.1 ht cd x
  have hb := bwd_ind (step := pdBwd s t) (n := s.n) (d := t.joints.foldl (pdStart t cd) x)
    (fun k y => BInv s t (eRow t cd) S I0 A (x.Lam 0) k y) h.par.1
    ⟨⟨by rw [s1, hS], ⟨I0, PAcc.start _ _ _ _, fun i h1 hi _ => by rw [s1]; exact hY i h1 hi⟩⟩,
      fun i i1 hi hd hor r hr => by
        rcases hor with e | ⟨b, hb, hb', -⟩
        · rw [e, pull_self]; exact (s3 i i1 hi e).1 r
        · omega,
      fun a a1 _ an ha => (s3 a a1 an ha).2, fun i _ hk hi => by omega, fun i _ hk hi => by omega, s2⟩
    (fun i z h1 hi hz => hz.step h hJ (fun c => by rcases hdm c with h | h <;> omega) ht.toTabD hA h1 hi)
  set z := bwd (pdBwd s t) s.n (t.joints.foldl (pdStart t cd) x) with hz
  have htop : ∀ a, 1 ≤ a → a < s.n → t.desc a = a → (∀ r < rdim t a, ∀ c < rdim t a, z.Lam a r c
      = om s.par (lMap s S A) (kForm s S A) a (eRow t cd a r) (eRow t cd a c)
        - om s.par (lMap s S A) (kForm s S A) (t.anc a) (pull s.par (lMap s S A) a (t.anc a) (eRow t cd a r))
          (pull s.par (lMap s S A) a (t.anc a) (eRow t cd a c))) ∧
      (t.anc a ≠ 0 → ∀ r < rdim t a, z.emp2 a r = pull s.par (lMap s S A) a (t.anc a) (eRow t cd a r)) := by
    intro a a1 an ha
    obtain ⟨i, i1, hin, hia, hanc, e, hor⟩ := ht.top_ok hp hJ a1 an ha
    constructor
    · intro r hr c hc
      have := hb.lam i i1 i1 hin (by omega) (by
        rcases hor with h0 | ⟨k1, k2, -⟩
        · left; omega
        · right; omega) r (by rw [hia]; exact hr) c (by rw [hia]; exact hc)
      rwa [hia, ← e] at this
    · intro hne r hr
      have := hb.emp2 i i1 i1 hin (by omega) (by
        rcases hor with h0 | ⟨k1, k2, -⟩
        · omega
        · omega) r (by rw [hia]; exact hr)
      rwa [hia, ← e] at this
  have key := fwd_ind (step := fun i d => if t.desc i = i then pdAcc t d i else d) (n := s.n) (d := z)
    (fun k (y : PData K) => y.Lam 0 = x.Lam 0 ∧ y.emp2 = z.emp2 ∧ (∀ a, k ≤ a → y.Lam a = z.Lam a) ∧
      ∀ a, 1 ≤ a → a < k → t.desc a = a → ∀ r < rdim t a, ∀ c < rdim t a,
        y.Lam a r c = om s.par (lMap s S A) (kForm s S A) a (eRow t cd a r) (eRow t cd a c)) h.par.1
    ⟨hb.zero, rfl, fun _ _ => rfl, fun a a1 h => by omega⟩ (by
      rintro i y i1 hi ⟨a1, a2, a3, a4⟩
      by_cases hd : t.desc i = i
      swap
      · rw [if_neg hd]
        refine ⟨a1, a2, fun a ha => a3 a (by omega), fun a b1 b2 b3 => a4 a b1 ?_ b3⟩
        rcases Nat.lt_succ_iff_lt_or_eq.1 b2 with h | h
        · exact h
        · subst h; exact absurd b3 hd
      rw [if_pos hd]
      obtain ⟨t1, t2⟩ := htop i i1 hi hd
      obtain ⟨n1, -, n3⟩ := ht.anc_ok hp hJ i1 hi hd
      unfold pdAcc
      by_cases h0 : t.anc i ≠ 0
      · rw [if_pos h0]
        obtain ⟨n4, n5⟩ := n3.resolve_left h0
        obtain ⟨m1, -, m3⟩ := ht.many hdm (a := t.anc i) (by omega) (by omega) n5
        refine ⟨by dsimp only; rw [upd_ne _ _ (by omega)]; exact a1, a2, fun a ha => by
          dsimp only; rw [upd_ne _ _ (by omega)]; exact a3 a (by omega), fun a b1 b2 b3 r hr c hc => ?_⟩
        dsimp only
        by_cases e : a = i
        · subst e
          rw [upd_self]
          rw [a3 a le_rfl, t1 r hr c hc, a2, t2 h0 r hr, t2 h0 c hc,
            bil_om (par := s.par) (i := t.anc a) (lin_ok s S A)]
          · ring
          · intro m hm k hk
            rw [a4 (t.anc a) (by omega) n1 n4 m (by omega) k (by omega)]
            unfold eRow
            rw [if_neg m1, if_neg m1]
        · rw [upd_ne _ _ e]
          exact a4 a b1 (by omega) b3 r hr c hc
      · rw [if_neg h0]
        refine ⟨a1, a2, fun a ha => a3 a (by omega), fun a b1 b2 b3 r hr c hc => ?_⟩
        by_cases e : a = i
        · subst e
          rw [a3 a le_rfl, t1 r hr c hc, not_not.1 h0, om_zero, sub_zero]
        · exact a4 a b1 (by omega) b3 r hr c hc)
  have e : y = fwd (fun i d => if t.desc i = i then pdAcc t d i else d) s.n z := by
    show t.joints.foldl (pdAcc t) z = _
    rw [ht.joints]
    exact joints_foldl (pdAcc t) (fun i => t.desc i = i) s.n z
  rw [e]
  obtain ⟨k1, k2, -, k4⟩ := key
  exact ⟨⟨k4, fun a a1 an ha hne r hr => by rw [k2]; exact (htop a a1 an ha).2 hne r hr⟩, k1⟩

end field
end Pin
