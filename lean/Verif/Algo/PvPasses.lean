import Verif.Algo.PvLemmas
import Verif.Algo.ConstraintDynamicsSolve

/-!
# The passes of `pv` and the multipliers
-/

namespace Pin
open Finset
set_option linter.unusedSectionVars false
variable {K : Type*} [Field K] {s : Sys K} {ms : ℕ → RCM K} {nc : ℕ} {own : ℕ → ℕ}

/-- what the backward pass leaves at joint `j` -/
structure PvAt (s : Sys K) (x0 y : PvData K) (j : ℕ) : Prop where
  kas : ∀ c < x0.dim j, ∀ l, y.KAS j c l = ((x0.data.joints j).S l).dot (y.KA j c)
  ka : ∀ c < x0.dim j, y.KA (s.par j) (x0.pind j + c) = (x0.data.liMi j).actF (y.KA j c
    - ∑ k ∈ range (s.jnv j), y.KAS j c k • (y.data.joints j).UDinv k)
  la : ∀ r < x0.dim j, ∀ c ≤ r, y.LA (s.par j) (x0.pind j + r) (x0.pind j + c) = y.LA j r c
    + ∑ k ∈ range (s.jnv j), y.KAS j r k * ∑ l ∈ range (s.jnv j), (y.data.joints j).Dinv k l * y.KAS j c l
  lA : ∀ c < x0.dim j, y.lA (s.par j) (x0.pind j + c) = y.lA j c
    + (comb (x0.data.joints j).S (s.jnv j) (fun k => ∑ l ∈ range (s.jnv j), (y.data.joints j).Dinv k l
      * (y.data.u (s.iv j + l) - (x0.bias j).dot ((y.data.joints j).U l))) + x0.bias j).dot (y.KA j c)

theorem pvBwd_ok (h : s.Packed) {x0 : PvData K} (hs : Slots s.par s.n own x0.dim x0.pind)
    (hY : ∀ i, 1 ≤ i → i < s.n → (x0.data.Yaba i).IsSymm) :
    let y := bwd (pvBwd s) s.n x0
    (y.data.liMi = x0.data.liMi ∧ (∀ j, (y.data.joints j).S = (x0.data.joints j).S) ∧ y.bias = x0.bias ∧
      y.dim = x0.dim ∧ y.pind = x0.pind ∧ y.data.a = x0.data.a ∧ y.data.a_gf = x0.data.a_gf ∧ y.lamA = x0.lamA) ∧
    (∀ j < s.n, ∀ c < own j, y.KA j c = x0.KA j c ∧ y.lA j c = x0.lA j c) ∧
    (∀ i < s.n, ∀ r c, c ≤ r → (¬ ∃ k, (1 ≤ k ∧ k < s.n) ∧ s.par k = i ∧ (x0.pind k ≤ r ∧ r < x0.pind k + x0.dim k) ∧
      x0.pind k ≤ c ∧ c < x0.pind k + x0.dim k) → y.LA i r c = x0.LA i r c) ∧
    ∀ j, 1 ≤ j → j < s.n → PvAt s x0 y j := by
  have key := bwd_ind (step := pvBwd s) (n := s.n) (d := x0)
    (P := fun k (y : PvData K) =>
      (y.data.liMi = x0.data.liMi ∧ (∀ j, (y.data.joints j).S = (x0.data.joints j).S) ∧ y.bias = x0.bias ∧
        y.dim = x0.dim ∧ y.pind = x0.pind ∧ y.data.a = x0.data.a ∧ y.data.a_gf = x0.data.a_gf ∧ y.lamA = x0.lamA) ∧
      (∀ i, 1 ≤ i → i < k → (y.data.Yaba i).IsSymm) ∧
      (∀ j < s.n, ∀ c < own j, y.KA j c = x0.KA j c ∧ y.lA j c = x0.lA j c) ∧
      (∀ i < s.n, ∀ r c, c ≤ r → (¬ ∃ k, (1 ≤ k ∧ k < s.n) ∧ s.par k = i ∧ (x0.pind k ≤ r ∧ r < x0.pind k + x0.dim k) ∧
        x0.pind k ≤ c ∧ c < x0.pind k + x0.dim k) → y.LA i r c = x0.LA i r c) ∧
      ∀ j, k ≤ j → j < s.n → PvAt s x0 y j) h.par.1
    ⟨⟨rfl, fun _ => rfl, rfl, rfl, rfl, rfl, rfl, rfl⟩, hY, fun _ _ _ _ => ⟨rfl, rfl⟩, fun _ _ _ _ _ _ => rfl,
      fun j h1 h2 => by omega⟩ ?_
  · exact ⟨key.1, key.2.2.1, key.2.2.2.1, key.2.2.2.2⟩
  rintro i x h1 hi ⟨⟨k1, k2, k3, k4, k5, k6, k7, k8⟩, sy, ow, cr, at'⟩
  have hpi := h.par.2 i h1 hi
  obtain ⟨m1, m2, m3, m4, m5, m6, m7, m8⟩ := pvBwd_keep (s := s) i x
  obtain ⟨c1, c2, c3, c4, c5, c6, c7⟩ := pvBwd_con (s := s) (i := i) x (by omega)
  have hYs : (pvBwd s i x).data.Yaba = if s.par i > 0 then
      upd (upd x.data.Yaba i (artDown (s.jnv i) (x.data.joints i).S (seg s.arm (s.iv i)) (x.data.Yaba i))) (s.par i)
        (x.data.Yaba (s.par i) + (x.data.liMi i).actOn
          (artDown (s.jnv i) (x.data.joints i).S (seg s.arm (s.iv i)) (x.data.Yaba i))) else x.data.Yaba := by
    unfold pvBwd
    by_cases hp0 : s.par i > 0 <;> by_cases hd : x.dim i > 0 <;>
      simp only [hp0, hd, if_true, if_false, upd_self, calcAba_down, upd_ne x.data.Yaba _ (by omega : s.par i ≠ i)]
  set y := pvBwd s i x with hy
  clear_value y
  have hsi := sy i h1 (by omega)
  have hlo := hs.lo i h1 hi
  refine ⟨⟨m1.trans k1, fun j => (m2 j).trans (k2 j), m3.trans k3, m4.trans k4, m5.trans k5, m6.trans k6, m7.trans k7,
    m8.trans k8⟩, ?_, ?_, ?_, ?_⟩
  · intro j hj1 hj
    rw [hYs]
    split
    · by_cases hjp : j = s.par i
      · subst hjp
        rw [upd_self]
        have e1 := sy _ hj1 (by omega)
        have e2 := SE3.actOn_symm (x.data.liMi i) (artDown_symm (n := s.jnv i) (S := (x.data.joints i).S)
          (arm := seg s.arm (s.iv i)) hsi)
        rw [M6.isSymm_iff] at e1 e2 ⊢
        intro u v
        rw [M6.add_mulMF, M6.add_mulMF, Motion.dot_add, Motion.dot_add, e1 u v, e2 u v]
      · rw [upd_ne _ _ hjp, upd_ne _ _ (by omega)]
        exact sy j hj1 (by omega)
    · exact sy j hj1 (by omega)
  · intro j hj c hc
    obtain ⟨o1, o2⟩ := ow j hj c hc
    rw [c5, c7]
    by_cases hjp : j = s.par i
    · subst hjp
      rw [upd_self, upd_self]
      unfold putSeg
      rw [k5, if_neg (by omega), if_neg (by omega)]
      exact ⟨o1, o2⟩
    · rw [upd_ne _ _ hjp, upd_ne _ _ hjp]; exact ⟨o1, o2⟩
  · intro j hj r c hcr hne
    rw [c6]
    by_cases hjp : j = s.par i
    · subst hjp
      rw [upd_self, k4, k5, if_neg]
      · exact cr _ hj r c hcr hne
      · rintro ⟨⟨a, b⟩, d⟩
        exact hne ⟨i, ⟨h1, hi⟩, rfl, ⟨by omega, d⟩, a, by omega⟩
    · rw [upd_ne _ _ hjp]; exact cr j hj r c hcr hne
  · intro j hj hjn
    rcases Nat.eq_or_lt_of_le hj with e | e
    · subst e
      have hKA : y.KA i = x.KA i := by rw [c5, upd_ne _ _ (by omega)]
      have hLA : y.LA i = x.LA i := by rw [c6, upd_ne _ _ (by omega)]
      have hlA : y.lA i = x.lA i := by rw [c7, upd_ne _ _ (by omega)]
      refine ⟨fun c hc l => ?_, fun c hc => ?_, fun r hr c hc => ?_, fun c hc => ?_⟩
      · rw [c4 c (by rw [k4]; exact hc) l, k2, hKA]
      · rw [hKA]
        conv_lhs => rw [c5]
        rw [upd_self, k4, k5, putSeg_read _ _ hc, k1]
      · rw [hLA]
        conv_lhs => rw [c6]
        rw [upd_self, k4, k5, if_pos ⟨⟨by omega, by omega⟩, by omega⟩, Nat.add_sub_cancel_left, Nat.add_sub_cancel_left]
      · rw [hlA, hKA]
        conv_lhs => rw [c7]
        rw [upd_self, k4, k5, putSeg_read _ _ hc, k3, m2, k2]
        congr 4
        funext k
        apply sum_congr rfl
        intro l _
        have e1 : ((x0.data.joints i).S l).dot (-((x.data.Yaba i).mulMF (x0.bias i)))
            = -(x0.bias i).dot ((y.data.joints i).U l) := by
          rw [c2, upd_self, calcAba_U, k2, hsi.dot_comm]
          simp [Motion.dot, V3.dot]; ring
        rw [e1]; ring
    · have ha := at' j (by omega) hjn
      have hjp : j ≠ s.par i := by omega
      have hji : j ≠ i := by omega
      have hKA : y.KA j = x.KA j := by rw [c5, upd_ne _ _ hjp]
      have hLA : y.LA j = x.LA j := by rw [c6, upd_ne _ _ hjp]
      have hlA : y.lA j = x.lA j := by rw [c7, upd_ne _ _ hjp]
      have hKS : y.KAS j = x.KAS j := c3 j hji
      have hjo : y.data.joints j = x.data.joints j := by rw [c2, upd_ne _ _ hji]
      have hu : ∀ l < s.jnv j, y.data.u (s.iv j + l) = x.data.u (s.iv j + l) := by
        intro l hl
        rw [c1]
        unfold addSeg
        rw [if_neg]
        rintro ⟨a, b⟩
        exact hji (h.inj (by omega) hjn h1 hi hl (k := l) (l := s.iv j + l - s.iv i) (by omega) (by omega)).1
      have hsep : s.par j = s.par i → x0.pind j + x0.dim j ≤ x0.pind i := fun e' => hs.sep i j h1 e hjn e'.symm
      have hrow : ∀ c < x0.dim j, y.KA (s.par j) (x0.pind j + c) = x.KA (s.par j) (x0.pind j + c) ∧
          y.lA (s.par j) (x0.pind j + c) = x.lA (s.par j) (x0.pind j + c) := by
        intro c hc
        rw [c5, c7]
        by_cases hpp : s.par j = s.par i
        · have := hsep hpp
          rw [hpp, upd_self, upd_self]
          unfold putSeg
          rw [k5, if_neg (by omega), if_neg (by omega)]
          exact ⟨rfl, rfl⟩
        · rw [upd_ne _ _ hpp, upd_ne _ _ hpp]; exact ⟨rfl, rfl⟩
      have hrowL : ∀ r < x0.dim j, ∀ c ≤ r, y.LA (s.par j) (x0.pind j + r) (x0.pind j + c)
          = x.LA (s.par j) (x0.pind j + r) (x0.pind j + c) := by
        intro r hr c hc
        rw [c6]
        by_cases hpp : s.par j = s.par i
        · have := hsep hpp
          rw [hpp, upd_self, k5, if_neg (by omega)]
        · rw [upd_ne _ _ hpp]
      refine ⟨fun c hc l => ?_, fun c hc => ?_, fun r hr c hc => ?_, fun c hc => ?_⟩
      · rw [hKS, hKA]; exact ha.kas c hc l
      · rw [(hrow c hc).1, ha.ka c hc, hKA, hKS, hjo]
      · rw [hrowL r hr c hc, ha.la r hr c hc, hLA, hKS, hjo]
      · rw [(hrow c hc).2, ha.lA c hc, hlA, hKA, hjo]
        congr 4
        funext k
        exact sum_congr rfl fun l hl => by rw [hu l (mem_range.1 hl)]

theorem lowSym_add (A : ℕ → ℕ → K) (n : ℕ) (mu : K) {r c : ℕ} (hr : r < n) :
    lowSym (fun r c => A r c + if r = c ∧ r < n then mu else 0) r c = lowSym A r c + if r = c then mu else 0 := by
  unfold lowSym
  by_cases h : c ≤ r
  · rw [if_pos h, if_pos h]; simp [hr]
  · rw [if_neg h, if_neg h]
    dsimp only
    rw [if_neg (by omega), if_neg (by omega)]

theorem pvLlt_eq {n : ℕ} {A : ℕ → ℕ → K} (h : InvOk n (lowSym A)) (b : ℕ → K) {r : ℕ} (hr : r < n) :
    ∑ c ∈ range n, lowSym A r c * pvLlt n A b c = b r := by
  unfold pvLlt
  simp only [mul_sum]
  rw [sum_comm]
  have : ∀ c ∈ range n, ∑ k ∈ range n, lowSym A r k * (invBlock n (lowSym A) k c * b c) = if r = c then b c else 0 := by
    intro c hc
    have := mul_invBlock h hr (mem_range.1 hc)
    rw [sum_congr rfl fun k _ => by rw [← mul_assoc], ← sum_mul, this]
    split <;> simp
  rw [sum_congr rfl this, sum_ite_eq, if_pos (mem_range.2 hr)]

/-! ## the forward pass -/

/-- what the last pass leaves -/
structure PvEnd (s : Sys K) (x y : PvData K) (k : ℕ) : Prop where
  a0 : y.data.a 0 = x.data.a 0
  lam0 : y.lamA 0 = x.lamA 0
  keep : y = { x with data := { x.data with a := y.data.a, ddq := y.data.ddq }, lamA := y.lamA }
  acc : ∀ i, 1 ≤ i → i < k → y.data.a i = x.bias i + (x.data.liMi i).actInv (y.data.a (s.par i))
    + comb (x.data.joints i).S (s.jnv i) (s.vs y.data.ddq i)
  ddq : ∀ i, 1 ≤ i → i < k → ∀ l < s.jnv i, y.data.ddq (s.iv i + l)
    = (∑ m ∈ range (s.jnv i), (x.data.joints i).Dinv l m * x.data.u (s.iv i + m))
    - (x.bias i + (x.data.liMi i).actInv (y.data.a (s.par i))).dot ((x.data.joints i).UDinv l)
    - ∑ c ∈ range (x.dim i), y.lamA i c * ∑ m ∈ range (s.jnv i), (x.data.joints i).Dinv l m * x.KAS i c m
  lam : ∀ i, 1 ≤ i → i < k → ∀ c < x.dim i, y.lamA i c = y.lamA (s.par i) (x.pind i + c)

theorem pvFwd2_ok (h : s.Packed) (x : PvData K) : PvEnd s x (fwd (pvFwd2 s) s.n x) s.n := by
  apply fwd_ind (P := fun k (y : PvData K) => PvEnd s x y k) h.par.1
  · exact ⟨rfl, rfl, rfl, fun i _ _ => by omega, fun i _ _ => by omega, fun i _ _ => by omega⟩
  rintro i y h1 hi ⟨b0, bl, bk, ba, bd, bm⟩
  have hpi := h.par.2 i h1 hi
  have ej : y.data.joints = x.data.joints := by rw [bk]
  have eu : y.data.u = x.data.u := by rw [bk]
  have el : y.data.liMi = x.data.liMi := by rw [bk]
  have eb : y.bias = x.bias := by rw [bk]
  have ed : y.dim = x.dim := by rw [bk]
  have ep : y.pind = x.pind := by rw [bk]
  have eK : y.KAS = x.KAS := by rw [bk]
  set ap := (x.data.liMi i).actInv (y.data.a (s.par i)) + x.bias i with hap
  set lm : ℕ → K := fun c => if c < x.dim i then y.lamA (s.par i) (x.pind i + c) else y.lamA i c with hlm
  set dd : ℕ → K := putSeg y.data.ddq (s.iv i) (s.jnv i) (fun k =>
      (∑ l ∈ range (s.jnv i), (x.data.joints i).Dinv k l * x.data.u (s.iv i + l)) - ap.dot ((x.data.joints i).UDinv k)) with hdd
  set dq : ℕ → K := addSeg dd (s.iv i) (s.jnv i) (fun k =>
      -(∑ c ∈ range (x.dim i), lm c * ∑ l ∈ range (s.jnv i), (x.data.joints i).Dinv k l * x.KAS i c l)) with hdq
  have e : pvFwd2 s i y = { y with
      data := { y.data with
        a := upd y.data.a i (ap + comb (x.data.joints i).S (s.jnv i) (seg dq (s.iv i)))
        ddq := dq }
      lamA := upd y.lamA i lm } := by
    simp only [pvFwd2, ej, eu, el, eb, ed, ep, eK, upd_self, Function.update_idem]
    rfl
  rw [e]
  have hq : ∀ j, 1 ≤ j → j < s.n → j ≠ i → ∀ l < s.jnv j, dq (s.iv j + l) = y.data.ddq (s.iv j + l) := by
    intro j hj1 hj hji l hl
    have hn : ¬ (s.iv i ≤ s.iv j + l ∧ s.iv j + l < s.iv i + s.jnv i) := by
      rintro ⟨a, b⟩
      exact hji (h.inj hj1 hj h1 hi hl (k := l) (l := s.iv j + l - s.iv i) (by omega) (by omega)).1
    rw [hdq, hdd]
    unfold addSeg putSeg
    rw [if_neg hn, if_neg hn]
  refine ⟨?_, ?_, ?_, ?_, ?_, ?_⟩
  · change upd y.data.a i _ 0 = _
    rw [upd_ne _ _ (by omega)]; exact b0
  · change upd y.lamA i _ 0 = _
    rw [upd_ne _ _ (by omega)]; exact bl
  · conv_lhs => rw [bk]
  · intro j hj1 hj
    change upd y.data.a i _ j = x.bias j + (x.data.liMi j).actInv (upd y.data.a i _ (s.par j)) + comb _ _ (s.vs dq j)
    rcases Nat.eq_or_lt_of_le (Nat.le_of_lt_succ hj) with e | e
    · subst e
      rw [upd_self, upd_ne _ _ (by omega), hap, add_comm (x.bias j)]
      rfl
    · have := h.par.2 j hj1 (by omega)
      rw [upd_ne _ _ (by omega), upd_ne _ _ (by omega), ba j hj1 e]
      congr 1
      exact comb_congr (fun _ _ => rfl) (fun k hk => (hq j hj1 (by omega) (by omega) k hk).symm)
  · intro j hj1 hj l hl
    change dq _ = _ - (x.bias j + (x.data.liMi j).actInv (upd y.data.a i _ (s.par j))).dot _
      - ∑ c ∈ _, upd y.lamA i lm j c * _
    rcases Nat.eq_or_lt_of_le (Nat.le_of_lt_succ hj) with e | e
    · subst e
      rw [upd_self, upd_ne _ _ (by omega), hdq, hdd]
      unfold addSeg
      rw [if_pos ⟨by omega, by omega⟩, putSeg_read _ _ hl, Nat.add_sub_cancel_left, hap, add_comm (x.bias j)]
      ring
    · have := h.par.2 j hj1 (by omega)
      rw [upd_ne _ _ (by omega), upd_ne _ _ (by omega), hq j hj1 (by omega) (by omega) l hl, bd j hj1 e l hl]
  · intro j hj1 hj c hc
    change upd y.lamA i lm j c = upd y.lamA i lm (s.par j) _
    rcases Nat.eq_or_lt_of_le (Nat.le_of_lt_succ hj) with e | e
    · subst e
      rw [upd_self, upd_ne _ _ (by omega), hlm]
      dsimp only
      rw [if_pos hc]
    · have := h.par.2 j hj1 (by omega)
      rw [upd_ne _ _ (by omega), upd_ne _ _ (by omega)]
      exact bm j hj1 e c hc

section order
variable [LinearOrder K]

/-! ## the multipliers -/

theorem pvProx_ok (st : ProxSet K) : ∀ (n : ℕ) (x : PvData K),
    let y := pvProx st (n + 1) x
    y = { x with lamA := y.lamA, prox := y.prox, absRes := y.absRes } ∧ (∀ j, j ≠ 0 → y.lamA j = x.lamA j) ∧
    ∃ p : ℕ → K, y.lamA 0 = pvLlt (x.dim 0) (x.LA 0) (fun r => st.mu * p r + x.lA 0 r) ∧
      y.absRes = infNorm (x.dim 0) (fun r => p r - y.lamA 0 r) := by
  intro n
  induction n with
  | zero =>
    intro x
    simp only [pvProx, upd_self, Function.update_idem]
    split
    · exact ⟨rfl, fun j hj => upd_ne _ _ hj, x.prox, by dsimp only; rw [Function.update_self], by dsimp only; rw [Function.update_self]⟩
    · exact ⟨rfl, fun j hj => upd_ne _ _ hj, x.prox, by dsimp only; rw [Function.update_self], by dsimp only; rw [Function.update_self]⟩
  | succ n ih =>
    intro x
    rw [pvProx]
    dsimp only
    simp only [upd_self, Function.update_idem]
    split
    · exact ⟨rfl, fun j hj => upd_ne _ _ hj, x.prox, by dsimp only; rw [Function.update_self], by dsimp only; rw [Function.update_self]⟩
    · obtain ⟨e1, e2, p, e3, e4⟩ := ih { x with
        lamA := upd x.lamA 0 (pvLlt (x.dim 0) (x.LA 0) (fun r => st.mu * x.prox r + x.lA 0 r))
        absRes := infNorm (x.dim 0) (fun r => x.prox r
          - pvLlt (x.dim 0) (x.LA 0) (fun r => st.mu * x.prox r + x.lA 0 r) r)
        prox := pvLlt (x.dim 0) (x.LA 0) (fun r => st.mu * x.prox r + x.lA 0 r) }
      exact ⟨e1, fun j hj => (e2 j hj).trans (upd_ne _ _ hj), p, e3, e4⟩

theorem pvSolve_ok (st : ProxSet K) (hn : 1 ≤ st.maxIter) (x : PvData K) (hd : 0 < x.dim 0) :
    let y := pvSolve st x
    let b : ℕ → K := fun c => x.lA 0 c + (x.data.a_gf 0).dot (x.KA 0 c)
    let A := fun r c => x.LA 0 r c + if r = c ∧ r < x.dim 0 then st.mu else 0
    y = { x with lA := y.lA, LA := upd x.LA 0 A, lamA := y.lamA, prox := y.prox, absRes := y.absRes } ∧
    ∃ p : ℕ → K, y.lamA 0 = pvLlt (x.dim 0) A (fun r => st.mu * p r + b r) ∧
      y.absRes = infNorm (x.dim 0) (fun r => p r - y.lamA 0 r) := by
  obtain ⟨n, hn⟩ : ∃ n, st.maxIter = n + 1 := ⟨st.maxIter - 1, by omega⟩
  unfold pvSolve
  rw [if_pos hd, hn]
  obtain ⟨e1, e2, p, e3, e4⟩ := pvProx_ok st n { x with
    lA := upd x.lA 0 (fun c => x.lA 0 c + (x.data.a_gf 0).dot (x.KA 0 c))
    lamA := upd x.lamA 0 (upd x.lA 0 (fun c => x.lA 0 c + (x.data.a_gf 0).dot (x.KA 0 c)) 0)
    LA := upd x.LA 0 (fun r c => x.LA 0 r c + if r = c ∧ r < x.dim 0 then st.mu else 0)
    prox := fun _ => 0 }
  dsimp only at e1 e3 e4 ⊢
  rw [upd_self, upd_self] at e3
  exact ⟨by rw [e1], p, e3, e4⟩

theorem pvSolve_none (st : ProxSet K) (x : PvData K) (hd : x.dim 0 = 0) : pvSolve st x = x := by
  unfold pvSolve
  rw [if_neg (by omega)]

theorem pvProx_keep (st : ProxSet K) : ∀ (n : ℕ) (x : PvData K),
    pvProx st n x = { x with lamA := (pvProx st n x).lamA, prox := (pvProx st n x).prox, absRes := (pvProx st n x).absRes }
  | 0, _ => rfl
  | n + 1, x => (pvProx_ok st n x).1

theorem pvSolve_keep (st : ProxSet K) (x : PvData K) :
    (pvSolve st x).dim = x.dim ∧ (pvSolve st x).pind = x.pind ∧ (pvSolve st x).KA = x.KA ∧
    (∀ i r c, i ≠ 0 → (pvSolve st x).LA i r c = x.LA i r c) ∧
    ∀ r c, r ≠ c → (pvSolve st x).LA 0 r c = x.LA 0 r c := by
  unfold pvSolve
  split
  · have := pvProx_keep st st.maxIter { x with
      lA := upd x.lA 0 (fun c => x.lA 0 c + (x.data.a_gf 0).dot (x.KA 0 c))
      lamA := upd x.lamA 0 (upd x.lA 0 (fun c => x.lA 0 c + (x.data.a_gf 0).dot (x.KA 0 c)) 0)
      LA := upd x.LA 0 (fun r c => x.LA 0 r c + if r = c ∧ r < x.dim 0 then st.mu else 0)
      prox := fun _ => 0 }
    dsimp only at this ⊢
    rw [this]
    refine ⟨rfl, rfl, rfl, fun i r c hi => ?_, fun r c hr => ?_⟩
    · dsimp only; rw [upd_ne _ _ hi]
    · dsimp only; rw [upd_self, if_neg (fun e => hr e.1), add_zero]
  · exact ⟨rfl, rfl, rfl, fun _ _ _ _ => rfl, fun _ _ _ => rfl⟩

/-! ## the passes before the multipliers -/

theorem pvZero_ok (x : PvData K) (nc : ℕ) :
    let y := upTo (pvZero ms) nc x
    y = { x with lA := y.lA, LA := y.LA } ∧ (∀ k < nc, ∀ c, y.lA (ms k).j1 c = 0) ∧
    ∀ i r c, y.LA i r c ≠ 0 → x.LA i r c ≠ 0 := by
  apply upTo_ind (P := fun n (y : PvData K) => y = { x with lA := y.lA, LA := y.LA } ∧
    (∀ k < n, ∀ c, y.lA (ms k).j1 c = 0) ∧ ∀ i r c, y.LA i r c ≠ 0 → x.LA i r c ≠ 0)
  · exact ⟨rfl, fun k hk => by omega, fun _ _ _ h => h⟩
  · rintro n y hn ⟨a, b, c⟩
    refine ⟨?_, fun k hk r => ?_, fun i r c' hne => ?_⟩
    · conv_lhs => rw [pvZero, a]
      rfl
    · change upd y.lA (ms n).j1 (fun _ => 0) _ _ = _
      by_cases hj : (ms k).j1 = (ms n).j1
      · rw [hj, upd_self]
      · rw [upd_ne _ _ hj]
        refine b k ?_ r
        rcases Nat.eq_or_lt_of_le (Nat.le_of_lt_succ hk) with e | e
        · exact absurd (by rw [e]) hj
        · exact e
    · change upd y.LA (ms n).j1 (fun _ _ => 0) i r c' ≠ 0 at hne
      by_cases hj : i = (ms n).j1
      · rw [hj, upd_self] at hne; exact absurd rfl hne
      · rw [upd_ne _ _ hj] at hne; exact c i r c' hne

/-- the state before the backward pass -/
theorem pvSetup_ok (h : s.Packed) {lg : SE3 K → Motion K} {x : PvData K} (hr : PvReady s ms nc x)
    {q : ℕ → K} (hq : s.At q) (v tau : ℕ → K) (ks : ℕ → Corr K) (cd : ℕ → PvCon K) :
    let y := pvSetup lg s x q v tau ms ks nc cd
    PvReady s ms nc y.1 ∧ PvSet s q v tau y.1 ∧
    (∀ k < nc, ∀ r < (ms k).type.dim, y.1.lA (ms k).j1 (pvOwn ms k (ms k).j1 + r) = pvVal lg ms ks y.1 cd k r) ∧
    ∀ k < nc, (y.2 k).aerr = (pvFeedback lg (ms k) (ks k) (cd k)).aerr := by
  unfold pvSetup
  set bp := decide (∃ k < nc, ¬ ∀ i < (ms k).type.dim, (ks k).Kp i = 0)
  dsimp only
  set x1 : PvData K := { x with data := { x.data with
    v := upd x.data.v 0 0
    a_gf := upd x.data.a_gf 0 (-s.grav)
    a := upd x.data.a 0 (upd x.data.a_gf 0 (-s.grav) 0)
    f := upd x.data.f 0 0
    u := tau } } with hx1
  obtain ⟨z1, z2, z3⟩ := pvZero_ok (ms := ms) x1 nc
  set x2 := upTo (pvZero ms) nc x1 with hx2
  clear_value x2
  have d2 : x2.data = x1.data := by rw [z1]
  obtain ⟨f1, f2⟩ := pvFwd1_ok h.par hq v tau bp (x := x2) (by rw [d2, hx1]; dsimp only; rw [upd_self])
    (by rw [d2, hx1]; dsimp only; rw [upd_self, upd_self]) (by rw [d2])
  set x3 := fwd (pvFwd1 s bp q v) s.n x2 with hx3
  clear_value x3
  have k3 : x3.dim = x.dim ∧ x3.pind = x.pind ∧ x3.KA = x.KA ∧ x3.LA = x2.LA ∧ x3.lA = x2.lA := by
    rw [f2, z1]
    exact ⟨rfl, rfl, rfl, rfl, rfl⟩
  obtain ⟨k31, k32, k33, k34, k35⟩ := k3
  obtain ⟨l1, l2⟩ := pvContact_ok lg ms ks nc x3 cd
  set y := upTo (pvContact lg ms ks x3) nc ⟨x3.lA, cd, fun _ => 0⟩ with hy
  clear_value y
  refine ⟨⟨?_, ?_, ?_⟩, ⟨f1.al, f1.agf, f1.a0, f1.agf0⟩, ?_, l2⟩
  · change Slots _ _ _ x3.dim x3.pind
    rw [k31, k32]; exact hr.slots
  · change ∀ k < nc, ∀ r < (ms k).type.dim, x3.KA _ _ = _
    rw [k33]; exact hr.KA
  · intro i hi r hr' c hc hne
    change x3.LA i r c ≠ 0 at hne
    change r < x3.dim i at hr'
    change ∃ k, _ ∧ _ ∧ (x3.pind k ≤ r ∧ r < x3.pind k + x3.dim k) ∧ x3.pind k ≤ c ∧ c < x3.pind k + x3.dim k
    rw [k34] at hne
    rw [k31] at hr' ⊢
    rw [k32]
    exact hr.LA i hi r hr' c hc (z3 i r c hne)
  · intro k hk r hr'
    rw [l1 k hk r hr', k35, z2 k hk, zero_add]
    rfl

end order
end Pin
