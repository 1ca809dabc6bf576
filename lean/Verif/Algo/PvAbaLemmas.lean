import Verif.Algo.PvMain
import Verif.Spec.PvAba

/-!
# The passes of `constrainedABA`
-/

namespace Pin
open Finset
set_option linter.unusedSectionVars false
variable {K : Type*} [Field K] {s : Sys K} {q v : ℕ → K} {ms : ℕ → RCM K} {nc : ℕ}

/-! ## the forward pass -/

/-- what a forward pass leaves -/
structure CabaEnd (s : Sys K) (sup : Bool) (x y : PvData K) (k : ℕ) : Prop where
  a0 : y.data.a 0 = x.data.a 0
  keep : y = { x with data := { x.data with a := y.data.a, ddq := y.data.ddq } }
  acc : ∀ i, 1 ≤ i → i < k → decide (x.dim i > 0) = sup →
    y.data.a i = x.bias i + (x.data.liMi i).actInv (y.data.a (s.par i))
      + comb (x.data.joints i).S (s.jnv i) (s.vs y.data.ddq i) ∧
    ∀ l < s.jnv i, y.data.ddq (s.iv i + l)
      = (∑ m ∈ range (s.jnv i), (x.data.joints i).Dinv l m * x.data.u (s.iv i + m))
      - (x.bias i + (x.data.liMi i).actInv (y.data.a (s.par i))).dot ((x.data.joints i).UDinv l)
  oth : ∀ i, 1 ≤ i → i < s.n → decide (x.dim i > 0) ≠ sup → y.data.a i = x.data.a i ∧
    ∀ l < s.jnv i, y.data.ddq (s.iv i + l) = x.data.ddq (s.iv i + l)

theorem cabaFwd_ok (h : s.Packed) (sup : Bool) (x : PvData K) : CabaEnd s sup x (fwd (cabaFwd s sup) s.n x) s.n := by
  apply fwd_ind (P := fun k (y : PvData K) => CabaEnd s sup x y k) h.par.1
  · exact ⟨rfl, rfl, fun i _ _ => by omega, fun i _ _ _ => ⟨rfl, fun _ _ => rfl⟩⟩
  rintro i y h1 hi ⟨b0, bk, ba, bo⟩
  have hpi := h.par.2 i h1 hi
  have ej : y.data.joints = x.data.joints := by rw [bk]
  have eu : y.data.u = x.data.u := by rw [bk]
  have el : y.data.liMi = x.data.liMi := by rw [bk]
  have eb : y.bias = x.bias := by rw [bk]
  have ed : y.dim = x.dim := by rw [bk]
  by_cases hs : decide (x.dim i > 0) = sup
  swap
  · have e : cabaFwd s sup i y = y := by
      unfold cabaFwd
      rw [ed, if_neg hs]
    rw [e]
    refine ⟨b0, bk, fun j hj1 hj hjs => ?_, bo⟩
    rcases Nat.eq_or_lt_of_le (Nat.le_of_lt_succ hj) with e | e
    · subst e; exact absurd hjs hs
    · exact ba j hj1 e hjs
  set ap := (x.data.liMi i).actInv (y.data.a (s.par i)) + x.bias i with hap
  set dq : ℕ → K := putSeg y.data.ddq (s.iv i) (s.jnv i) (fun k =>
      (∑ l ∈ range (s.jnv i), (x.data.joints i).Dinv k l * x.data.u (s.iv i + l)) - ap.dot ((x.data.joints i).UDinv k)) with hdq
  have e : cabaFwd s sup i y = { y with
      data := { y.data with
        a := upd y.data.a i (ap + comb (x.data.joints i).S (s.jnv i) (seg dq (s.iv i)))
        ddq := dq } } := by
    simp only [cabaFwd, ej, eu, el, eb, ed, hs, if_true, upd_self, Function.update_idem]
    rfl
  rw [e]
  have hq : ∀ j, 1 ≤ j → j < s.n → j ≠ i → ∀ l < s.jnv j, dq (s.iv j + l) = y.data.ddq (s.iv j + l) := by
    intro j hj1 hj hji l hl
    have hn : ¬ (s.iv i ≤ s.iv j + l ∧ s.iv j + l < s.iv i + s.jnv i) := by
      rintro ⟨a, b⟩
      exact hji (h.inj hj1 hj h1 hi hl (k := l) (l := s.iv j + l - s.iv i) (by omega) (by omega)).1
    rw [hdq]
    unfold putSeg
    rw [if_neg hn]
  refine ⟨?_, ?_, ?_, ?_⟩
  · change upd y.data.a i _ 0 = _
    rw [upd_ne _ _ (by omega)]; exact b0
  · conv_lhs => rw [bk]
  · intro j hj1 hj hjs
    change upd y.data.a i _ j = x.bias j + (x.data.liMi j).actInv (upd y.data.a i _ (s.par j)) + comb _ _ (s.vs dq j) ∧
      ∀ l < s.jnv j, dq _ = _ - (x.bias j + (x.data.liMi j).actInv (upd y.data.a i _ (s.par j))).dot _
    rcases Nat.eq_or_lt_of_le (Nat.le_of_lt_succ hj) with e | e
    · subst e
      rw [upd_self, upd_ne _ _ (by omega)]
      refine ⟨?_, fun l hl => ?_⟩
      · rw [hap, add_comm (x.bias j)]; rfl
      · rw [hdq, putSeg_read _ _ hl, hap, add_comm (x.bias j)]
    · have := h.par.2 j hj1 (by omega)
      obtain ⟨i1, i2⟩ := ba j hj1 e hjs
      rw [upd_ne _ _ (by omega), upd_ne _ _ (by omega), i1]
      refine ⟨?_, fun l hl => ?_⟩
      · congr 1
        exact comb_congr (fun _ _ => rfl) (fun k hk => (hq j hj1 (by omega) (by omega) k hk).symm)
      · rw [hq j hj1 (by omega) (by omega) l hl, i2 l hl]
  · intro j hj1 hj hjs
    have hji : j ≠ i := by rintro rfl; exact hjs hs
    obtain ⟨i1, i2⟩ := bo j hj1 hj hjs
    refine ⟨?_, fun l hl => ?_⟩
    · change upd y.data.a i _ j = _
      rw [upd_ne _ _ hji]; exact i1
    · exact (hq j hj1 hj hji l hl).trans (i2 l hl)

/-! ## the reduced backward pass -/

/-- how the reduced pass carries a force to the parent -/
def redT (s : Sys K) (q : ℕ → K) (UD : ℕ → ℕ → Force K) (c : ℕ) (f : Force K) : Force K :=
  (s.X q c).actF (f - ∑ k ∈ range (s.jnv c), (s.S q c k).dot f • UD c k)

theorem redT_zero (UD : ℕ → ℕ → Force K) (c : ℕ) : redT s q UD c 0 = 0 := by
  unfold redT
  have : ∀ k ∈ range (s.jnv c), (s.S q c k).dot (0 : Force K) • UD c k = 0 := by
    intro k _
    rw [show (s.S q c k).dot (0 : Force K) = 0 by simp [Motion.dot, V3.dot], zero_smul]
  rw [sum_eq_zero this, sub_zero]
  ext <;> simp [SE3.actF, M3.mulVec, V3.cross]

theorem cabaRed_ok (h : s.Packed) {x : PvData K}
    (hsup : ∀ i, 1 ≤ i → i < s.n → 0 < x.dim i → 0 < x.dim (s.par i))
    (hli : ∀ i, 1 ≤ i → i < s.n → x.data.liMi i = s.X q i ∧ (x.data.joints i).S = s.S q i) :
    let y := bwd (cabaRed s) s.n x
    y = { x with data := { x.data with u := y.data.u, f := y.data.f } } ∧
    ∃ e : ℕ → Force K, IsAcc s.par s.n (redT s q (fun i => (x.data.joints i).UDinv))
        (fun i => if 0 < x.dim i then x.data.f i else 0) e ∧
      ∀ i, 1 ≤ i → i < s.n → ∀ l < s.jnv i, y.data.u (s.iv i + l) = x.data.u (s.iv i + l) - (s.S q i l).dot (e i) := by
  have key := bwd_ind (step := cabaRed s) (n := s.n) (d := x)
    (P := fun k (y : PvData K) =>
      y = { x with data := { x.data with u := y.data.u, f := y.data.f } } ∧
      ∃ e : ℕ → Force K, PAcc s.par s.n (redT s q (fun i => (x.data.joints i).UDinv))
          (fun i => if 0 < x.dim i then x.data.f i else 0) k e ∧
        (∀ i, 1 ≤ i → i < k → i < s.n → (0 < x.dim i → y.data.f i = e i) ∧ (¬ 0 < x.dim i → e i = 0) ∧
          ∀ l < s.jnv i, y.data.u (s.iv i + l) = x.data.u (s.iv i + l)) ∧
        ∀ i, 1 ≤ i → k ≤ i → i < s.n → ∀ l < s.jnv i,
          y.data.u (s.iv i + l) = x.data.u (s.iv i + l) - (s.S q i l).dot (e i)) h.par.1
    ⟨rfl, _, PAcc.start _ _ _ _, fun i _ _ _ => ⟨fun hd => by rw [if_pos hd], fun hd => by rw [if_neg hd], fun _ _ => rfl⟩,
      fun i _ _ _ => by omega⟩ ?_
  · obtain ⟨k1, e, k2, k3, k4⟩ := key
    exact ⟨k1, e, PAcc.done k2, fun i h1 hi => k4 i h1 h1 hi⟩
  rintro i y h1 hi ⟨k1, e, k2, k3, k4⟩
  have hpi := h.par.2 i h1 hi
  have ej : y.data.joints = x.data.joints := by rw [k1]
  have el : y.data.liMi = x.data.liMi := by rw [k1]
  have ed : y.dim = x.dim := by rw [k1]
  obtain ⟨hl, hS⟩ := hli i h1 hi
  obtain ⟨f1, f2, f3⟩ := k3 i h1 (by omega) hi
  by_cases hd : 0 < x.dim i
  swap
  · have ey : cabaRed s i y = y := by
      unfold cabaRed
      rw [ed, if_neg hd]
    rw [ey]
    refine ⟨k1, e, PAcc.step h.par h1 hi k2 fun j _ => ?_, fun j hj1 hj hjn => k3 j hj1 (by omega) hjn, fun j hj1 hj hjn l hl => ?_⟩
    · rw [f2 hd, redT_zero, add_zero, ite_self]
    · rcases Nat.eq_or_lt_of_le hj with e' | e'
      · subst e'
        rw [f3 l hl, f2 hd]
        simp [Motion.dot, V3.dot]
      · exact k4 j hj1 e' hjn l hl
  · have hfi := f1 hd
    set F : Force K := y.data.f i - ∑ k ∈ range (s.jnv i), (s.S q i k).dot (y.data.f i) • (x.data.joints i).UDinv k with hF
    have hu : (cabaRed s i y).data.u = addSeg y.data.u (s.iv i) (s.jnv i) (fun k => -((s.S q i k).dot (y.data.f i))) := by
      unfold cabaRed
      rw [ed, if_pos hd]
      dsimp only
      rw [ej, hS]
      split <;> rfl
    have hf : (cabaRed s i y).data.f = if s.par i > 0 then
        upd (upd y.data.f i F) (s.par i) (y.data.f (s.par i) + (s.X q i).actF F) else upd y.data.f i F := by
      unfold cabaRed
      rw [ed, if_pos hd]
      dsimp only
      rw [ej, hS]
      split
      · dsimp only
        rw [el, hl, upd_self, upd_ne _ _ (by omega : s.par i ≠ i)]
        rfl
      · rfl
    have hk : cabaRed s i y = { y with data := { y.data with u := (cabaRed s i y).data.u, f := (cabaRed s i y).data.f } } := by
      unfold cabaRed
      rw [ed, if_pos hd]
      dsimp only
      split <;> rfl
    have hT : redT s q (fun i => (x.data.joints i).UDinv) i (e i) = (s.X q i).actF F := by
      unfold redT
      rw [hF, hfi]
    have huo : ∀ j, 1 ≤ j → j < s.n → j ≠ i → ∀ l < s.jnv j, (cabaRed s i y).data.u (s.iv j + l) = y.data.u (s.iv j + l) := by
      intro j hj1 hj hji l hl
      rw [hu]
      unfold addSeg
      rw [if_neg]
      rintro ⟨a, b⟩
      exact hji (h.inj hj1 hj h1 hi hl (k := l) (l := s.iv j + l - s.iv i) (by omega) (by omega)).1
    refine ⟨?_, fun j => if j = s.par i then e j + redT s q (fun i => (x.data.joints i).UDinv) i (e i) else e j,
      PAcc.step h.par h1 hi k2 fun j _ => rfl, ?_, ?_⟩
    · obtain ⟨A, B, hk⟩ : ∃ A B, cabaRed s i y = { y with data := { y.data with u := A, f := B } } := ⟨_, _, hk⟩
      rw [hk]
      conv_lhs => rw [k1]
    · intro j hj1 hj hjn
      obtain ⟨g1, g2, g3⟩ := k3 j hj1 (by omega) hjn
      refine ⟨fun hdj => ?_, fun hdj => ?_, fun l hl => ?_⟩
      · rw [hf, hT]
        by_cases hjp : j = s.par i
        · subst hjp
          rw [if_pos (by omega), upd_self, g1 hdj]; exact (if_pos rfl).symm
        · refine Eq.trans ?_ (if_neg hjp).symm
          rw [← g1 hdj]
          split
          · rw [upd_ne _ _ hjp, upd_ne _ _ (by omega)]
          · rw [upd_ne _ _ (by omega)]
      · have : j ≠ s.par i := by rintro rfl; exact hdj (hsup i h1 hi hd)
        dsimp only
        rw [if_neg this]; exact g2 hdj
      · rw [huo j hj1 hjn (by omega) l hl]; exact g3 l hl
    · intro j hj1 hj hjn l hl
      dsimp only
      rw [if_neg (by omega : j ≠ s.par i)]
      rcases Nat.eq_or_lt_of_le hj with e' | e'
      · subst e'
        rw [hu]
        unfold addSeg
        rw [if_pos ⟨by omega, by omega⟩, Nat.add_sub_cancel_left, f3 l hl, hfi]
        ring
      · rw [huo j hj1 hjn (by omega) l hl]; exact k4 j hj1 e' hjn l hl

theorem artT_fst' (t : ℕ → K) (c : ℕ) (A : M6 K) (g : Force K) :
    (artT s (locP s q v) t c (A, g)).1
      = (s.X q c).actOn (artDown (s.jnv c) (s.S q c) (seg s.arm (s.iv c)) A) := rfl

theorem artT_snd (t : ℕ → K) (c : ℕ) (A : M6 K) (g : Force K) :
    (artT s (locP s q v) t c (A, g)).2 = (s.X q c).actF (g
      + ((artDown (s.jnv c) (s.S q c) (seg s.arm (s.iv c)) A).mulMF (s.bias q v c)
        + ∑ k ∈ range (s.jnv c), (t (s.iv c + k) - (s.S q c k).dot g)
          • udCol (s.jnv c) (s.S q c) (seg s.arm (s.iv c)) A k)) := rfl

/-- forces added to the bodies add up with the articulated forces -/
theorem artT_load {t : ℕ → K} {I0 A : ℕ → M6 K} {p g δ e : ℕ → Force K} {UD : ℕ → ℕ → Force K}
    (hG : IsAcc s.par s.n (artT s (locP s q v) t) (fun i => (I0 i, p i)) (fun i => (A i, g i)))
    (he : IsAcc s.par s.n (redT s q UD) δ e)
    (hU : ∀ i, 1 ≤ i → i < s.n → UD i = udCol (s.jnv i) (s.S q i) (seg s.arm (s.iv i)) (A i)) :
    IsAcc s.par s.n (artT s (locP s q v) t) (fun i => (I0 i, p i + δ i)) (fun i => (A i, g i + e i)) := by
  intro i h1 hi
  have e1 := hG i h1 hi
  have e2 := he i h1 hi
  have key : ∀ c ∈ kids s.par s.n i, artT s (locP s q v) t c (A c, g c + e c)
      = artT s (locP s q v) t c (A c, g c) + (0, redT s q UD c (e c)) := by
    intro c hc
    obtain ⟨⟨c1, cn⟩, -⟩ := mem_kids.1 hc
    refine Prod.ext ?_ ?_
    · rw [Prod.fst_add, artT_fst', artT_fst', add_zero]
    rw [Prod.snd_add, artT_snd, artT_snd]
    unfold redT
    rw [← SE3.actF_add, hU c c1 cn]
    congr 1
    have : ∀ k ∈ range (s.jnv c), (t (s.iv c + k) - (s.S q c k).dot (g c + e c))
        • udCol (s.jnv c) (s.S q c) (seg s.arm (s.iv c)) (A c) k
        = (t (s.iv c + k) - (s.S q c k).dot (g c)) • udCol (s.jnv c) (s.S q c) (seg s.arm (s.iv c)) (A c) k
        - (s.S q c k).dot (e c) • udCol (s.jnv c) (s.S q c) (seg s.arm (s.iv c)) (A c) k := by
      intro k _
      rw [Motion.dot_add, ← sub_smul, sub_sub]
    rw [sum_congr rfl this, sum_sub_distrib]
    abel
  change (A i, g i + e i) = (I0 i, p i + δ i) + ∑ c ∈ kids s.par s.n i, artT s (locP s q v) t c (A c, g c + e c)
  rw [sum_congr rfl key, sum_add_distrib]
  have e3 : (A i, g i + e i) = (A i, g i) + ((0 : M6 K), e i) := Prod.ext (add_zero _).symm rfl
  have e4 : (I0 i, p i + δ i) = (I0 i, p i) + ((0 : M6 K), δ i) := Prod.ext (add_zero _).symm rfl
  have e5 : ∑ c ∈ kids s.par s.n i, ((0 : M6 K), redT s q UD c (e c)) = (0, ∑ c ∈ kids s.par s.n i, redT s q UD c (e c)) := by
    refine Prod.ext ?_ ?_
    · rw [Prod.fst_sum]; exact sum_eq_zero fun _ _ => rfl
    · rw [Prod.snd_sum]
  change (A i, g i) = _ at e1
  rw [e3, e4, e5, e1, e2]
  have e6 : ∀ a b : Force K, ((0 : M6 K), a + b) = (0, a) + (0, b) := fun a b => Prod.ext (add_zero _).symm rfl
  rw [e6]
  abel

/-! ## the loops over the contacts -/

theorem conCount_succ (ms : ℕ → RCM K) (n j : ℕ) :
    conCount ms (n + 1) j = conCount ms n j + if (ms n).j1 = j then 1 else 0 := by
  unfold conCount
  rw [range_add_one, filter_insert]
  split
  · rw [card_insert_of_notMem (by simp)]
  · rfl

theorem cabaPen_ok (mu : K) (x : PvData K) (nc : ℕ) :
    let z := upTo (cabaPen mu ms) nc x
    z = { x with data := { x.data with Yaba := z.data.Yaba, f := z.data.f } } ∧ ∀ j,
      (∀ v, (z.data.Yaba j).mulMF v = (x.data.Yaba j).mulMF v
        + (conCount ms nc j : K) • ∑ c ∈ range (x.dim j), (1 / mu * v.dot (x.KA j c)) • x.KA j c) ∧
      z.data.f j = x.data.f j + (conCount ms nc j : K) • ∑ c ∈ range (x.dim j), (1 / mu * x.lA j c) • x.KA j c := by
  apply upTo_ind (P := fun n (z : PvData K) =>
    z = { x with data := { x.data with Yaba := z.data.Yaba, f := z.data.f } } ∧ ∀ j,
      (∀ v, (z.data.Yaba j).mulMF v = (x.data.Yaba j).mulMF v
        + (conCount ms n j : K) • ∑ c ∈ range (x.dim j), (1 / mu * v.dot (x.KA j c)) • x.KA j c) ∧
      z.data.f j = x.data.f j + (conCount ms n j : K) • ∑ c ∈ range (x.dim j), (1 / mu * x.lA j c) • x.KA j c)
  · refine ⟨rfl, fun j => ⟨fun v => ?_, ?_⟩⟩ <;> simp [conCount]
  · rintro n z hn ⟨a, b⟩
    have ed : z.dim = x.dim := by rw [a]
    have eK : z.KA = x.KA := by rw [a]
    have el : z.lA = x.lA := by rw [a]
    refine ⟨?_, fun j => ?_⟩
    · obtain ⟨A, B, hk⟩ : ∃ A B, cabaPen mu ms n z = { z with data := { z.data with Yaba := A, f := B } } := ⟨_, _, rfl⟩
      rw [hk]
      conv_lhs => rw [a]
    · rw [conCount_succ]
      change (∀ v, (upd z.data.Yaba (ms n).j1 _ j).mulMF v = _) ∧ upd z.data.f (ms n).j1 _ j = _
      rw [ed, eK, el]
      by_cases hj : j = (ms n).j1
      · subst hj
        rw [upd_self, upd_self, if_pos rfl, Nat.cast_add, Nat.cast_one]
        obtain ⟨b1, b2⟩ := b (ms n).j1
        refine ⟨fun v => ?_, ?_⟩
        · rw [M6.add_mulMF, b1 v, M6.sum_mulMF, add_smul, one_smul, ← add_assoc]
          congr 1
          refine sum_congr rfl fun c _ => ?_
          rw [M6.outer_mulMF, smul_smul, mul_comm]
        · rw [b2, add_smul, one_smul, ← add_assoc]
      · rw [upd_ne _ _ hj, upd_ne _ _ hj, if_neg (fun e => hj e.symm), add_zero]
        exact b j

/-- the force on body `j` of the multipliers `lam`, in the order of the contacts -/
def conLoad (ms : ℕ → RCM K) (nc : ℕ) (KA : ℕ → ℕ → Force K) (lam : ℕ → K) (j : ℕ) : Force K :=
  ∑ k ∈ range nc, if (ms k).j1 = j then
    ∑ r ∈ range (ms k).type.dim, lam (conRow ms k + r) • KA j (pvOwn ms k j + r) else 0

theorem conLoad_add (KA : ℕ → ℕ → Force K) (l l' : ℕ → K) (j : ℕ) :
    conLoad ms nc KA (fun r => l r + l' r) j = conLoad ms nc KA l j + conLoad ms nc KA l' j := by
  unfold conLoad
  rw [← sum_add_distrib]
  refine sum_congr rfl fun k _ => ?_
  split
  · rw [← sum_add_distrib]
    exact sum_congr rfl fun r _ => add_smul _ _ _
  · rw [add_zero]

theorem conLoad_zero (KA : ℕ → ℕ → Force K) (j : ℕ) : conLoad ms nc KA (fun _ => 0) j = 0 := by
  unfold conLoad
  refine sum_eq_zero fun k _ => ?_
  split
  · exact sum_eq_zero fun r _ => zero_smul _ _
  · rfl

theorem cabaLoad_ok (mu : K) (x : PvData K) (nc : ℕ) :
    let z := upTo (cabaLoad mu ms) nc x
    z = { x with data := { x.data with f := z.data.f } } ∧
    ∀ j, z.data.f j = x.data.f j + conLoad ms nc x.KA (fun r => 1 / mu * x.prox r) j := by
  apply upTo_ind (P := fun n (z : PvData K) => z = { x with data := { x.data with f := z.data.f } } ∧
    ∀ j, z.data.f j = x.data.f j + conLoad ms n x.KA (fun r => 1 / mu * x.prox r) j)
  · exact ⟨rfl, fun j => by simp [conLoad]⟩
  · rintro n z hn ⟨a, b⟩
    have eK : z.KA = x.KA := by rw [a]
    have ep : z.prox = x.prox := by rw [a]
    refine ⟨?_, fun j => ?_⟩
    · obtain ⟨A, hk⟩ : ∃ A, cabaLoad mu ms n z = { z with data := { z.data with f := A } } := ⟨_, rfl⟩
      rw [hk]
      conv_lhs => rw [a]
    · change upd z.data.f (ms n).j1 _ j = _
      rw [eK, ep]
      unfold conLoad
      rw [sum_range_succ]
      by_cases hj : j = (ms n).j1
      · subst hj
        rw [upd_self, if_pos rfl, b, ← add_assoc]
        rfl
      · rw [upd_ne _ _ hj, if_neg (fun e => hj e.symm), add_zero]
        exact b j

theorem cabaProx_ok (x : PvData K) (nc : ℕ) :
    let z := upTo (cabaProx ms) nc x
    z = { x with prox := z.prox } ∧ ∀ k < nc, ∀ r < (ms k).type.dim, z.prox (conRow ms k + r)
      = x.lA (ms k).j1 (pvOwn ms k (ms k).j1 + r) + (x.data.a (ms k).j1).dot (x.KA (ms k).j1 (pvOwn ms k (ms k).j1 + r)) := by
  apply upTo_ind (P := fun n (z : PvData K) => z = { x with prox := z.prox } ∧
    ∀ k < n, ∀ r < (ms k).type.dim, z.prox (conRow ms k + r)
      = x.lA (ms k).j1 (pvOwn ms k (ms k).j1 + r) + (x.data.a (ms k).j1).dot (x.KA (ms k).j1 (pvOwn ms k (ms k).j1 + r)))
  · exact ⟨rfl, fun k hk => by omega⟩
  · rintro n z hn ⟨a, b⟩
    have eK : z.KA = x.KA := by rw [a]
    have el : z.lA = x.lA := by rw [a]
    have ea : z.data = x.data := by rw [a]
    refine ⟨?_, fun k hk r hr => ?_⟩
    · obtain ⟨A, hk⟩ : ∃ A, cabaProx ms n z = { z with prox := A } := ⟨_, rfl⟩
      rw [hk]
      conv_lhs => rw [a]
    · rw [show (cabaProx ms n z).prox = putSeg z.prox (conRow ms n) (ms n).type.dim
        (fun r => z.lA (ms n).j1 (pvOwn ms n (ms n).j1 + r)
          + (z.data.a (ms n).j1).dot (z.KA (ms n).j1 (pvOwn ms n (ms n).j1 + r))) from rfl]
      rcases Nat.eq_or_lt_of_le (Nat.le_of_lt_succ hk) with e | e
      · subst e
        rw [putSeg_read _ _ hr, eK, el, ea]
      · have := conRow_le ms e
        unfold putSeg
        rw [if_neg (by omega)]
        exact b k e r hr

theorem cabaClear_ok (h : s.Packed) (x : PvData K) :
    let z := fwd cabaClear s.n x
    z = { x with data := { x.data with f := z.data.f } } ∧ ∀ i, 1 ≤ i → i < s.n → 0 < x.dim i → z.data.f i = 0 := by
  refine fwd_ind (step := cabaClear) (n := s.n) (d := x)
    (P := fun k (z : PvData K) => z = { x with data := { x.data with f := z.data.f } } ∧
      ∀ i, 1 ≤ i → i < k → 0 < x.dim i → z.data.f i = 0) h.par.1 ⟨rfl, fun i _ _ => by omega⟩ ?_
  rintro i z h1 hi ⟨a, b⟩
  have ed : z.dim = x.dim := by rw [a]
  unfold cabaClear
  rw [ed]
  split
  · refine ⟨?_, fun j hj1 hj hd => ?_⟩
    · conv_lhs => rw [a]
    · change upd z.data.f i 0 j = 0
      by_cases hji : j = i
      · rw [hji, upd_self]
      · rw [upd_ne _ _ hji]; exact b j hj1 (by omega) hd
  · rename_i hn
    refine ⟨a, fun j hj1 hj hd => ?_⟩
    rcases Nat.eq_or_lt_of_le (Nat.le_of_lt_succ hj) with e | e
    · subst e; exact absurd hd hn
    · exact b j hj1 e hd

end Pin
