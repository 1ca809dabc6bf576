import Verif.Algo.ContactCholesky
import Verif.Algo.ConstraintLemmas
import Verif.Algo.CholeskyLemmas
import Verif.Spec.ContactKkt

/-! # Lemmas on the Cholesky factorisation of the KKT matrix -/

set_option linter.unusedSectionVars false

namespace Pin
open Finset
variable {K : Type*}

/-! ## loops in two parts -/

theorem upTo_add {D : Type*} (f : ℕ → D → D) (a b : ℕ) (d : D) :
    upTo f (a + b) d = upTo (fun i => f (a + i)) b (upTo f a d) := by
  unfold upTo
  rw [List.range_add, List.foldl_append, List.foldl_map]

theorem downTo_add {D : Type*} (f : ℕ → D → D) (a b : ℕ) (d : D) :
    downTo f (a + b) d = downTo f a (downTo (fun i => f (a + i)) b d) := by
  unfold downTo
  rw [List.range_add, List.foldr_append, List.foldr_map]

theorem upTo_congr {D : Type*} {f g : ℕ → D → D} {n : ℕ} (h : ∀ k < n, f k = g k) (d : D) : upTo f n d = upTo g n d := by
  unfold upTo
  induction n with
  | zero => rfl
  | succ n ih =>
    rw [List.range_succ, List.foldl_append, List.foldl_append, ih fun k hk => h k (by omega)]
    simp [h n (by omega)]

theorem downTo_congr {D : Type*} {f g : ℕ → D → D} {n : ℕ} (h : ∀ k < n, f k = g k) (d : D) :
    downTo f n d = downTo g n d := by
  unfold downTo
  induction n generalizing d with
  | zero => rfl
  | succ n ih =>
    rw [List.range_succ, List.foldr_append, List.foldr_append]
    simp only [List.foldr_cons, List.foldr_nil]
    rw [h n (by omega), ih fun k hk => h k (by omega)]

/-- a loop that changes row `i` at turn `i` -/
theorem downTo_rows {α : Type*} (g : ℕ → α → α) (n : ℕ) (X : ℕ → α) (r : ℕ) :
    downTo (fun i X => upd X i (g i (X i))) n X r = if r < n then g r (X r) else X r := by
  have := downTo_ind (n := n) (d := X) (step := fun i (X : ℕ → α) => upd X i (g i (X i)))
    (P := fun m (Y : ℕ → α) => ∀ r, Y r = if m ≤ r ∧ r < n then g r (X r) else X r)
    (fun r => by rw [if_neg (by omega)]) (by
      intro k Y hk ih r
      by_cases e : r = k
      · subst e; rw [upd_self, if_pos (by omega), ih, if_neg (by omega)]
      · rw [upd_ne _ _ e, ih]
        by_cases h : k + 1 ≤ r ∧ r < n
        · rw [if_pos h, if_pos (by omega)]
        · rw [if_neg h, if_neg (by omega)])
  rw [this r]
  simp

/-! ## triangular algorithms over segments -/

/-- the segments of the rows stay in the matrix -/
structure Seg (N : ℕ) (sz : ℕ → ℕ) : Prop where
  pos : ∀ r < N, 1 ≤ sz r
  le : ∀ r < N, r + sz r ≤ N

theorem Lam.seg {N : ℕ} {sz : ℕ → ℕ} (h : Lam N sz) : Seg N sz := ⟨h.pos, h.le⟩

theorem Seg.last {N : ℕ} {sz : ℕ → ℕ} (h : Seg N sz) {k c : ℕ} (hc : c < N) (hk : N - 1 ≤ k) : ¬ Below sz k c := by
  unfold Below; omega

section
variable [Field K] {N : ℕ} {sz : ℕ → ℕ} {U : ℕ → ℕ → K}

theorem Seg.row (h : Seg N sz) (hU : UnitSp N sz U) {r : ℕ} (hr : r < N) (x : ℕ → K) :
    ∑ k ∈ range N, U r k * x k = x r + ∑ c ∈ Ico (r + 1) (r + sz r), U r c * x c := by
  have hle := h.le r hr
  have hpos := h.pos r hr
  have hsub : insert r (Ico (r + 1) (r + sz r)) ⊆ range N := by
    intro c hc
    rw [mem_insert, mem_Ico] at hc
    rw [mem_range]; omega
  rw [← sum_subset hsub]
  · rw [sum_insert (by simp), hU r hr r hr (by unfold Below; omega), if_pos rfl, one_mul]
  · intro c hc hnc
    rw [mem_range] at hc
    rw [mem_insert, mem_Ico] at hnc
    rw [hU r hr c hc (by unfold Below; omega), if_neg (by omega), zero_mul]

theorem Seg.inj (h : Seg N sz) (hU : UnitSp N sz U) {x y : ℕ → K}
    (he : ∀ r < N, ∑ k ∈ range N, U r k * x k = ∑ k ∈ range N, U r k * y k) : ∀ r < N, x r = y r := by
  have key : ∀ m r, r < N → N - r ≤ m → x r = y r := by
    intro m
    induction m with
    | zero => intro r hr hm; omega
    | succ m ih =>
      intro r hr hm
      have e := he r hr
      rw [h.row hU hr, h.row hU hr] at e
      have hle := h.le r hr
      have : ∑ c ∈ Ico (r + 1) (r + sz r), U r c * x c = ∑ c ∈ Ico (r + 1) (r + sz r), U r c * y c := by
        apply sum_congr rfl
        intro c hc
        rw [mem_Ico] at hc
        rw [ih c (by omega) (by omega)]
      rw [this] at e
      exact add_right_cancel e
  exact fun r hr => key N r hr (by omega)

theorem Seg.Uv (h : Seg N sz) (hU : UnitSp N sz U) {m : ℕ} (m1 : N - 1 ≤ m) (m2 : m ≤ N) (v : ℕ → K) {r : ℕ} (hr : r < N) :
    upTo (fun k v => upd v k (v k + ∑ c ∈ Ico (k + 1) (k + 1 + (sz k - 1)), U k c * v c)) m v r
      = ∑ k ∈ range N, U r k * v k := by
  have key : ∀ r, upTo (fun k v => upd v k (v k + ∑ c ∈ Ico (k + 1) (k + 1 + (sz k - 1)), U k c * v c)) m v r
      = if r < m then v r + ∑ c ∈ Ico (r + 1) (r + 1 + (sz r - 1)), U r c * v c else v r := by
    apply upTo_ind (P := fun m (w : ℕ → K) => ∀ r, w r = if r < m then
      v r + ∑ c ∈ Ico (r + 1) (r + 1 + (sz r - 1)), U r c * v c else v r)
    · intro r; rw [if_neg (by omega)]
    · intro k w hk ih r
      by_cases e : r = k
      · subst e
        rw [upd_self, if_pos (by omega), ih r, if_neg (by omega)]
        congr 1
        apply sum_congr rfl
        intro c hc
        rw [mem_Ico] at hc
        rw [ih c, if_neg (by omega)]
      · rw [upd_ne _ _ e, ih r]
        by_cases h' : r < k
        · rw [if_pos h', if_pos (by omega)]
        · rw [if_neg h', if_neg (by omega)]
  rw [key, h.row hU hr]
  have hpos := h.pos r hr
  have hle := h.le r hr
  have e : r + 1 + (sz r - 1) = r + sz r := by omega
  rw [e]
  split
  · rfl
  · have : sz r = 1 := by omega
    rw [this, Ico_self, sum_empty, add_zero]

theorem Seg.Uiv (h : Seg N sz) (hU : UnitSp N sz U) {m : ℕ} (m1 : N - 1 ≤ m) (m2 : m ≤ N) (v : ℕ → K) {r : ℕ} (hr : r < N) :
    ∀ w, w = downTo (fun k v => upd v k (v k - ∑ c ∈ Ico (k + 1) (k + 1 + (sz k - 1)), U k c * v c)) m v →
    ∑ k ∈ range N, U r k * w k = v r := by
  intro w hw
  have key : ∀ r, (r < m → w r + ∑ c ∈ Ico (r + 1) (r + 1 + (sz r - 1)), U r c * w c = v r) ∧ (¬ r < m → w r = v r) := by
    have := downTo_ind (n := m) (d := v)
      (step := fun k v => upd v k (v k - ∑ c ∈ Ico (k + 1) (k + 1 + (sz k - 1)), U k c * v c))
      (P := fun l (w : ℕ → K) => ∀ r, (l ≤ r → r < m →
        w r + ∑ c ∈ Ico (r + 1) (r + 1 + (sz r - 1)), U r c * w c = v r) ∧ (¬ (l ≤ r ∧ r < m) → w r = v r)) ?_ ?_
    · intro r
      rw [hw]
      exact ⟨(this r).1 (by omega), fun hr => (this r).2 (by omega)⟩
    · intro r; exact ⟨fun a b => by omega, fun _ => rfl⟩
    · intro k w hk ih r
      have hsum : ∀ r, k ≤ r → ∀ y, ∑ c ∈ Ico (r + 1) (r + 1 + (sz r - 1)), U r c * upd w k y c
          = ∑ c ∈ Ico (r + 1) (r + 1 + (sz r - 1)), U r c * w c := by
        intro r hr y
        apply sum_congr rfl
        intro c hc
        rw [mem_Ico] at hc
        rw [upd_ne _ _ (by omega)]
      constructor
      · intro a b
        rw [hsum r a]
        by_cases e : r = k
        · subst e
          rw [upd_self, (ih r).2 (by omega)]; ring
        · rw [upd_ne _ _ e]; exact (ih r).1 (by omega) b
      · intro hn
        rw [upd_ne _ _ (by omega)]; exact (ih r).2 (by omega)
  rw [h.row hU hr]
  have hpos := h.pos r hr
  have hle := h.le r hr
  have e : r + 1 + (sz r - 1) = r + sz r := by omega
  by_cases hn : r < m
  · have := (key r).1 hn; rwa [e] at this
  · have : sz r = 1 := by omega
    rw [this, Ico_self, sum_empty, add_zero]; exact (key r).2 hn

theorem Seg.sum_last (h : Seg N sz) {c m : ℕ} (hc : c < N) (m1 : N - 1 ≤ m) (m2 : m ≤ N) (f : ℕ → K) :
    ∑ k ∈ range m, (if Below sz k c then f k else 0) = ∑ k ∈ range N, if Below sz k c then f k else 0 := by
  apply sum_subset
  · intro k hk; rw [mem_range] at *; omega
  · intro k _ hn
    rw [mem_range] at hn
    rw [if_neg (h.last hc (by omega))]

theorem Seg.Utv (h : Seg N sz) (hU : UnitSp N sz U) {m : ℕ} (m1 : N - 1 ≤ m) (m2 : m ≤ N) (v : ℕ → K) {c : ℕ} (hc : c < N) :
    downTo (fun k v => addSeg v (k + 1) (sz k - 1) (fun l => U k (k + 1 + l) * v k)) m v c
      = ∑ k ∈ range N, U k c * v k := by
  have key : ∀ c, downTo (fun k v => addSeg v (k + 1) (sz k - 1) (fun l => U k (k + 1 + l) * v k)) m v c
      = v c + ∑ k ∈ Ico 0 m, if Below sz k c then U k c * v k else 0 := by
    apply downTo_ind (P := fun l (w : ℕ → K) => ∀ c, w c = v c + ∑ k ∈ Ico l m, if Below sz k c then U k c * v k else 0)
    · intro c; rw [Ico_self, sum_empty, add_zero]
    · intro l w hl ih c
      have hpos := h.pos l (by omega)
      have hwm : w l = v l := by
        rw [ih l, sum_eq_zero, add_zero]
        intro k hk
        rw [mem_Ico] at hk
        rw [if_neg (by unfold Below; omega)]
      rw [addSeg_below hpos w (fun c => U l c * w l) c, ih c, hwm, sum_eq_sum_Ico_succ_bot hl]
      ring
  rw [key, hU.col hc, ← range_eq_Ico, h.sum_last hc m1 m2]

theorem Seg.elim (h : Seg N sz) (U : ℕ → ℕ → K) (v : ℕ → K) {m : ℕ} (hm : m ≤ N) :
    ∀ w, w = upTo (fun k v => addSeg v (k + 1) (sz k - 1) (fun l => -(U k (k + 1 + l) * v k))) m v →
    ∀ c, w c + ∑ k ∈ range m, (if Below sz k c then U k c * w k else 0) = v c := by
  rintro w rfl
  apply upTo_ind (P := fun m (w : ℕ → K) => ∀ c, w c + ∑ k ∈ range m, (if Below sz k c then U k c * w k else 0) = v c)
  · intro c; rw [range_zero, sum_empty, add_zero]
  · intro k w hk ih c
    have hpos := h.pos k (by omega)
    have hval := addSeg_below hpos w (fun c => -(U k c * w k))
    have hle : ∀ r ≤ k, addSeg w (k + 1) (sz k - 1) (fun l => -(U k (k + 1 + l) * w k)) r = w r := by
      intro r hr
      rw [hval, if_neg (by unfold Below; omega), add_zero]
    have hsum : ∑ r ∈ range (k + 1), (if Below sz r c then
        U r c * addSeg w (k + 1) (sz k - 1) (fun l => -(U k (k + 1 + l) * w k)) r else 0)
        = ∑ r ∈ range (k + 1), if Below sz r c then U r c * w r else 0 := by
      apply sum_congr rfl
      intro r hr
      rw [mem_range] at hr
      rw [hle r (by omega)]
    rw [hsum, hval, sum_range_succ, ← ih c]
    split <;> ring

theorem Seg.Utiv (h : Seg N sz) (hU : UnitSp N sz U) {m : ℕ} (m1 : N - 1 ≤ m) (m2 : m ≤ N) (v : ℕ → K) {c : ℕ} (hc : c < N) :
    ∀ w, w = upTo (fun k v => addSeg v (k + 1) (sz k - 1) (fun l => -(U k (k + 1 + l) * v k))) m v →
    ∑ k ∈ range N, U k c * w k = v c := by
  intro w hw
  have key := h.elim U v m2 w hw c
  rw [hU.col hc, ← key, h.sum_last hc m1 m2]

/-- what the first loop of `inverseAlgo` computes -/
theorem Seg.first (h : Seg N sz) (hU : UnitSp N sz U) {col : ℕ} (hcol : col < N) (v : ℕ → K) :
    ∀ y, y = downTo (fun k v => upd v k
      (-∑ c ∈ Ico (k + 1) (k + 1 + min (col - k) (sz k - 1)), U k c * v c)) (min col (N - 1))
        (putSeg (upd v col 1) (col + 1) (N - col - 1) (fun _ => 0)) →
    ∀ r < N, ∑ k ∈ range N, U r k * y k = if r = col then 1 else 0 := by
  intro y hy
  have hmin : min col (N - 1) = col := by omega
  rw [hmin] at hy
  have h0 : ∀ r, col ≤ r → r < N → putSeg (upd v col 1) (col + 1) (N - col - 1) (fun _ => (0 : K)) r
      = if r = col then 1 else 0 := by
    intro r h1 h2
    unfold putSeg
    by_cases e : r = col
    · subst e; rw [if_neg (by omega), if_pos rfl, upd_self]
    · rw [if_pos (by omega), if_neg e]
  have key : ∀ r, 0 ≤ r → r < N → (col ≤ r → y r = if r = col then 1 else 0) ∧
      (r < col → y r = -∑ c ∈ Ico (r + 1) (r + 1 + min (col - r) (sz r - 1)), U r c * y c) := by
    rw [hy]
    apply downTo_ind (P := fun m (y : ℕ → K) => ∀ r, m ≤ r → r < N → (col ≤ r → y r = if r = col then 1 else 0) ∧
      (r < col → y r = -∑ c ∈ Ico (r + 1) (r + 1 + min (col - r) (sz r - 1)), U r c * y c))
    · intro r h1 h2
      exact ⟨fun _ => h0 r h1 h2, fun hh => by omega⟩
    · intro k w hk ih r h1 h2
      constructor
      · intro hc
        rw [upd_ne _ _ (by omega)]; exact (ih r (by omega) h2).1 hc
      · intro hc
        have hs : ∀ x, ∑ c ∈ Ico (r + 1) (r + 1 + min (col - r) (sz r - 1)), U r c * upd w k x c
            = ∑ c ∈ Ico (r + 1) (r + 1 + min (col - r) (sz r - 1)), U r c * w c := by
          intro x
          apply sum_congr rfl
          intro c hcm
          rw [mem_Ico] at hcm
          rw [upd_ne _ _ (by omega)]
        rw [hs]
        by_cases e : r = k
        · subst e; rw [upd_self]
        · rw [upd_ne _ _ e]; exact (ih r (by omega) h2).2 hc
  intro r hr
  have hle := h.le r hr
  have hpos := h.pos r hr
  have hz : ∀ c, col < c → c < N → y c = 0 := by
    intro c h1 h2
    rw [(key c (by omega) h2).1 (by omega), if_neg (by omega)]
  rw [h.row hU hr]
  by_cases hlt : r < col
  · rw [if_neg (by omega), (key r (by omega) hr).2 hlt, neg_add_eq_zero]
    apply sum_subset
    · intro c hc
      rw [mem_Ico] at hc ⊢; omega
    · intro c hc hn
      rw [mem_Ico] at hc hn
      rw [hz c (by omega) (by omega), mul_zero]
  · rw [(key r (by omega) hr).1 (by omega), sum_eq_zero, add_zero]
    intro c hc
    rw [mem_Ico] at hc
    rw [hz c (by omega) (by omega), mul_zero]

/-! ## one turn of a factorisation -/

theorem CholOk.next {M U0 : ℕ → ℕ → K} {d d' : Chol K} {j : ℕ} (hj : j < N) (ih : CholOk N sz M (j + 1) U0 d)
    (hDj : d'.D j = M j j - ∑ c ∈ Ico (j + 1) (j + sz j), d.U j c * (d.U j c * d.D c))
    (hD : ∀ c, c ≠ j → d'.D c = d.D c) (hDij : d'.Dinv j = 1 / d'.D j) (hDi : ∀ c, c ≠ j → d'.Dinv c = d.Dinv c)
    (hU : ∀ i c, d'.U i c = if Below sz i j ∧ c = j then
      (M i j - ∑ c ∈ Ico (j + 1) (j + sz j), d.U i c * (d.U j c * d.D c)) * d'.Dinv j else d.U i c) :
    CholOk N sz M j U0 d' := by
  have hUc : ∀ i c, c ≠ j → d'.U i c = d.U i c := by
    intro i c hcj; rw [hU, if_neg (by tauto)]
  have hsum : ∀ j', j ≤ j' → ∀ i i', ∑ c ∈ Ico (j' + 1) (j' + sz j'), d'.U i c * (d'.U i' c * d'.D c)
      = ∑ c ∈ Ico (j' + 1) (j' + sz j'), d.U i c * (d.U i' c * d.D c) := by
    intro j' hj' i i'
    apply sum_congr rfl
    intro c hcm
    rw [mem_Ico] at hcm
    rw [hUc _ _ (by omega), hUc _ _ (by omega), hD _ (by omega)]
  refine ⟨?_, ?_, ?_, ?_⟩
  · intro j' a b
    rw [hsum j' a]
    by_cases ej : j' = j
    · subst ej; exact hDj
    · rw [hD _ ej]; exact ih.D j' (by omega) b
  · intro j' a b
    by_cases ej : j' = j
    · subst ej; exact hDij
    · rw [hDi _ ej, hD _ ej]; exact ih.Dinv j' (by omega) b
  · intro i j' a b hb
    rw [hsum j' a]
    by_cases ej : j' = j
    · subst ej; rw [hU, if_pos ⟨hb, rfl⟩]
    · rw [hUc _ _ ej, hDi _ ej]; exact ih.U i j' (by omega) b hb
  · intro i j' hn
    by_cases ej : j' = j
    · subst ej
      rw [hU, if_neg (by rintro ⟨hb, -⟩; exact hn ⟨le_rfl, hj, hb⟩)]
      exact ih.out i j' (by omega)
    · rw [hUc _ _ ej]
      exact ih.out i j' (by rintro ⟨a, b, c⟩; exact hn ⟨by omega, b, c⟩)

/-- a factorisation is determined by the matrix -/
theorem CholOk.unique (h : Seg N sz) {M U0 U1 : ℕ → ℕ → K} {x y : Chol K} (a : CholOk N sz M 0 U0 x)
    (b : CholOk N sz M 0 U1 y) (ua : UnitSp N sz x.U) (ub : UnitSp N sz y.U) :
    ∀ r < N, x.D r = y.D r ∧ x.Dinv r = y.Dinv r ∧ ∀ i < N, x.U i r = y.U i r := by
  have key : ∀ m r, r < N → N - r ≤ m → x.D r = y.D r ∧ x.Dinv r = y.Dinv r ∧ ∀ i < N, x.U i r = y.U i r := by
    intro m
    induction m with
    | zero => intro r hr hm; omega
    | succ m ih =>
      intro r hr hm
      have hle := h.le r hr
      have hs : ∀ i, i < N → ∑ c ∈ Ico (r + 1) (r + sz r), x.U i c * (x.U r c * x.D c)
          = ∑ c ∈ Ico (r + 1) (r + sz r), y.U i c * (y.U r c * y.D c) := by
        intro i hi
        apply sum_congr rfl
        intro c hcm
        rw [mem_Ico] at hcm
        obtain ⟨e1, -, e2⟩ := ih c (by omega) (by omega)
        rw [e1, e2 i hi, e2 r hr]
      have eD : x.D r = y.D r := by rw [a.D r (by omega) hr, b.D r (by omega) hr, hs r hr]
      have eI : x.Dinv r = y.Dinv r := by rw [a.Dinv r (by omega) hr, b.Dinv r (by omega) hr, eD]
      refine ⟨eD, eI, fun i hi => ?_⟩
      by_cases hb : Below sz i r
      · rw [a.U i r (by omega) hr hb, b.U i r (by omega) hr hb, hs i hi, eI]
      · rw [ua i hi r hr hb, ub i hi r hr hb]
  exact fun r hr => key N r hr (by omega)

/-! ## matrices in factored form -/

/-- `A = U D Uᵀ` with an invertible diagonal -/
structure Udu (N : ℕ) (U : ℕ → ℕ → K) (D Dinv : ℕ → K) (A : ℕ → ℕ → K) : Prop where
  fac : ∀ r < N, ∀ c < N, ∑ k ∈ range N, U r k * D k * U c k = A r c
  inv : ∀ k < N, D k * Dinv k = 1

variable {D Dinv : ℕ → K} {A : ℕ → ℕ → K}

theorem Udu.mulVec (h : Udu N U D Dinv A) (x : ℕ → K) {r : ℕ} (hr : r < N) :
    ∑ c ∈ range N, A r c * x c = ∑ k ∈ range N, U r k * (D k * ∑ c ∈ range N, U c k * x c) := by
  have : ∀ c ∈ range N, A r c * x c = ∑ k ∈ range N, U r k * (D k * (U c k * x c)) := by
    intro c hcm
    rw [← h.fac r hr c (mem_range.1 hcm), sum_mul]
    exact sum_congr rfl fun k _ => by ring
  rw [sum_congr rfl this, sum_comm]
  apply sum_congr rfl
  intro k _
  rw [mul_sum, mul_sum]

theorem Udu.solve (h : Udu N U D Dinv A) {b x y : ℕ → K} (hy : ∀ r < N, ∑ k ∈ range N, U r k * y k = b r)
    (hx : ∀ k < N, ∑ c ∈ range N, U c k * x c = y k * Dinv k) {r : ℕ} (hr : r < N) :
    ∑ c ∈ range N, A r c * x c = b r := by
  rw [h.mulVec x hr, ← hy r hr]
  apply sum_congr rfl
  intro k hk
  rw [mem_range] at hk
  rw [hx k hk]
  linear_combination U r k * y k * h.inv k hk

theorem Udu.symm (h : Udu N U D Dinv A) {r c : ℕ} (hr : r < N) (hc : c < N) : A r c = A c r := by
  rw [← h.fac r hr c hc, ← h.fac c hc r hr]
  exact sum_congr rfl fun k _ => by ring

theorem InverseOf.mk' {A B : ℕ → ℕ → K} (h : ∀ r < N, ∀ c < N, ∑ k ∈ range N, A r k * B k c = if r = c then 1 else 0) :
    InverseOf N A B := fun r hr c hc => ⟨h r hr c hc, inv_comm h r hr c hc⟩

/-- an inverse of a symmetric matrix is symmetric -/
theorem InverseOf.symm {A B : ℕ → ℕ → K} (h : InverseOf N A B) (hA : ∀ r < N, ∀ c < N, A r c = A c r) :
    ∀ r < N, ∀ c < N, B r c = B c r := by
  intro a ha b hb
  have e1 : ∑ k ∈ range N, B a k * ∑ l ∈ range N, A k l * B b l = B b a := by
    have : ∀ k ∈ range N, B a k * ∑ l ∈ range N, A k l * B b l = ∑ l ∈ range N, B a k * A k l * B b l := by
      intro k _; rw [mul_sum]; exact sum_congr rfl fun l _ => by ring
    rw [sum_congr rfl this, sum_comm]
    have : ∀ l ∈ range N, ∑ k ∈ range N, B a k * A k l * B b l = (if a = l then 1 else 0) * B b l := by
      intro l hlm; rw [← sum_mul, (h a ha l (mem_range.1 hlm)).2]
    rw [sum_congr rfl this]
    simp only [ite_mul, one_mul, zero_mul]
    rw [sum_ite_eq, if_pos (mem_range.2 ha)]
  rw [← e1]
  have : ∀ k ∈ range N, B a k * ∑ l ∈ range N, A k l * B b l = B a k * if b = k then 1 else 0 := by
    intro k hk
    rw [mem_range] at hk
    rw [← (h b hb k hk).2]
    congr 1
    refine sum_congr rfl fun l hl => ?_
    rw [hA k hk l (mem_range.1 hl), mul_comm]
  rw [sum_congr rfl this]
  simp only [mul_ite, mul_one, mul_zero]
  rw [sum_ite_eq, if_pos (mem_range.2 hb)]

/-- a solution of `A x = b`, from an inverse -/
theorem InverseOf.eq {A B : ℕ → ℕ → K} (h : InverseOf N A B) {x b : ℕ → K}
    (hx : ∀ r < N, ∑ c ∈ range N, A r c * x c = b r) {r : ℕ} (hr : r < N) : x r = ∑ c ∈ range N, B r c * b c := by
  have e : ∀ c ∈ range N, B r c * b c = ∑ k ∈ range N, B r c * A c k * x k := by
    intro c hc
    rw [← hx c (mem_range.1 hc), mul_sum]
    exact sum_congr rfl fun k _ => by ring
  rw [sum_congr rfl e, sum_comm]
  have e2 : ∀ k ∈ range N, ∑ c ∈ range N, B r c * A c k * x k = (if r = k then 1 else 0) * x k := by
    intro k hk
    rw [← sum_mul, (h r hr k (mem_range.1 hk)).2]
  rw [sum_congr rfl e2]
  simp only [ite_mul, one_mul, zero_mul]
  rw [sum_ite_eq, if_pos (mem_range.2 hr)]

end
end Pin
