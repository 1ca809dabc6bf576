import Verif.Algo.ContactCholeskyFactor

/-! # Lemmas on the uses of the Cholesky factorisation of the KKT matrix -/

set_option linter.unusedSectionVars false

namespace Pin
open Finset
variable {K : Type*} [Field K] {s : Sys K} {ms : List (RCM K)} {t : CTab} {data : Data K}

/-! ## products and triangular solves -/

theorem Uv_sz (U : ℕ → ℕ → K) (v : ℕ → K) : t.Uv U v
    = upTo (fun k v => upd v k (v k + ∑ c ∈ Ico (k + 1) (k + 1 + (t.sz k - 1)), U k c * v c)) (t.nc + (t.nv - 1)) v := by
  rw [upTo_add]
  unfold CTab.Uv
  dsimp only
  have e1 : ∀ k < t.nc, t.N - k - 1 = t.sz k - 1 := by
    intro k hk; unfold CTab.sz; rw [if_pos hk]
  have e2 : ∀ i, t.nvt (t.nc + i) - 1 = t.sz (t.nc + i) - 1 := by
    intro i; unfold CTab.sz; rw [if_neg (by omega)]
  rw [upTo_congr (n := t.nc) (f := fun k v => upd v k (v k + ∑ c ∈ Ico (k + 1) (k + 1 + (t.N - k - 1)), U k c * v c))
    (g := fun k v => upd v k (v k + ∑ c ∈ Ico (k + 1) (k + 1 + (t.sz k - 1)), U k c * v c))
    (fun k hk => by rw [e1 k hk])]
  exact upTo_congr (fun k _ => by rw [e2 k]) _

theorem Utv_sz (U : ℕ → ℕ → K) (v : ℕ → K) : t.Utv U v
    = downTo (fun k v => addSeg v (k + 1) (t.sz k - 1) (fun l => U k (k + 1 + l) * v k)) (t.nc + (t.nv - 1)) v := by
  rw [downTo_add]
  unfold CTab.Utv
  dsimp only
  have e1 : ∀ k < t.nc, t.N - k - 1 = t.sz k - 1 := by
    intro k hk; unfold CTab.sz; rw [if_pos hk]
  have e2 : ∀ i, t.nvt (t.nc + i) - 1 = t.sz (t.nc + i) - 1 := by
    intro i; unfold CTab.sz; rw [if_neg (by omega)]
  rw [downTo_congr (f := fun k v => addSeg v (k + 1) (t.N - k - 1) (fun l => U k (k + 1 + l) * v k))
    (g := fun k v => addSeg v (k + 1) (t.sz k - 1) (fun l => U k (k + 1 + l) * v k))
    (fun k hk => by rw [e1 k hk])]
  congr 1
  exact downTo_congr (fun k _ => by rw [e2 k]) _

theorem Uiv_sz (U : ℕ → ℕ → K) (v : ℕ → K) : t.Uiv U v
    = downTo (fun k v => upd v k (v k - ∑ c ∈ Ico (k + 1) (k + 1 + (t.sz k - 1)), U k c * v c)) (t.nc + (t.nv - 1)) v := by
  rw [downTo_add]
  unfold CTab.Uiv
  dsimp only
  have e1 : ∀ k < t.nc, t.N - k - 1 = t.sz k - 1 := by
    intro k hk; unfold CTab.sz; rw [if_pos hk]
  have e2 : ∀ i, t.nvt (t.nc + i) - 1 = t.sz (t.nc + i) - 1 := by
    intro i; unfold CTab.sz; rw [if_neg (by omega)]
  rw [downTo_congr (f := fun k v => upd v k (v k - ∑ c ∈ Ico (k + 1) (k + 1 + (t.N - k - 1)), U k c * v c))
    (g := fun k v => upd v k (v k - ∑ c ∈ Ico (k + 1) (k + 1 + (t.sz k - 1)), U k c * v c))
    (fun k hk => by rw [e1 k hk])]
  congr 1
  exact downTo_congr (fun k _ => by rw [e2 k]) _

theorem Utiv_sz (U : ℕ → ℕ → K) (v : ℕ → K) : t.Utiv U v
    = upTo (fun k v => addSeg v (k + 1) (t.sz k - 1) (fun l => -(U k (k + 1 + l) * v k))) (t.nc + (t.nv - 1)) v := by
  rw [upTo_add]
  unfold CTab.Utiv
  dsimp only
  have e1 : ∀ k < t.nc, t.N - k - 1 = t.sz k - 1 := by
    intro k hk; unfold CTab.sz; rw [if_pos hk]
  have e2 : ∀ i, t.nvt (t.nc + i) - 1 = t.sz (t.nc + i) - 1 := by
    intro i; unfold CTab.sz; rw [if_neg (by omega)]
  rw [upTo_congr (n := t.nc) (f := fun k v => addSeg v (k + 1) (t.N - k - 1) (fun l => -(U k (k + 1 + l) * v k)))
    (g := fun k v => addSeg v (k + 1) (t.sz k - 1) (fun l => -(U k (k + 1 + l) * v k)))
    (fun k hk => by rw [e1 k hk])]
  exact upTo_congr (fun k _ => by rw [e2 k]) _

theorem turns (t : CTab) : t.N - 1 ≤ t.nc + (t.nv - 1) ∧ t.nc + (t.nv - 1) ≤ t.N := by
  unfold CTab.N; omega

section
variable {U : ℕ → ℕ → K} (hl : Seg t.N t.sz) (hU : UnitSp t.N t.sz U)
include hl hU

theorem CTab.Uv_spec (v : ℕ → K) {r : ℕ} (hr : r < t.N) : t.Uv U v r = ∑ k ∈ range t.N, U r k * v k := by
  rw [Uv_sz]; exact hl.Uv hU (turns t).1 (turns t).2 v hr

theorem CTab.Utv_spec (v : ℕ → K) {r : ℕ} (hr : r < t.N) : t.Utv U v r = ∑ k ∈ range t.N, U k r * v k := by
  rw [Utv_sz]; exact hl.Utv hU (turns t).1 (turns t).2 v hr

theorem CTab.Uiv_spec (v : ℕ → K) {r : ℕ} (hr : r < t.N) : ∑ k ∈ range t.N, U r k * t.Uiv U v k = v r :=
  hl.Uiv hU (turns t).1 (turns t).2 v hr _ (Uiv_sz U v)

theorem CTab.Utiv_spec (v : ℕ → K) {r : ℕ} (hr : r < t.N) : ∑ k ∈ range t.N, U k r * t.Utiv U v k = v r :=
  hl.Utiv hU (turns t).1 (turns t).2 v hr _ (Utiv_sz U v)

end

/-! ## dense unit triangular matrices -/

theorem lam_dense (n : ℕ) : Lam n (fun r => n - r) :=
  ⟨fun r hr => by omega, fun r hr => by omega, fun r c hr hrc hcr => by omega⟩

theorem UnitTri.sp {n : ℕ} {U : ℕ → ℕ → K} (h : UnitTri n U) : UnitSp n (fun r => n - r) U := by
  intro r hr c hc hb
  exact h r hr c (by unfold Below at hb; dsimp only at hb; omega)

theorem unitUpperSolve_spec {n : ℕ} {U : ℕ → ℕ → K} (h : UnitTri n U) (x : ℕ → K) {r : ℕ} (hr : r < n) :
    ∑ k ∈ range n, U r k * unitUpperSolve n U x k = x r := by
  refine (lam_dense n).seg.Uiv h.sp (m := n) (by omega) le_rfl x hr _ ?_
  unfold unitUpperSolve
  apply downTo_congr
  intro k hk
  rw [show k + 1 + (n - k - 1) = n by omega]

theorem unitUpperTrSolve_spec {n : ℕ} {U : ℕ → ℕ → K} (h : UnitTri n U) (x : ℕ → K) {r : ℕ} (hr : r < n) :
    ∑ k ∈ range n, U k r * unitUpperTrSolve n U x k = x r := by
  have key : ∀ k, (k < n → unitUpperTrSolve n U x k + ∑ c ∈ range k, U c k * unitUpperTrSolve n U x c = x k) ∧
      (n ≤ k → unitUpperTrSolve n U x k = x k) := by
    unfold unitUpperTrSolve
    apply upTo_ind (P := fun m (w : ℕ → K) => ∀ k, (k < m → w k + ∑ c ∈ range k, U c k * w c = x k) ∧ (m ≤ k → w k = x k))
    · intro k; exact ⟨fun a => by omega, fun _ => rfl⟩
    · intro m w hm ih k
      constructor
      · intro hk
        have e : ∑ c ∈ range k, U c k * upd w m (w m - ∑ c ∈ range m, U c m * w c) c = ∑ c ∈ range k, U c k * w c := by
          apply sum_congr rfl
          intro c hc
          rw [mem_range] at hc
          rw [upd_ne _ _ (by omega)]
        rw [e]
        by_cases ek : k = m
        · subst ek; rw [upd_self, (ih k).2 le_rfl]; ring
        · rw [upd_ne _ _ ek]; exact (ih k).1 (by omega)
      · intro hk
        rw [upd_ne _ _ (by omega)]; exact (ih k).2 (by omega)
  rw [← (key r).1 hr, h.sp.col hr]
  congr 1
  rw [← sum_filter]
  apply sum_congr _ fun _ _ => rfl
  ext k
  rw [mem_filter, mem_range, mem_range]
  unfold Below
  dsimp only
  omega

theorem unitUpperInv_inv {n : ℕ} {U : ℕ → ℕ → K} (h : UnitTri n U) : InverseOf n U (unitUpperInv n U) :=
  InverseOf.mk' fun r hr c _ => unitUpperSolve_spec h _ hr

theorem UnitTri.row {n : ℕ} {U : ℕ → ℕ → K} (h : UnitTri n U) {r : ℕ} (hr : r < n) (x : ℕ → K) :
    ∑ k ∈ range n, U r k * x k = x r + ∑ c ∈ Ico (r + 1) n, U r c * x c := by
  have := h.sp.row (lam_dense n) hr x
  rwa [show r + (n - r) = n by omega] at this

theorem UnitTri.col {n : ℕ} {U : ℕ → ℕ → K} (h : UnitTri n U) {c : ℕ} (hc : c < n) (x : ℕ → K) :
    ∑ k ∈ range n, U k c * x k = x c + ∑ k ∈ range c, U k c * x k := by
  rw [h.sp.col hc]
  congr 1
  rw [← sum_filter]
  apply sum_congr _ fun _ _ => rfl
  ext k
  rw [mem_filter, mem_range, mem_range]
  unfold Below
  dsimp only
  omega

theorem UnitTri.head {a b : ℕ} {U : ℕ → ℕ → K} (h : UnitTri (a + b) U) : UnitTri a U :=
  fun r hr c hc => h r (by omega) c hc

theorem UnitTri.tail {a b : ℕ} {U : ℕ → ℕ → K} (h : UnitTri (a + b) U) : UnitTri b (fun r c => U (a + r) (a + c)) := by
  intro r hr c hc
  dsimp only
  rw [h (a + r) (by omega) (a + c) (by omega)]
  by_cases e : r = c
  · subst e; rw [if_pos rfl, if_pos rfl]
  · rw [if_neg (by omega), if_neg e]

/-! ## the KKT matrix from its factors -/

theorem ckkt_symm (nc : ℕ) {M J : ℕ → ℕ → K} (mus : ℕ → K) (hM : ∀ r c, M r c = M c r) (r c : ℕ) :
    ckkt nc M J mus r c = ckkt nc M J mus c r := by
  unfold ckkt
  by_cases h1 : r < nc <;> by_cases h2 : c < nc
  · rw [if_pos h1, if_pos h2, if_pos h2, if_pos h1]
    by_cases e : r = c
    · subst e; rfl
    · rw [if_neg e, if_neg (Ne.symm e)]
  · rw [if_pos h1, if_neg h2, if_neg h2, if_pos h1]
  · rw [if_neg h1, if_pos h2, if_pos h2, if_neg h1]
  · rw [if_neg h1, if_neg h2, if_neg h2, if_neg h1, hM]

theorem symUpper_symm (M : ℕ → ℕ → K) (r c : ℕ) : symUpper M r c = symUpper M c r := by
  unfold symUpper
  by_cases e : r = c
  · subst e; rfl
  · by_cases h : r ≤ c
    · rw [if_pos h, if_neg (by omega)]
    · rw [if_neg h, if_pos (by omega)]

/-- the zeros of the KKT matrix -/
theorem ckkt_zero (h : s.Packed) (hf : s.Full) (hc : Compact s.par s.n) (ht : t.Ok s ms) (h0 : s.BranchZero data.M)
    (J : ℕ → ℕ → K) (mus : ℕ → K) : ∀ r c, r < c → c < t.N → ¬ Below t.sz r c → ckkt t.nc (symUpper data.M) J mus r c = 0 := by
  intro r c hrc hcN hb
  have e := ht.nv
  unfold CTab.N at hcN
  have h1 : ¬ r < t.nc := by
    intro h1
    apply hb
    unfold Below CTab.sz CTab.N
    rw [if_pos h1]; omega
  unfold ckkt symUpper
  rw [if_neg h1, if_neg (by omega), if_pos (by omega)]
  apply branch_below h hf hc h0 (by omega) (by omega)
  rintro ⟨a, b⟩
  apply hb
  have := ht.nvt (r - t.nc) (by omega)
  rw [show t.nc + (r - t.nc) = r by omega] at this
  unfold Below CTab.sz
  rw [if_neg h1, this]; omega

/-- an entry of the KKT matrix -/
theorem CTab.Fac.entry (hl : Lam t.N t.sz) {A : ℕ → ℕ → K} (h0 : ∀ r c, r < c → c < t.N → ¬ Below t.sz r c → A r c = 0)
    (hA : ∀ r c, A r c = A c r) {x : Chol K} (hx : t.Fac A x) {r c : ℕ} (hr : r < t.N) (hc : c < t.N)
    (hD : r = c ∨ x.D (max r c) ≠ 0) : ∑ k ∈ range t.N, x.U r k * x.D k * x.U c k = A r c := by
  obtain ⟨U0, ok⟩ := hx.ok
  rcases Nat.le_total r c with h | h
  · exact chol_factor hl ok hx.sp h0 h hc (by rwa [max_eq_right h] at hD)
  · have e : ∑ k ∈ range t.N, x.U r k * x.D k * x.U c k = ∑ k ∈ range t.N, x.U c k * x.D k * x.U r k :=
      sum_congr rfl fun k _ => by ring
    rw [e, hA]
    exact chol_factor hl ok hx.sp h0 h hr (by rw [max_eq_left h] at hD; tauto)

theorem CTab.Fac.udu (hl : Lam t.N t.sz) {A : ℕ → ℕ → K} (h0 : ∀ r c, r < c → c < t.N → ¬ Below t.sz r c → A r c = 0)
    (hA : ∀ r c, A r c = A c r) {x : Chol K} (hx : t.Fac A x) (hD : ∀ r < t.N, x.D r ≠ 0) :
    Udu t.N x.U x.D x.Dinv A := by
  refine ⟨fun r hr c hc => hx.entry hl h0 hA hr hc (Or.inr (hD _ (max_lt hr hc))), fun k hk => ?_⟩
  obtain ⟨U0, ok⟩ := hx.ok
  rw [ok.Dinv k (by omega) hk, mul_one_div_cancel (hD k hk)]

theorem CTab.Fac.dinv {A : ℕ → ℕ → K} {x : Chol K} (hx : t.Fac A x) {k : ℕ} (hk : k < t.N) (hD : x.D k ≠ 0) :
    x.D k * x.Dinv k = 1 := by
  obtain ⟨U0, ok⟩ := hx.ok
  rw [ok.Dinv k (by omega) hk, mul_one_div_cancel hD]

/-- `A (solve b) = b` -/
theorem CTab.solve_spec (hl : Lam t.N t.sz) {A : ℕ → ℕ → K} {x : Chol K} (hU : UnitSp t.N t.sz x.U)
    (hu : Udu t.N x.U x.D x.Dinv A) (b : ℕ → K) {r : ℕ} (hr : r < t.N) :
    ∑ c ∈ range t.N, A r c * t.solve x b c = b r := by
  refine hu.solve (y := t.Uiv x.U b) (fun r hr => CTab.Uiv_spec hl.seg hU b hr) (fun k hk => ?_) hr
  unfold CTab.solve
  rw [CTab.Utiv_spec hl.seg hU _ hk, if_pos hk]

/-- the columns of `solve` are an inverse -/
theorem CTab.solve_inv (hl : Lam t.N t.sz) {A : ℕ → ℕ → K} {x : Chol K} (hU : UnitSp t.N t.sz x.U)
    (hu : Udu t.N x.U x.D x.Dinv A) : InverseOf t.N A (fun r c => t.solve x (fun k => if k = c then 1 else 0) r) :=
  InverseOf.mk' fun r hr c _ => CTab.solve_spec hl hU hu _ hr

/-- the upper part of a column of the inverse -/
theorem CTab.inverseAlgo_spec (hl : Lam t.N t.sz) (hg : Seg t.N t.nvt) {A : ℕ → ℕ → K} {x : Chol K} (hx : t.Fac A x)
    {col : ℕ} (hcol : col < t.N) (v : ℕ → K) : ∀ r ≤ col, t.inverseAlgo x col v r = t.solve x (fun k => if k = col then 1 else 0) r := by
  set y := downTo (fun k v => upd v k
      (-∑ c ∈ Ico (k + 1) (k + 1 + min (col - k) (t.nvt k - 1)), x.U k c * v c)) (min col (t.N - 1))
        (putSeg (upd v col 1) (col + 1) (t.N - col - 1) (fun _ => 0)) with hy
  have hy1 : ∀ r < t.N, ∑ k ∈ range t.N, x.U r k * y k = if r = col then 1 else 0 := hg.first hx.sp' hcol v y hy
  have hyu : ∀ r < t.N, y r = t.Uiv x.U (fun k => if k = col then 1 else 0) r := hg.inj hx.sp' (fun r hr => by
    rw [hy1 r hr, CTab.Uiv_spec hl.seg hx.sp _ hr])
  have hel := hg.elim x.U (fun r => if r < col + 1 then y r * x.Dinv r else y r) (m := col + 1) (by omega)
    (t.inverseAlgo x col v) rfl
  have hs : ∀ c < t.N, ∑ k ∈ range t.N, x.U k c * t.solve x (fun k => if k = col then 1 else 0) k = y c * x.Dinv c := by
    intro c hc
    unfold CTab.solve
    rw [CTab.Utiv_spec hl.seg hx.sp _ hc, if_pos hc, ← hyu c hc]
  intro r
  induction r using Nat.strong_induction_on with
  | _ r ih =>
    intro hr
    have e1 := hel r
    have e2 := hs r (by omega)
    rw [hx.sp'.col (by omega)] at e2
    rw [if_pos (by omega), ← e2] at e1
    have e3 : ∑ k ∈ range (col + 1), (if Below t.nvt k r then x.U k r * t.inverseAlgo x col v k else 0)
        = ∑ k ∈ range t.N, if Below t.nvt k r then x.U k r * t.solve x (fun k => if k = col then 1 else 0) k else 0 := by
      rw [← sum_subset (show range (col + 1) ⊆ range t.N by intro k hk; rw [mem_range] at *; omega)]
      · apply sum_congr rfl
        intro k _
        by_cases hb : Below t.nvt k r
        · rw [if_pos hb, if_pos hb, ih k hb.1 (by have := hb.1; omega)]
        · rw [if_neg hb, if_neg hb]
      · intro k _ hk
        rw [mem_range] at hk
        rw [if_neg]
        rintro ⟨a, -⟩; omega
    rw [e3] at e1
    exact add_right_cancel e1

theorem CTab.inverse_spec (hl : Lam t.N t.sz) (hg : Seg t.N t.nvt) {A : ℕ → ℕ → K} (hA : ∀ r c, A r c = A c r) {x : Chol K}
    (hx : t.Fac A x) (hu : Udu t.N x.U x.D x.Dinv A) (X : ℕ → ℕ → K) {r c : ℕ} (hr : r < t.N) (hc : c < t.N) :
    t.inverse x X r c = t.solve x (fun k => if k = c then 1 else 0) r := by
  have hB := CTab.solve_inv hl hx.sp hu
  have hBs := hB.symm (fun r _ c _ => hA r c)
  have key : ∀ r c, r ≤ c → c < t.N → (upTo (fun col X =>
      let x := t.inverseAlgo x col (fun r => X r col)
      fun r c => if c = col ∧ r < t.N then x r else X r c) t.N X) r c = t.solve x (fun k => if k = c then 1 else 0) r := by
    intro r c hrc hc
    refine upTo_ind (P := fun m (Y : ℕ → ℕ → K) => c < m → Y r c = t.solve x (fun k => if k = c then 1 else 0) r)
      (fun h => by omega) ?_ hc
    intro m Y hm ih hcm
    by_cases e : c = m
    · subst e
      rw [if_pos ⟨rfl, by omega⟩]
      exact CTab.inverseAlgo_spec hl hg hx hc _ r hrc
    · rw [if_neg (by omega)]; exact ih (by omega)
  unfold CTab.inverse
  dsimp only at key ⊢
  by_cases h : c < r
  · rw [if_pos ⟨h, hr⟩, key c r (by omega) hr]
    exact hBs c hc r hr
  · rw [if_neg (by omega), key r c (by omega) hc]

/-! ## blocks -/

theorem Udu.inverse {n : ℕ} {U V A : ℕ → ℕ → K} {D Dinv : ℕ → K} (h : Udu n U D Dinv A) (hV : InverseOf n U V) :
    InverseOf n A (fun r c => ∑ k ∈ range n, V k r * Dinv k * V k c) := by
  apply InverseOf.mk'
  intro r hr c hc
  rw [h.mulVec (fun l => ∑ k ∈ range n, V k l * Dinv k * V k c) hr, ← (hV r hr c hc).1]
  apply sum_congr rfl
  intro k hk
  rw [mem_range] at hk
  have e : ∑ l ∈ range n, U l k * ∑ m ∈ range n, V m l * Dinv m * V m c = Dinv k * V k c := by
    simp only [mul_sum]
    rw [sum_comm]
    have : ∀ m ∈ range n, ∑ l ∈ range n, U l k * (V m l * Dinv m * V m c) = if m = k then Dinv k * V k c else 0 := by
      intro m hm
      rw [mem_range] at hm
      have e2 := (hV m hm k hk).2
      have e3 : ∑ l ∈ range n, U l k * (V m l * Dinv m * V m c) = (∑ l ∈ range n, V m l * U l k) * (Dinv m * V m c) := by
        rw [sum_mul]; exact sum_congr rfl fun l _ => by ring
      rw [e3, e2]
      by_cases hmk : m = k
      · subst hmk; rw [if_pos rfl, if_pos rfl, one_mul]
      · rw [if_neg hmk, if_neg hmk, zero_mul]
    rw [sum_congr rfl this, sum_ite_eq' (range n) k, if_pos (mem_range.2 hk)]
  rw [e]
  linear_combination U r k * V k c * h.inv k hk

/-- the sum over the columns in two parts -/
theorem sum_split (a b : ℕ) (f : ℕ → K) : ∑ k ∈ range (a + b), f k = ∑ k ∈ range a, f k + ∑ k ∈ range b, f (a + k) :=
  sum_range_add f a b

/-- the blocks of the KKT matrix from its factors -/
structure Blocks (nc nv : ℕ) (x : Chol K) (M J : ℕ → ℕ → K) (mus : ℕ → K) : Prop where
  tri : UnitTri (nc + nv) x.U
  inv : ∀ k < nv, x.D (nc + k) * x.Dinv (nc + k) = 1
  M : ∀ r < nv, ∀ c < nv, ∑ k ∈ range nv, x.U (nc + r) (nc + k) * x.D (nc + k) * x.U (nc + c) (nc + k) = M r c
  J : ∀ r < nc, ∀ c < nv, ∑ k ∈ range nv, x.U r (nc + k) * x.D (nc + k) * x.U (nc + c) (nc + k) = J r c
  C : ∀ r < nc, ∀ c < nc, (r = c ∨ x.D (max r c) ≠ 0) → ∑ k ∈ range nc, x.U r k * x.D k * x.U c k
    + ∑ k ∈ range nv, x.U r (nc + k) * x.D (nc + k) * x.U c (nc + k) = if r = c then -mus r else 0

theorem CTab.Fac.blocks (hl : Lam t.N t.sz) {M J : ℕ → ℕ → K} {mus : ℕ → K} (hM : ∀ r c, M r c = M c r)
    (h0 : ∀ r c, r < c → c < t.N → ¬ Below t.sz r c → ckkt t.nc M J mus r c = 0) {x : Chol K}
    (hx : t.Fac (ckkt t.nc M J mus) x) (hD : ∀ r < t.nv, x.D (t.nc + r) ≠ 0) : Blocks t.nc t.nv x M J mus := by
  have tri : UnitTri (t.nc + t.nv) x.U := hx.triangular
  have hA := ckkt_symm t.nc mus (J := J) hM
  have eN : t.N = t.nc + t.nv := rfl
  have lo : ∀ c < t.nv, ∀ k < t.nc, x.U (t.nc + c) k = 0 := by
    intro c hc k hk
    rw [tri (t.nc + c) (by omega) k (by omega), if_neg (by omega)]
  refine ⟨tri, fun k hk => hx.dinv (by omega) (hD k hk), ?_, ?_, ?_⟩
  · intro r hr c hc
    have e := hx.entry hl h0 hA (r := t.nc + r) (c := t.nc + c) (by omega) (by omega) (Or.inr (by
      have : max (t.nc + r) (t.nc + c) = t.nc + max r c := by omega
      rw [this]; exact hD _ (max_lt hr hc)))
    rw [eN, sum_split, sum_eq_zero, zero_add] at e
    · rw [e]
      unfold ckkt
      rw [if_neg (by omega), if_neg (by omega), Nat.add_sub_cancel_left, Nat.add_sub_cancel_left]
    · intro k hk
      rw [lo r hr k (mem_range.1 hk), zero_mul, zero_mul]
  · intro r hr c hc
    have e := hx.entry hl h0 hA (r := r) (c := t.nc + c) (by omega) (by omega) (Or.inr (by
      have : max r (t.nc + c) = t.nc + c := by omega
      rw [this]; exact hD _ hc))
    rw [eN, sum_split, sum_eq_zero, zero_add] at e
    · rw [e]
      unfold ckkt
      rw [if_pos hr, if_neg (by omega), Nat.add_sub_cancel_left]
    · intro k hk
      rw [lo c hc k (mem_range.1 hk), mul_zero]
  · intro r hr c hc h1
    have e := hx.entry hl h0 hA (r := r) (c := c) (by omega) (by omega) h1
    rw [eN, sum_split] at e
    rw [e]
    unfold ckkt
    rw [if_pos hr, if_pos hc]

section
variable {nc nv : ℕ} {x : Chol K} {M J : ℕ → ℕ → K} {mus : ℕ → K} (hb : Blocks nc nv x M J mus)
include hb

theorem Blocks.mass : Udu nv (fun r c => x.U (nc + r) (nc + c)) (fun k => x.D (nc + k)) (fun k => x.Dinv (nc + k)) M :=
  ⟨hb.M, hb.inv⟩

/-- `U₂ᵀ` from the solution of `M y = Jᵀ` -/
theorem Blocks.half {c : ℕ} (hc : c < nc) {y : ℕ → K} (hy : ∀ k < nv, ∑ l ∈ range nv, M k l * y l = J c k) {k : ℕ} (hk : k < nv) :
    ∑ l ∈ range nv, x.U (nc + l) (nc + k) * y l = x.U c (nc + k) := by
  have h1 : ∀ r < nv, ∑ k ∈ range nv, x.U (nc + r) (nc + k) * (x.D (nc + k) * ∑ l ∈ range nv, x.U (nc + l) (nc + k) * y l)
      = ∑ k ∈ range nv, x.U (nc + r) (nc + k) * (x.D (nc + k) * x.U c (nc + k)) := by
    intro r hr
    rw [← hb.mass.mulVec y hr, hy r hr, ← hb.J c hc r hr]
    exact sum_congr rfl fun k _ => by ring
  have h2 := (lam_dense nv).seg.inj hb.tri.tail.sp h1 k hk
  have h3 := hb.inv k hk
  linear_combination x.Dinv (nc + k) * h2 - (∑ l ∈ range nv, x.U (nc + l) (nc + k) * y l) * h3 + x.U c (nc + k) * h3

theorem Blocks.schur {B : ℕ → ℕ → K} (hB : InverseOf nv M B) {r c : ℕ} (hr : r < nc) (hc : c < nc) :
    ∑ k ∈ range nv, x.U r (nc + k) * x.D (nc + k) * x.U c (nc + k)
      = ∑ k ∈ range nv, ∑ l ∈ range nv, J r k * B k l * J c l := by
  have hy : ∀ k < nv, ∑ l ∈ range nv, M k l * (∑ m ∈ range nv, B l m * J c m) = J c k := by
    intro k hk
    simp only [mul_sum]
    rw [sum_comm]
    have : ∀ m ∈ range nv, ∑ l ∈ range nv, M k l * (B l m * J c m) = if k = m then J c m else 0 := by
      intro m hm
      have e := (hB k hk m (mem_range.1 hm)).1
      have e2 : ∑ l ∈ range nv, M k l * (B l m * J c m) = (∑ l ∈ range nv, M k l * B l m) * J c m := by
        rw [sum_mul]; exact sum_congr rfl fun l _ => by ring
      rw [e2, e]
      split <;> simp
    rw [sum_congr rfl this, sum_ite_eq (range nv) k, if_pos (mem_range.2 hk)]
  have e1 : ∑ k ∈ range nv, x.U r (nc + k) * x.D (nc + k) * x.U c (nc + k)
      = ∑ k ∈ range nv, x.U r (nc + k) * x.D (nc + k) * ∑ l ∈ range nv, x.U (nc + l) (nc + k) * ∑ m ∈ range nv, B l m * J c m :=
    sum_congr rfl fun k hk => by rw [hb.half hc hy (mem_range.1 hk)]
  rw [e1]
  have e2 : ∑ k ∈ range nv, ∑ l ∈ range nv, J r k * B k l * J c l
      = ∑ k ∈ range nv, J r k * ∑ m ∈ range nv, B k m * J c m :=
    sum_congr rfl fun k _ => by rw [mul_sum]; exact sum_congr rfl fun l _ => by ring
  rw [e2]
  have e3 : ∑ k ∈ range nv, J r k * ∑ m ∈ range nv, B k m * J c m
      = ∑ k ∈ range nv, (∑ l ∈ range nv, x.U r (nc + l) * x.D (nc + l) * x.U (nc + k) (nc + l)) * ∑ m ∈ range nv, B k m * J c m :=
    sum_congr rfl fun k hk => by rw [hb.J r hr k (mem_range.1 hk)]
  rw [e3]
  have main : ∀ z : ℕ → K, ∑ k ∈ range nv, x.U r (nc + k) * x.D (nc + k) * ∑ l ∈ range nv, x.U (nc + l) (nc + k) * z l
      = ∑ k ∈ range nv, (∑ l ∈ range nv, x.U r (nc + l) * x.D (nc + l) * x.U (nc + k) (nc + l)) * z k := by
    intro z
    simp only [sum_mul, mul_sum]
    rw [sum_comm]
    exact sum_congr rfl fun l _ => sum_congr rfl fun k _ => by ring
  exact main _

theorem Blocks.jm {c : ℕ} {V : ℕ → ℕ → K} (hV : InverseOf nv (fun r c => x.U (nc + r) (nc + c)) V) {r : ℕ} (hr : r < nc) (hc : c < nv) :
    ∑ k ∈ range nv, (∑ l ∈ range nv, x.U r (nc + l) * V l k) * M k c = J r c := by
  have e : ∀ k ∈ range nv, (∑ l ∈ range nv, x.U r (nc + l) * V l k) * M k c
      = ∑ l ∈ range nv, ∑ m ∈ range nv, x.U r (nc + l) * (V l k * x.U (nc + k) (nc + m)) * (x.D (nc + m) * x.U (nc + c) (nc + m)) := by
    intro k hk
    rw [← hb.M k (mem_range.1 hk) c hc, sum_mul_sum]
    exact sum_congr rfl fun l _ => sum_congr rfl fun m _ => by ring
  rw [sum_congr rfl e, sum_comm, ← hb.J r hr c hc]
  apply sum_congr rfl
  intro l hl
  rw [sum_comm]
  have e2 : ∀ m ∈ range nv, ∑ k ∈ range nv, x.U r (nc + l) * (V l k * x.U (nc + k) (nc + m)) * (x.D (nc + m) * x.U (nc + c) (nc + m))
      = if l = m then x.U r (nc + m) * x.D (nc + m) * x.U (nc + c) (nc + m) else 0 := by
    intro m hm
    have e3 := (hV l (mem_range.1 hl) m (mem_range.1 hm)).2
    rw [← sum_mul, ← mul_sum, e3]
    split
    · rename_i h; subst h; ring
    · ring
  rw [sum_congr rfl e2, sum_ite_eq (range nv) l, if_pos hl]

end

/-! ## the part for the mass matrix -/

theorem CTab.Fac.massPart (h : s.Packed) (hf : s.Full) (hc : Compact s.par s.n) (ht : t.Ok s ms) {J : ℕ → ℕ → K} {mus : ℕ → K}
    {x : Chol K} (hx : t.Fac (ckkt t.nc (symUpper data.M) J mus) x) (d : Chol K) (hU : s.TreeTri d.U) : ∀ r < s.nv,
    x.D (t.nc + r) = (decompose s data.M d).D r ∧ x.Dinv (t.nc + r) = (decompose s data.M d).Dinv r ∧
      ∀ i < s.nv, x.U (t.nc + i) (t.nc + r) = (decompose s data.M d).U i r := by
  have hl := lam_rows h hf hc
  have e := ht.nv
  obtain ⟨U0, ok⟩ := hx.ok
  have eN : t.N = t.nc + s.nv := by unfold CTab.N; rw [e]
  have esz : ∀ r < s.nv, t.sz (t.nc + r) = nvSubtreeFromRow s r := by
    intro r hr
    unfold CTab.sz
    rw [if_neg (by omega), ht.nvt r hr]
  have hbel : ∀ i < s.nv, ∀ j, Below t.sz (t.nc + i) (t.nc + j) ↔ Below (nvSubtreeFromRow s) i j := by
    intro i hi j
    unfold Below
    rw [esz i hi]
    omega
  have hsum : ∀ j < s.nv, ∀ f : ℕ → K, ∑ c ∈ Ico (t.nc + j + 1) (t.nc + j + t.sz (t.nc + j)), f c
      = ∑ c ∈ Ico (j + 1) (j + nvSubtreeFromRow s j), f (t.nc + c) := by
    intro j hj f
    rw [sum_Ico_add f, esz j hj]
    congr 1
    · congr 1 <;> omega
  have hk : ∀ i j, i ≤ j → ckkt t.nc (symUpper data.M) J mus (t.nc + i) (t.nc + j) = data.M i j := by
    intro i j hij
    unfold ckkt symUpper
    rw [if_neg (by omega), if_neg (by omega), Nat.add_sub_cancel_left, Nat.add_sub_cancel_left, if_pos hij]
  have ok' : CholOk s.nv (nvSubtreeFromRow s) data.M 0 (fun r c => x.U (t.nc + r) (t.nc + c))
      ⟨fun r c => x.U (t.nc + r) (t.nc + c), fun r => x.D (t.nc + r), fun r => x.Dinv (t.nc + r)⟩ := by
    refine ⟨?_, ?_, ?_, fun _ _ _ => rfl⟩
    · intro j _ hj
      have := ok.D (t.nc + j) (by omega) (by omega)
      rwa [hsum j hj, hk j j le_rfl] at this
    · intro j _ hj
      exact ok.Dinv (t.nc + j) (by omega) (by omega)
    · intro i j _ hj hb
      have := ok.U (t.nc + i) (t.nc + j) (by omega) (by omega) ((hbel i (by have := hb.1; omega) j).2 hb)
      rwa [hsum j hj, hk i j (by have := hb.1; omega)] at this
  have sp' : UnitSp s.nv (nvSubtreeFromRow s) (fun r c => x.U (t.nc + r) (t.nc + c)) := by
    intro r hr c hcv hb
    dsimp only
    rw [hx.sp (t.nc + r) (by omega) (t.nc + c) (by omega) (fun z => hb ((hbel r hr c).1 z))]
    by_cases e : r = c
    · subst e; rw [if_pos rfl, if_pos rfl]
    · rw [if_neg (by omega), if_neg e]
  exact CholOk.unique hl.seg ok' (decompose_ok h hf hc data.M d) sp' (decompose_unitSp h hf hc data.M hU)

/-! ## signs of the pivots -/

section
variable [LinearOrder K] [IsStrictOrderedRing K]

theorem CTab.Fac.negative (hl : Lam t.N t.sz) {M J : ℕ → ℕ → K} {mus : ℕ → K} (hM : ∀ r c, M r c = M c r)
    (h0 : ∀ r c, r < c → c < t.N → ¬ Below t.sz r c → ckkt t.nc M J mus r c = 0) {x : Chol K}
    (hx : t.Fac (ckkt t.nc M J mus) x) (hD : ∀ r < t.nv, x.D (t.nc + r) ≠ 0)
    (hpd : ∀ w : ℕ → K, (∃ r, r < t.nv ∧ w r ≠ 0) → 0 < ∑ r ∈ range t.nv, ∑ c ∈ range t.nv, w r * M r c * w c)
    (hmu : (∀ i < t.nc, 0 < mus i) ∨ ((∀ i < t.nc, 0 ≤ mus i) ∧ FullRank t.nv t.nc J)) :
    ∀ j < t.nc, x.D j < 0 := by
  have hA := ckkt_symm t.nc mus (J := J) hM
  have tri : UnitTri (t.nc + t.nv) x.U := hx.triangular
  have eN : t.N = t.nc + t.nv := rfl
  have key : ∀ m j, j < t.nc → t.nc - j ≤ m → x.D j < 0 := by
    intro m
    induction m with
    | zero => intro j hj hm; omega
    | succ m ih =>
      intro j hj hm
      have hne : ∀ c, j < c → c < t.N → x.D c ≠ 0 := by
        intro c h1 h2
        by_cases h3 : c < t.nc
        · exact (ih c h3 (by omega)).ne
        · have := hD (c - t.nc) (by omega)
          rwa [show t.nc + (c - t.nc) = c by omega] at this
      set w := t.Utiv x.U (fun k => if k = j then 1 else 0) with hw
      have hcol : ∀ c < t.N, ∑ k ∈ range t.N, x.U k c * w k = if c = j then 1 else 0 :=
        fun c hc => CTab.Utiv_spec hl.seg hx.sp _ hc
      have hlow : ∀ c < j, w c = 0 := by
        intro c
        induction c using Nat.strong_induction_on with
        | _ c ihc =>
          intro hcj
          have e := hcol c (by omega)
          rw [eN, tri.col (by omega), if_neg (by omega), sum_eq_zero, add_zero] at e
          · exact e
          · intro k hk
            rw [mem_range] at hk
            rw [ihc k hk (by omega), mul_zero]
      have hwj : w j = 1 := by
        have e := hcol j (by omega)
        rw [eN, tri.col (by omega), if_pos rfl, sum_eq_zero, add_zero] at e
        · exact e
        · intro k hk
          rw [mem_range] at hk
          rw [hlow k hk, mul_zero]
      have hrow : ∀ r, j ≤ r → r < t.N → ∑ c ∈ range t.N, ckkt t.nc M J mus r c * w c = if r = j then x.D j else 0 := by
        intro r h1 h2
        have e1 : ∀ c ∈ range t.N, ckkt t.nc M J mus r c * w c = ∑ k ∈ range t.N, x.U r k * x.D k * (x.U c k * w c) := by
          intro c hc
          rw [mem_range] at hc
          by_cases hcj : c < j
          · rw [hlow c hcj, mul_zero, sum_eq_zero]
            intro k _; ring
          · rw [← hx.entry hl h0 hA h2 hc (by
              by_cases e : r = c
              · exact Or.inl e
              · exact Or.inr (hne _ (by omega) (max_lt h2 hc))), sum_mul]
            exact sum_congr rfl fun k _ => by ring
        rw [sum_congr rfl e1, sum_comm]
        have e2 : ∀ k ∈ range t.N, ∑ c ∈ range t.N, x.U r k * x.D k * (x.U c k * w c) = if k = j then x.U r j * x.D j else 0 := by
          intro k hk
          rw [← mul_sum, hcol k (mem_range.1 hk)]
          split
          · rename_i e; subst e; ring
          · ring
        rw [sum_congr rfl e2, sum_ite_eq' (range t.N) j, if_pos (mem_range.2 (by omega))]
        have e3 := tri r (by omega) j h1
        rw [e3]
        split <;> ring
      -- the two blocks of rows
      have hv : ∀ k < t.nv, ∑ i ∈ range t.nc, J i k * w i + ∑ l ∈ range t.nv, M k l * w (t.nc + l) = 0 := by
        intro k hk
        have e := hrow (t.nc + k) (by omega) (by omega)
        rw [if_neg (by omega), eN, sum_split] at e
        rw [← e]
        congr 1
        · refine sum_congr rfl fun i hi => ?_
          unfold ckkt
          rw [if_neg (by omega), if_pos (mem_range.1 hi), Nat.add_sub_cancel_left]
        · refine sum_congr rfl fun l _ => ?_
          unfold ckkt
          rw [if_neg (by omega), if_neg (by omega), Nat.add_sub_cancel_left, Nat.add_sub_cancel_left]
      have hc : ∀ r < t.nc, w r * (-mus r * w r + ∑ k ∈ range t.nv, J r k * w (t.nc + k)) = if r = j then x.D j else 0 := by
        intro r hr
        by_cases hrj : r < j
        · rw [hlow r hrj, zero_mul, if_neg (by omega)]
        · have e := hrow r (by omega) (by omega)
          rw [eN, sum_split] at e
          have e1 : ∑ k ∈ range t.nc, ckkt t.nc M J mus r k * w k = -mus r * w r := by
            rw [sum_eq_single r]
            · unfold ckkt; rw [if_pos hr, if_pos hr, if_pos rfl]
            · intro k hk hkr
              unfold ckkt
              rw [if_pos hr, if_pos (mem_range.1 hk), if_neg (Ne.symm hkr), zero_mul]
            · intro hn; exact absurd (mem_range.2 hr) hn
          have e2 : ∑ k ∈ range t.nv, ckkt t.nc M J mus r (t.nc + k) * w (t.nc + k) = ∑ k ∈ range t.nv, J r k * w (t.nc + k) := by
            refine sum_congr rfl fun k _ => ?_
            unfold ckkt
            rw [if_pos hr, if_neg (by omega), Nat.add_sub_cancel_left]
          rw [e1, e2] at e
          rw [e]
          by_cases e3 : r = j
          · subst e3; rw [if_pos rfl, hwj, one_mul]
          · rw [if_neg e3, mul_zero]
      have hsum : ∑ r ∈ range t.nc, w r * (-mus r * w r + ∑ k ∈ range t.nv, J r k * w (t.nc + k)) = x.D j := by
        rw [sum_congr rfl fun r hr => hc r (mem_range.1 hr), sum_ite_eq' (range t.nc) j, if_pos (mem_range.2 hj)]
      set Q := ∑ r ∈ range t.nv, ∑ c ∈ range t.nv, w (t.nc + r) * M r c * w (t.nc + c) with hQ
      have hcross : ∑ r ∈ range t.nc, w r * ∑ k ∈ range t.nv, J r k * w (t.nc + k) = -Q := by
        have e1 : ∑ r ∈ range t.nc, w r * ∑ k ∈ range t.nv, J r k * w (t.nc + k)
            = ∑ k ∈ range t.nv, w (t.nc + k) * ∑ r ∈ range t.nc, J r k * w r := by
          simp only [mul_sum]
          rw [sum_comm]
          exact sum_congr rfl fun k _ => sum_congr rfl fun r _ => by ring
        rw [e1, hQ, ← sum_neg_distrib]
        refine sum_congr rfl fun k hk => ?_
        have e2 := hv k (mem_range.1 hk)
        have e3 : ∑ c ∈ range t.nv, w (t.nc + k) * M k c * w (t.nc + c) = w (t.nc + k) * ∑ l ∈ range t.nv, M k l * w (t.nc + l) := by
          rw [mul_sum]; exact sum_congr rfl fun c _ => by ring
        rw [e3]
        linear_combination w (t.nc + k) * e2
      have hfin : x.D j = -(∑ r ∈ range t.nc, mus r * (w r * w r)) - Q := by
        rw [← hsum, sub_eq_add_neg, ← hcross, ← sum_neg_distrib, ← sum_add_distrib]
        exact sum_congr rfl fun r _ => by ring
      have hQ0 : 0 ≤ Q := by
        by_cases hz : ∃ r, r < t.nv ∧ w (t.nc + r) ≠ 0
        · exact (hpd (fun r => w (t.nc + r)) hz).le
        · push Not at hz
          rw [hQ, sum_eq_zero]
          intro r hr
          rw [sum_eq_zero]
          intro c _
          rw [hz r (mem_range.1 hr)]; ring
      rw [hfin]
      rcases hmu with hmu | ⟨hmu, hfr⟩
      · have : 0 < ∑ r ∈ range t.nc, mus r * (w r * w r) := by
          refine sum_pos' (fun r hr => mul_nonneg (hmu r (mem_range.1 hr)).le (mul_self_nonneg _)) ⟨j, mem_range.2 hj, ?_⟩
          rw [hwj]
          have := hmu j hj
          linarith
        linarith
      · have h1 : 0 ≤ ∑ r ∈ range t.nc, mus r * (w r * w r) :=
          sum_nonneg fun r hr => mul_nonneg (hmu r (mem_range.1 hr)) (mul_self_nonneg _)
        have h2 : 0 < Q := by
          refine hpd (fun r => w (t.nc + r)) ?_
          by_contra hz
          push Not at hz
          have := hfr w (fun k hk => by
            have e := hv k hk
            rw [sum_eq_zero (s := range t.nv), add_zero] at e
            · exact e
            · intro l hl
              rw [hz l (mem_range.1 hl), mul_zero]) j hj
          rw [hwj] at this
          exact one_ne_zero this
        linarith
  exact fun j hj => key t.nc j hj (by omega)

end

end Pin
