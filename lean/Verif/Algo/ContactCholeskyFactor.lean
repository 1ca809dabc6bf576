import Verif.Algo.ContactCholeskyLemmas
import Verif.Props.Cholesky
import Verif.Props.Constraint

/-! # What `allocate`, `compute` and `updateDamping` leave -/

set_option linter.unusedSectionVars false

namespace Pin
open Finset
variable {K : Type*}

/-! ## tables -/

theorem totalSize_cons [CommRing K] (m : RCM K) (ms : List (RCM K)) : totalSize (m :: ms) = m.type.dim + totalSize ms := by
  have key : ∀ (l : List (RCM K)) n, l.foldl (fun n m => n + m.type.dim) n = n + l.foldl (fun n m => n + m.type.dim) 0 := by
    intro l
    induction l with
    | nil => intro n; rfl
    | cons a l ih => intro n; rw [List.foldl_cons, List.foldl_cons, ih, ih (0 + a.type.dim)]; omega
  unfold totalSize
  rw [List.foldl_cons, key]; omega

/-- the end of the columns of the constraint that row `r` belongs to -/
def stackEnd (s : Sys K) : List (RCM K) → ℕ → ℕ
  | [] => fun _ => 0
  | m :: ms => fun r => if r < m.type.dim then max (s.endV m.j1) (s.endV m.j2) else stackEnd s ms (r - m.type.dim)

theorem stackEnd_cons (s : Sys K) (m : RCM K) (ms : List (RCM K)) (r : ℕ) : stackEnd s (m :: ms) r
    = if r < m.type.dim then max (s.endV m.j1) (s.endV m.j2) else stackEnd s ms (r - m.type.dim) := rfl

theorem conFold [CommRing K] (s : Sys K) (nc : ℕ) (ms : List (RCM K)) : ∀ T o r, (ms.foldl (ccConStep s nc) (T, o)).1 r
    = if o ≤ r ∧ r < o + totalSize ms then stackEnd s ms (r - o) + (nc - r) else T r := by
  induction ms with
  | nil => intro T o r; rw [if_neg (by unfold totalSize; simp)]; rfl
  | cons m ms ih =>
    intro T o r
    have e0 : ccConStep s nc (T, o) m
      = (upTo (fun k T => upd T (o + k) (max (s.endV m.j1) (s.endV m.j2) + (nc - (o + k)))) m.type.dim T,
        o + m.type.dim) := rfl
    rw [List.foldl_cons, e0, ih, totalSize_cons]
    have hin : upTo (fun k T => upd T (o + k) (max (s.endV m.j1) (s.endV m.j2) + (nc - (o + k)))) m.type.dim T r
        = if o ≤ r ∧ r < o + m.type.dim then max (s.endV m.j1) (s.endV m.j2) + (nc - r) else T r := by
      apply upTo_ind (P := fun n (Y : ℕ → ℕ) => Y r = if o ≤ r ∧ r < o + n then
        max (s.endV m.j1) (s.endV m.j2) + (nc - r) else T r)
      · rw [if_neg (by omega)]
      · intro k Y _ hY
        by_cases e : r = o + k
        · subst e; rw [upd_self, if_pos (by omega)]
        · rw [upd_ne _ _ e, hY]
          by_cases hh : o ≤ r ∧ r < o + k
          · rw [if_pos hh, if_pos (by omega)]
          · rw [if_neg hh, if_neg (by omega)]
    by_cases h1 : o + m.type.dim ≤ r ∧ r < o + m.type.dim + totalSize ms
    · rw [if_pos h1, if_pos (by omega)]
      have e : r - o - m.type.dim = r - (o + m.type.dim) := by omega
      rw [stackEnd_cons, if_neg (by omega), e]
    · rw [if_neg h1, hin]
      by_cases h2 : o ≤ r ∧ r < o + m.type.dim
      · rw [if_pos h2, if_pos (by omega)]
        rw [stackEnd_cons, if_pos (by omega)]
      · rw [if_neg h2, if_neg (by omega)]

section
variable [Field K] {s : Sys K}

theorem upd_shift {α : Type*} (T : ℕ → α) (nc i : ℕ) (x : α) :
    (fun r => upd T (i + nc) x (nc + r)) = upd (fun r => T (nc + r)) i x := by
  funext r
  by_cases e : r = i
  · subst e; rw [upd_self, Nat.add_comm, upd_self]
  · rw [upd_ne _ _ (by omega), upd_ne _ _ e]

theorem ccNvtStep_shift (s : Sys K) (nc i : ℕ) (T : ℕ → ℕ) :
    (fun r => ccNvtStep s nc i T (nc + r)) = nvRowStep s i (fun r => T (nc + r)) := by
  unfold ccNvtStep nvRowStep
  dsimp only
  rw [← upd_shift T nc (s.iv i) (s.nvSub i)]
  refine (fwd_proj (fun (T : ℕ → ℕ) r => T (nc + r)) (fun T => T (s.iv i + nc) = s.nvSub i) (upd_self _ _ _) ?_).2
  intro k T k1 _ hT
  refine ⟨by rw [upd_ne _ _ (by omega)]; exact hT, ?_⟩
  rw [hT]
  have : s.iv i + nc + k = s.iv i + k + nc := by omega
  rw [this]
  exact upd_shift T nc (s.iv i + k) _

theorem ccNvt_shift (s : Sys K) (nc : ℕ) (T : ℕ → ℕ) :
    (fun r => fwd (ccNvtStep s nc) s.n T (nc + r)) = fwd (nvRowStep s) s.n (fun r => T (nc + r)) :=
  (fwd_proj (fun (T : ℕ → ℕ) r => T (nc + r)) (fun _ => True) trivial fun i T _ _ _ => ⟨trivial, ccNvtStep_shift s nc i T⟩).2

/-- what the loop on `nvSubtree_fromRow` leaves does not depend on the initial content -/
theorem nvRow_any (h : s.Packed) (hf : s.Full) (T : ℕ → ℕ) {r : ℕ} (hr : r < s.nv) :
    fwd (nvRowStep s) s.n T r = nvSubtreeFromRow s r := by
  obtain ⟨i, k, h1, hi, hk, rfl⟩ := h.cover hr
  rw [nvSubtreeFromRow_spec h hf i h1 hi k hk]
  refine fwd_ind (P := fun m (T : ℕ → ℕ) => ∀ i, 1 ≤ i → i < m → ∀ k, k < s.jnv i →
    T (s.iv i + k) = s.nvSub i - k) h.par.1 ?_ ?_ i h1 hi k hk
  · intro i a b; omega
  · intro m T m1 hm ih i i1 hi k hk
    by_cases e : i = m
    · subst e
      exact nvRowStep_in s i T hk
    · have him : i < m := by omega
      have := h.mono i1 him hm
      have := hf i i1 (by omega)
      rw [nvRowStep_out s m T (by omega) (by omega)]; exact ih i i1 him k hk

/-- a row of the mass matrix in the shifted table of parents -/
def unshift (nc : ℕ) (z : ℤ) : ℤ := if z = -1 then -1 else z - nc

theorem unshift_upd (P : ℕ → ℤ) (nc i : ℕ) (z : ℤ) (hz : -1 ≤ z) :
    (fun r => unshift nc (upd P (i + nc) (z + nc) (nc + r))) = upd (fun r => unshift nc (P (nc + r))) i z := by
  funext r
  by_cases e : r = i
  · subst e
    rw [upd_self, Nat.add_comm, upd_self]
    unfold unshift
    split <;> omega
  · rw [upd_ne _ _ (by omega), upd_ne _ _ e]

theorem ccParStep_shift (s : Sys K) (nc i : ℕ) (P : ℕ → ℤ) :
    (fun r => unshift nc (ccParStep s nc i P (nc + r))) = parRowStep s i (fun r => unshift nc (P (nc + r))) := by
  unfold ccParStep parRowStep
  dsimp only
  have e : (fun r => unshift nc (upd P (s.iv i + nc)
      (if s.par i > 0 then (s.iv (s.par i) : ℤ) + s.jnv (s.par i) - 1 + nc else -1) (nc + r)))
      = upd (fun r => unshift nc (P (nc + r))) (s.iv i)
        (if s.par i > 0 then (s.iv (s.par i) : ℤ) + s.jnv (s.par i) - 1 else -1) := by
    split
    · exact unshift_upd P nc (s.iv i) _ (by omega)
    · funext r
      by_cases e : r = s.iv i
      · subst e
        rw [upd_self, Nat.add_comm, upd_self]; rfl
      · rw [upd_ne _ _ (by omega), upd_ne _ _ e]
  rw [← e]
  refine (fwd_proj (fun (P : ℕ → ℤ) r => unshift nc (P (nc + r))) (fun _ => True) trivial ?_).2
  intro k P k1 _ _
  refine ⟨trivial, ?_⟩
  have : s.iv i + nc + k = s.iv i + k + nc := by omega
  rw [this]
  exact unshift_upd P nc (s.iv i + k) _ (by omega)

theorem ccPar_shift (s : Sys K) (nc : ℕ) (P : ℕ → ℤ) :
    (fun r => unshift nc (fwd (ccParStep s nc) s.n P (nc + r))) = fwd (parRowStep s) s.n (fun r => unshift nc (P (nc + r))) :=
  (fwd_proj (fun (P : ℕ → ℤ) r => unshift nc (P (nc + r))) (fun _ => True) trivial
    fun i P _ _ _ => ⟨trivial, ccParStep_shift s nc i P⟩).2

theorem parRow_any (h : s.Packed) (hf : s.Full) (P : ℕ → ℤ) {r : ℕ} (hr : r < s.nv) :
    fwd (parRowStep s) s.n P r = parentsFromRow s r := by
  have key := fwd_ind (step := parRowStep s) (d := P) (P := fun m (P : ℕ → ℤ) => ∀ i, 1 ≤ i → i < m →
    P (s.iv i) = (if s.par i > 0 then (s.iv (s.par i) : ℤ) + s.jnv (s.par i) - 1 else -1) ∧
      ∀ k, 1 ≤ k → k < s.jnv i → P (s.iv i + k) = (s.iv i : ℤ) + k - 1) h.par.1 (fun i a b => by omega) (by
    intro m P m1 hm ih i i1 hi
    by_cases e : i = m
    · subst e
      exact ⟨parRowStep_first s i P, fun k k1 hk => parRowStep_next s i P k1 hk⟩
    · have him : i < m := by omega
      have := h.mono i1 him hm
      have hfi := hf i i1 (by omega)
      obtain ⟨a, b⟩ := ih i i1 him
      refine ⟨?_, fun k k1 hk => ?_⟩
      · rw [parRowStep_out s m P (by omega) (by omega)]; exact a
      · rw [parRowStep_out s m P (by omega) (by omega)]; exact b k k1 hk)
  obtain ⟨i, k, h1, hi, hk, rfl⟩ := h.cover hr
  obtain ⟨a, b⟩ := key i h1 hi
  obtain ⟨a', b'⟩ := parentsFromRow_spec h hf i h1 hi
  rcases Nat.eq_zero_or_pos k with rfl | k1
  · rw [Nat.add_zero, a, a']
  · rw [b k k1 hk, b' k k1 hk]

/-- the parents in the shifted table: entries below `nc + 0` do not occur but for `-1` -/
theorem ccPar_range (h : s.Packed) (hf : s.Full) (nc : ℕ) (r : ℕ) :
    fwd (ccParStep s nc) s.n (fun _ => -1) r = -1 ∨ (nc : ℤ) ≤ fwd (ccParStep s nc) s.n (fun _ => -1) r := by
  apply fwd_inv (P := fun (P : ℕ → ℤ) => P r = -1 ∨ (nc : ℤ) ≤ P r)
  · exact Or.inl rfl
  · intro i P i1 hi hP
    unfold ccParStep
    apply fwd_inv (P := fun (P : ℕ → ℤ) => P r = -1 ∨ (nc : ℤ) ≤ P r)
    · by_cases e : r = s.iv i + nc
      · subst e
        rw [upd_self]
        split
        · have := h.par.2 i i1 hi
          have := hf (s.par i) (by omega) (by omega)
          omega
        · omega
      · rw [upd_ne _ _ e]; exact hP
    · intro k P _ _ hP
      by_cases e : r = s.iv i + nc + k
      · subst e
        rw [upd_self]; omega
      · rw [upd_ne _ _ e]; exact hP

/-- The tables of a decomposition for the constraints `ms` -/
structure CTab.Ok (s : Sys K) (ms : List (RCM K)) (t : CTab) : Prop where
  nv : t.nv = s.nv
  nc : t.nc = totalSize ms
  num : t.num = ms.length
  par : ∀ r < s.nv, t.par (t.nc + r) = if s.rpar (r + 1) = 0 then -1 else (t.nc : ℤ) + s.rpar (r + 1) - 1
  nvt : ∀ r < s.nv, t.nvt (t.nc + r) = nvSubtreeFromRow s r
  con : ∀ r < t.nc, t.nvt r = stackEnd s ms r + (t.nc - r)

theorem alloc_ok (h : s.Packed) (hf : s.Full) (ms : List (RCM K)) (T0 : ℕ → ℕ) : (CTab.alloc s ms T0).Ok s ms := by
  refine ⟨rfl, rfl, rfl, ?_, ?_, ?_⟩
  · intro r hr
    have e := congrFun (ccPar_shift s (totalSize ms) (fun _ => -1)) r
    rw [parRow_any h hf _ hr, parentsFromRow_eq h hf hr] at e
    have hz := ccPar_range h hf (totalSize ms) (totalSize ms + r)
    unfold CTab.alloc
    dsimp only at e ⊢
    generalize fwd (ccParStep s (totalSize ms)) s.n (fun _ => -1) (totalSize ms + r) = z at *
    unfold unshift at e
    split at e <;> split <;> omega
  · intro r hr
    have e := congrFun (ccNvt_shift s (totalSize ms) T0) r
    rw [nvRow_any h hf _ hr] at e
    unfold CTab.alloc
    dsimp only at e ⊢
    rw [conFold, if_neg (by omega), e]
  · intro r hr
    unfold CTab.alloc at hr ⊢
    dsimp only at hr ⊢
    rw [conFold, if_pos (by omega), Nat.sub_zero]

/-! ## sizes of the rows -/

/-- the segments that `Uv` and the others use: whole rows for the constraints -/
def CTab.sz (t : CTab) (r : ℕ) : ℕ := if r < t.nc then t.N - r else t.nvt r

theorem stackEnd_le (h : s.Packed) {ms : List (RCM K)} (hm : ∀ m ∈ ms, m.Ok s) (r : ℕ) : stackEnd s ms r ≤ s.nv := by
  induction ms generalizing r with
  | nil => exact Nat.zero_le _
  | cons m ms ih =>
    rw [stackEnd_cons]
    have hle : ∀ j < s.n, s.endV j ≤ s.nv := by
      intro j hj
      unfold Sys.endV
      split
      · omega
      · exact h.le_nv (by omega) hj
    split
    · have ok := hm m (by simp)
      exact max_le (hle _ ok.j1) (hle _ ok.j2)
    · exact ih (fun m' hm' => hm m' (by simp [hm'])) _

theorem CTab.Ok.lam {ms : List (RCM K)} {t : CTab} (ht : t.Ok s ms) (h : s.Packed) (hf : s.Full) (hc : Compact s.par s.n) :
    Lam t.N t.sz := by
  have hl := lam_rows h hf hc
  have e := ht.nv
  have hin : ∀ r, t.nc ≤ r → r < t.N → t.sz r = nvSubtreeFromRow s (r - t.nc) := by
    intro r h1 h2
    unfold CTab.N at h2
    unfold CTab.sz
    rw [if_neg (by omega), ← ht.nvt (r - t.nc) (by omega), show t.nc + (r - t.nc) = r by omega]
  refine ⟨?_, ?_, ?_⟩
  · intro r hr
    by_cases h1 : r < t.nc
    · unfold CTab.sz; rw [if_pos h1]; omega
    · rw [hin r (by omega) hr]
      unfold CTab.N at hr
      exact hl.pos _ (by omega)
  · intro r hr
    by_cases h1 : r < t.nc
    · unfold CTab.sz; rw [if_pos h1]; omega
    · rw [hin r (by omega) hr]
      unfold CTab.N at hr ⊢
      have := hl.le (r - t.nc) (by omega)
      omega
  · intro r c hr hrc hcr
    by_cases h1 : r < t.nc
    · have e1 : t.sz r = t.N - r := by unfold CTab.sz; rw [if_pos h1]
      rw [e1] at hcr ⊢
      by_cases h2 : c < t.nc
      · have e2 : t.sz c = t.N - c := by unfold CTab.sz; rw [if_pos h2]
        rw [e2]; omega
      · rw [hin c (by omega) (by omega)]
        have := hl.le (c - t.nc) (by unfold CTab.N at hcr; omega)
        unfold CTab.N at hcr ⊢
        omega
    · rw [hin r (by omega) hr] at hcr ⊢
      unfold CTab.N at hr
      have h2 := hl.le (r - t.nc) (by omega)
      rw [hin c (by omega) (by unfold CTab.N; omega)]
      have := hl.nest (r - t.nc) (c - t.nc) (by omega) (by omega) (by omega)
      omega

/-- the segments that `inverse` uses -/
theorem CTab.Ok.seg {ms : List (RCM K)} {t : CTab} (ht : t.Ok s ms) (h : s.Packed) (hf : s.Full) (hc : Compact s.par s.n)
    (hm : ∀ m ∈ ms, m.Ok s) : Seg t.N t.nvt := by
  have hl := (ht.lam h hf hc).seg
  have e := ht.nv
  have key : ∀ r < t.N, 1 ≤ t.nvt r ∧ r + t.nvt r ≤ t.N := by
    intro r hr
    by_cases h1 : r < t.nc
    · rw [ht.con r h1]
      have := stackEnd_le h hm r
      unfold CTab.N
      omega
    · have a := hl.pos r hr
      have b := hl.le r hr
      have e : t.sz r = t.nvt r := by unfold CTab.sz; rw [if_neg h1]
      rw [e] at a b
      exact ⟨a, b⟩
  exact ⟨fun r hr => (key r hr).1, fun r hr => (key r hr).2⟩

theorem CTab.Ok.below {ms : List (RCM K)} {t : CTab} (ht : t.Ok s ms) (h : s.Packed) (hf : s.Full) (hc : Compact s.par s.n)
    {i j : ℕ} (hj : j < s.nv) : Below t.sz i (t.nc + j) ↔
      i < t.nc ∨ (t.nc ≤ i ∧ anc s.rpar (i - t.nc + 1) (s.rpar (j + 1))) := by
  have e := ht.nv
  rw [anc_rpar_below h hf hc hj]
  unfold Below CTab.sz
  by_cases h1 : i < t.nc
  · rw [if_pos h1]
    unfold CTab.N
    constructor
    · intro _; exact Or.inl h1
    · intro _; omega
  · rw [if_neg h1]
    constructor
    · rintro ⟨a, b⟩
      right
      have := ht.nvt (i - t.nc) (by omega)
      rw [show t.nc + (i - t.nc) = i by omega] at this
      rw [this] at b
      exact ⟨by omega, by omega, by omega⟩
    · rintro (a | ⟨a, b, c⟩)
      · exact absurd a h1
      · have := ht.nvt (i - t.nc) (by omega)
        rw [show t.nc + (i - t.nc) = i by omega] at this
        rw [this]
        exact ⟨by omega, by omega⟩

/-! ## the walk over the parents -/

theorem rowLoopFrom_eq {α : Type*} (h : s.Packed) (hf : s.Full) {ms : List (RCM K)} {t : CTab} (ht : t.Ok s ms)
    (g : ℕ → α → α) {fuel : ℕ} :
    ∀ m, m ≤ fuel → m < s.nv + 1 → ∀ (X : ℕ → α) (r : ℕ) [Decidable (t.nc ≤ r ∧ anc s.rpar (r - t.nc + 1) m)],
      rowLoopFrom t.nc t.par (fun j X => upd X j (g j (X j))) fuel (if m = 0 then -1 else (t.nc : ℤ) + m - 1) X r
        = if t.nc ≤ r ∧ anc s.rpar (r - t.nc + 1) m then g r (X r) else X r := by
  have hp := rpar_ok h hf
  induction fuel with
  | zero =>
    intro m hm _ X r _
    have : m = 0 := by omega
    subst this
    have hn : ¬ (t.nc ≤ r ∧ anc s.rpar (r - t.nc + 1) 0) := by rw [anc_zero]; omega
    rw [if_neg hn]; rfl
  | succ f ih =>
    intro m hm hmn X r _
    unfold rowLoopFrom
    rcases Nat.eq_zero_or_pos m with rfl | m1
    · rw [if_pos rfl, if_neg (by omega), if_neg (by rw [anc_zero]; omega)]
    · have hpm := hp.2 m m1 hmn
      have hm0 : ¬ m = 0 := by omega
      have e : (((t.nc : ℤ) + m - 1).toNat) = t.nc + (m - 1) := by omega
      have hge : (t.nc : ℤ) ≤ (t.nc : ℤ) + m - 1 := by omega
      rw [if_neg hm0, if_pos hge, e, ht.par _ (by omega)]
      have e2 : m - 1 + 1 = m := by omega
      rw [e2]
      classical
      rw [ih _ (by omega) (by omega)]
      have hs := anc_step (i := r - t.nc + 1) m1 hpm
      by_cases er : r = t.nc + (m - 1)
      · subst er
        have e3 : t.nc + (m - 1) - t.nc + 1 = m := by omega
        simp only [e3] at hs ⊢
        have hno : ¬ (t.nc ≤ t.nc + (m - 1) ∧ anc s.rpar m (s.rpar m)) := by
          rintro ⟨-, hc⟩; have := anc_le hp _ (by omega) hc; omega
        rw [if_neg hno, if_pos ⟨by omega, hs.2 (Or.inl trivial)⟩, upd_self]
      · rw [upd_ne _ _ er]
        by_cases hc : t.nc ≤ r ∧ anc s.rpar (r - t.nc + 1) (s.rpar m)
        · rw [if_pos hc, if_pos ⟨hc.1, hs.2 (Or.inr hc.2)⟩]
        · rw [if_neg hc, if_neg]
          rintro ⟨a, b⟩
          rcases hs.1 b with c | c
          · omega
          · exact hc ⟨a, c⟩

/-! ## the matrices before the factorisation -/

theorem jacFold (s : Sys K) (data : Data K) (nc nv : ℕ) (hnv : nv = s.nv) (ms : List (RCM K)) : ∀ (V : ℕ → ℕ → K) (o : ℕ),
    (∀ r c, o ≤ r → r < o + totalSize ms → nc ≤ c → c < nc + nv → V r c = 0) → ∀ r c,
    (ms.foldl (fun (x : (ℕ → ℕ → K) × ℕ) m =>
      (putBlock x.1 x.2 nc m.type.dim nv (m.jacobian s data (m.calc data) (fun r c => x.1 (x.2 + r) (nc + c))),
        x.2 + m.type.dim)) (V, o)).1 r c
      = if (o ≤ r ∧ r < o + totalSize ms) ∧ nc ≤ c ∧ c < nc + nv then stackJac s data ms (r - o) (c - nc) else V r c := by
  induction ms with
  | nil => intro V o _ r c; rw [if_neg (by unfold totalSize; simp)]; rfl
  | cons m ms ih =>
    intro V o h0 r c
    rw [totalSize_cons] at h0
    rw [List.foldl_cons, totalSize_cons]
    dsimp only
    rw [ih _ _ (by
      intro r c h1 h2 h3 h4
      unfold putBlock
      rw [if_neg (by omega)]
      exact h0 r c (by omega) (by omega) h3 h4)]
    have es : ∀ r k, stackJac s data (m :: ms) r k = if r < m.type.dim then
        m.jacobian s data (m.calc data) (fun _ _ => 0) r k else stackJac s data ms (r - m.type.dim) k := fun _ _ => rfl
    by_cases h1 : (o + m.type.dim ≤ r ∧ r < o + m.type.dim + totalSize ms) ∧ nc ≤ c ∧ c < nc + nv
    · rw [if_pos h1, if_pos (by omega), es, if_neg (by omega)]
      congr 1
      omega
    · rw [if_neg h1]
      unfold putBlock
      by_cases h2 : (o ≤ r ∧ r < o + m.type.dim) ∧ nc ≤ c ∧ c < nc + nv
      · rw [if_pos (by omega), if_pos (by omega), es, if_pos (by omega), jacobian_entry, jacobian_entry]
        congr 1
        exact h0 _ _ (by omega) (by omega) (by omega) (by omega)
      · rw [if_neg (by omega), if_neg (by omega)]

section
variable {ms : List (RCM K)} {t : CTab} {data : Data K}

theorem fill_D (t : CTab) (s : Sys K) (data : Data K) (ms : List (RCM K)) (d : Chol K) {r : ℕ} (hr : r < t.nv) :
    (t.fill s data ms d).D (t.nc + r) = data.M r r := by
  unfold CTab.fill putSeg
  dsimp only
  rw [if_pos (by omega), show t.nc + r - t.nc = r by omega]

theorem fill_U (ht : t.Ok s ms) (data : Data K) (d : Chol K) (r c : ℕ) (hr : r < t.N) (hc : c < t.N) :
    (t.fill s data ms d).U r c = if t.nc ≤ c then
      (if r < t.nc then stackJac s data ms r (c - t.nc) else if r < c then data.M (r - t.nc) (c - t.nc) else d.U r c)
      else d.U r c := by
  unfold CTab.N at hr hc
  unfold CTab.fill
  dsimp only
  rw [jacFold s data t.nc t.nv ht.nv ms _ 0 (by
    intro r c h1 h2 h3 h4
    unfold putBlock
    rw [← ht.nc] at h2
    rw [if_pos (by omega)])]
  rw [← ht.nc]
  by_cases h1 : t.nc ≤ c
  · rw [if_pos h1]
    by_cases h2 : r < t.nc
    · rw [if_pos (by omega), if_pos h2, Nat.sub_zero]
    · rw [if_neg (by omega), if_neg h2]
      unfold putBlock CTab.N
      rw [if_neg (by omega)]
      dsimp only
      by_cases h3 : r < c
      · rw [if_pos (by omega), if_pos h3]
      · rw [if_neg (by omega), if_neg h3]
  · rw [if_neg (by omega), if_neg h1]
    unfold putBlock CTab.N
    rw [if_neg (by omega)]
    dsimp only
    rw [if_neg (by omega)]

theorem stackJac_end (h : s.Packed) (hm : ∀ m ∈ ms, m.Ok s) (data : Data K) (r : ℕ) {k : ℕ} (hk : k < s.nv)
    (he : stackEnd s ms r ≤ k) : stackJac s data ms r k = 0 := by
  induction ms generalizing r with
  | nil => rfl
  | cons m ms ih =>
    rw [stackEnd_cons] at he
    have es : stackJac s data (m :: ms) r k = if r < m.type.dim then
        m.jacobian s data (m.calc data) (fun _ _ => 0) r k else stackJac s data ms (r - m.type.dim) k := rfl
    rw [es]
    by_cases h1 : r < m.type.dim
    · rw [if_pos h1] at he ⊢
      have ok := hm m (by simp)
      obtain ⟨i, l, i1, hi, hl, rfl⟩ := h.cover hk
      have no : ∀ j < s.n, s.endV j ≤ s.iv i + l → ¬ anc s.par i j := by
        intro j hj hle ha
        have hij := anc_le h.par _ hj ha
        unfold Sys.endV at hle
        rw [if_neg (by omega)] at hle
        rcases Nat.lt_or_ge i j with hlt | hge
        · have := h.mono i1 hlt hj; omega
        · have : i = j := by omega
          subst this; omega
      rw [max_le_iff] at he
      rw [jacobian_entry, if_neg]
      rintro ⟨⟨-, hb⟩, -⟩
      rw [Bool.or_eq_true] at hb
      rcases hb with hb | hb
      · exact no _ ok.j1 he.1 ((ok.sp1 i l i1 hi hl).1 hb).1
      · exact no _ ok.j2 he.2 ((ok.sp2 i l i1 hi hl).1 hb).1
    · rw [if_neg h1] at he ⊢
      exact ih (fun m' hm' => hm m' (by simp [hm'])) _ he

/-! ## the factorisation -/

theorem step_U (h : s.Packed) (hf : s.Full) (hc : Compact s.par s.n) (ht : t.Ok s ms) {j : ℕ} (hj : j < t.nv)
    (d : Chol K) (i c : ℕ) : (t.step j d).U i c = if Below t.sz i (t.nc + j) ∧ c = t.nc + j then
      (d.U i (t.nc + j) - ∑ c ∈ Ico (t.nc + j + 1) (t.nc + j + t.sz (t.nc + j)), d.U i c * (d.U (t.nc + j) c * d.D c))
        * (t.step j d).Dinv (t.nc + j) else d.U i c := by
  have hl := ht.lam h hf hc
  have hjv : j < s.nv := by rw [← ht.nv]; exact hj
  have hpos := hl.pos (t.nc + j) (by unfold CTab.N; omega)
  have esz : t.sz (t.nc + j) = t.nvt (t.nc + j) := by unfold CTab.sz; rw [if_neg (by omega)]
  have e : t.nc + j + 1 + (t.nvt (t.nc + j) - 1) = t.nc + j + t.sz (t.nc + j) := by omega
  classical
  have hb := ht.below h hf hc (i := i) hjv
  have hrp := (rpar_ok h hf).2 (j + 1) (by omega) (by omega)
  have main : ∀ (g : ℕ → (ℕ → K) → (ℕ → K)) (U : ℕ → ℕ → K),
      downTo (fun i U => upd U i (g i (U i))) t.nc
        (rowLoopFrom t.nc t.par (fun i U => upd U i (g i (U i))) (t.N + 1) (t.par (t.nc + j)) U) i
        = if Below t.sz i (t.nc + j) then g i (U i) else U i := by
    intro g U
    rw [downTo_rows, ht.par j hjv, rowLoopFrom_eq h hf ht g _ (by have := ht.nv; unfold CTab.N; omega) (by omega)]
    by_cases h1 : i < t.nc
    · rw [if_pos h1, if_neg (by omega), if_pos (hb.2 (Or.inl h1))]
    · rw [if_neg h1]
      by_cases h2 : t.nc ≤ i ∧ anc s.rpar (i - t.nc + 1) (s.rpar (j + 1))
      · rw [if_pos h2, if_pos (hb.2 (Or.inr h2))]
      · rw [if_neg h2, if_neg]
        intro hx
        rcases hb.1 hx with a | a
        · exact h1 a
        · exact h2 a
  unfold CTab.step
  dsimp only
  rw [e]
  have := congrFun (main (fun i row => upd row (t.nc + j) ((row (t.nc + j) - ∑ c ∈ Ico (t.nc + j + 1) (t.nc + j + t.sz (t.nc + j)),
    row c * (d.U (t.nc + j) c * d.D c)) * upd d.Dinv (t.nc + j) (1 / upd d.D (t.nc + j) (d.D (t.nc + j) -
      ∑ c ∈ Ico (t.nc + j + 1) (t.nc + j + t.sz (t.nc + j)), d.U (t.nc + j) c * (d.U (t.nc + j) c * d.D c)) (t.nc + j)) (t.nc + j))) d.U) c
  refine this.trans ?_
  by_cases h1 : Below t.sz i (t.nc + j)
  · rw [if_pos h1]
    by_cases h2 : c = t.nc + j
    · subst h2
      rw [if_pos ⟨h1, rfl⟩, upd_self]
    · rw [if_neg (fun x => h2 x.2), upd_ne _ _ h2]
  · rw [if_neg h1, if_neg (fun x => h1 x.1)]

theorem step_D (h : s.Packed) (hf : s.Full) (hc : Compact s.par s.n) (ht : t.Ok s ms) {j : ℕ} (hj : j < t.nv) (d : Chol K) :
    (t.step j d).D (t.nc + j) = d.D (t.nc + j) -
      ∑ c ∈ Ico (t.nc + j + 1) (t.nc + j + t.sz (t.nc + j)), d.U (t.nc + j) c * (d.U (t.nc + j) c * d.D c) := by
  have hl := ht.lam h hf hc
  have hpos := hl.pos (t.nc + j) (by unfold CTab.N; omega)
  have esz : t.sz (t.nc + j) = t.nvt (t.nc + j) := by unfold CTab.sz; rw [if_neg (by omega)]
  have e : t.nc + j + 1 + (t.nvt (t.nc + j) - 1) = t.nc + j + t.sz (t.nc + j) := by omega
  unfold CTab.step
  dsimp only
  rw [e, upd_self]

theorem steps_ok (h : s.Packed) (hf : s.Full) (hc : Compact s.par s.n) (ht : t.Ok s ms) (F : Chol K) (A : ℕ → ℕ → K)
    (hA : ∀ j < t.nv, A (t.nc + j) (t.nc + j) = F.D (t.nc + j) ∧
      ∀ i, Below t.sz i (t.nc + j) → A i (t.nc + j) = F.U i (t.nc + j)) :
    CholOk t.N t.sz A t.nc F.U (downTo t.step t.nv F) := by
  refine (downTo_ind (step := t.step) (P := fun k d => CholOk t.N t.sz A (t.nc + k) F.U d ∧
    ∀ r < k, d.D (t.nc + r) = F.D (t.nc + r)) ⟨⟨?_, ?_, ?_, ?_⟩, fun r _ => rfl⟩ ?_).1
  · intro j a b; unfold CTab.N at b; omega
  · intro j a b; unfold CTab.N at b; omega
  · intro i j a b; unfold CTab.N at b; omega
  · intro i j _; rfl
  · intro k d hk ⟨ih, ihD⟩
    have hl := ht.lam h hf hc
    refine ⟨CholOk.next (j := t.nc + k) (by unfold CTab.N; omega) ih ?_ ?_ ?_ ?_ ?_, ?_⟩
    · rw [step_D h hf hc ht hk, ihD k (by omega), (hA k hk).1]
    · intro c hcj
      exact upd_ne _ _ hcj
    · exact upd_self _ _ _
    · intro c hcj
      exact upd_ne _ _ hcj
    · intro i c
      rw [step_U h hf hc ht hk]
      by_cases h1 : Below t.sz i (t.nc + k) ∧ c = t.nc + k
      · rw [if_pos h1, if_pos h1, (hA k hk).2 i h1.1, ih.out i (t.nc + k) (by omega)]
      · rw [if_neg h1, if_neg h1]
    · intro r hr
      rw [← ihD r (by omega)]
      exact upd_ne _ _ (by omega)

theorem damp_ok (t : CTab) (U0 : ℕ → ℕ → K) (A : ℕ → ℕ → K) (mus : ℕ → K) {d : Chol K}
    (hA : ∀ j < t.nc, A j j = -mus j ∧ ∀ i < j, A i j = 0) (hd : CholOk t.N t.sz A t.nc U0 d) :
    CholOk t.N t.sz A 0 U0 (t.updateDamping mus d) := by
  unfold CTab.updateDamping
  refine downTo_ind (step := t.dampStep mus) (P := fun k d => CholOk t.N t.sz A k U0 d) hd ?_
  intro j d hj ih
  have hN : j < t.N := by unfold CTab.N; omega
  have esz : t.sz j = t.N - j := by unfold CTab.sz; rw [if_pos hj]
  have e : j + 1 + (t.N - j - 1) = j + t.sz j := by omega
  have hb : ∀ i, Below t.sz i j ↔ i < j := by
    intro i
    unfold Below CTab.sz
    constructor
    · exact fun x => x.1
    · intro hi
      rw [if_pos (by omega)]
      omega
  refine CholOk.next hN ih ?_ ?_ ?_ ?_ ?_
  · rw [(hA j hj).1, ← e]
    exact upd_self _ _ _
  · intro c hcj; exact upd_ne _ _ hcj
  · exact upd_self _ _ _
  · intro c hcj; exact upd_ne _ _ hcj
  · intro i c
    unfold CTab.dampStep
    dsimp only
    rw [e]
    have := congrFun (downTo_rows (fun i row => upd row j (-(∑ c ∈ Ico (j + 1) (j + t.sz j),
      row c * (d.U j c * d.D c)) * upd d.Dinv j (1 / upd d.D j (-mus j - ∑ c ∈ Ico (j + 1) (j + t.sz j),
        d.U j c * (d.U j c * d.D c)) j) j)) j d.U i) c
    refine this.trans ?_
    by_cases h1 : i < j
    · rw [if_pos h1]
      by_cases h2 : c = j
      · subst h2
        rw [if_pos ⟨(hb i).2 h1, rfl⟩, upd_self, (hA c hj).2 i h1, zero_sub]
      · rw [if_neg (fun x => h2 x.2), upd_ne _ _ h2]
    · rw [if_neg h1, if_neg (fun x => h1 ((hb i).1 x.1))]

/-- what is known of the factors for the KKT matrix -/
structure CTab.Fac (t : CTab) (A : ℕ → ℕ → K) (x : Chol K) : Prop where
  ok : ∃ U0, CholOk t.N t.sz A 0 U0 x
  sp : UnitSp t.N t.sz x.U
  sp' : UnitSp t.N t.nvt x.U

theorem ckkt_damp (nc : ℕ) (M J : ℕ → ℕ → K) (mus : ℕ → K) : ∀ j < nc, ckkt nc M J mus j j = -mus j ∧ ∀ i < j, ckkt nc M J mus i j = 0 := by
  intro j hj
  unfold ckkt
  rw [if_pos hj, if_pos hj, if_pos rfl]
  refine ⟨rfl, fun i hi => ?_⟩
  rw [if_pos (by omega), if_pos hj, if_neg (by omega)]

/-- the columns of the mass matrix of `ckkt` do not depend on the damping -/
theorem ckkt_col (nc : ℕ) (M J : ℕ → ℕ → K) (mus mus' : ℕ → K) {i j : ℕ} (hj : nc ≤ j) :
    ckkt nc M J mus i j = ckkt nc M J mus' i j := by
  unfold ckkt
  have hn : ¬ j < nc := by omega
  simp only [if_neg hn]

theorem sp_of_ok (h : s.Packed) (hf : s.Full) (hc : Compact s.par s.n) (ht : t.Ok s ms) (hm : ∀ m ∈ ms, m.Ok s)
    {M : ℕ → ℕ → K} {mus : ℕ → K} {U0 : ℕ → ℕ → K} {x : Chol K}
    (hx : CholOk t.N t.sz (ckkt t.nc M (stackJac s data ms) mus) 0 U0 x) (hs : UnitSp t.N t.sz x.U) :
    UnitSp t.N t.nvt x.U := by
  have hl := ht.lam h hf hc
  have e := ht.nv
  have key : ∀ m c, t.nc ≤ c → c < t.N → t.N - c ≤ m → ∀ r < t.nc, stackEnd s ms r ≤ c - t.nc → x.U r c = 0 := by
    intro m
    induction m with
    | zero => intro c _ hcN hmc; omega
    | succ m ih =>
      intro c c1 hcN hmc r hr hre
      have hb : Below t.sz r c := by
        unfold Below CTab.sz
        rw [if_pos hr]; omega
      have hle := hl.le c hcN
      rw [hx.U r c (by omega) hcN hb]
      have e1 : ckkt t.nc M (stackJac s data ms) mus r c = 0 := by
        unfold ckkt
        rw [if_pos hr, if_neg (by omega)]
        unfold CTab.N at hcN
        exact stackJac_end h hm data r (by omega) hre
      rw [e1, sum_eq_zero, sub_zero, zero_mul]
      intro c' hc'
      rw [mem_Ico] at hc'
      rw [ih c' (by omega) (by omega) (by omega) r hr (by omega), zero_mul]
  intro r hr c hcN hb
  by_cases h1 : Below t.sz r c
  · have hrc : r < t.nc := by
      by_contra hn
      unfold Below CTab.sz at h1
      rw [if_neg hn] at h1
      exact hb h1
    have hlt := h1.1
    have hcon := ht.con r hrc
    have hge : ¬ c < r + t.nvt r := fun z => hb ⟨hlt, z⟩
    rw [key t.N c (by omega) hcN (by omega) r hrc (by omega), if_neg (by omega)]
  · exact hs r hr c hcN h1

theorem compute_fac (h : s.Packed) (hf : s.Full) (hc : Compact s.par s.n) (ht : t.Ok s ms) (hm : ∀ m ∈ ms, m.Ok s)
    (h0 : s.BranchZero data.M) (mus : ℕ → K) {d : Chol K} (hd : UnitTri t.N d.U) :
    t.Fac (ckkt t.nc (symUpper data.M) (stackJac s data ms) mus)
      (t.updateDamping mus (downTo t.step t.nv (t.fill s data ms d))) := by
  have e := ht.nv
  have hok : CholOk t.N t.sz (ckkt t.nc (symUpper data.M) (stackJac s data ms) mus) 0 (t.fill s data ms d).U
      (t.updateDamping mus (downTo t.step t.nv (t.fill s data ms d))) := by
    refine damp_ok t _ _ mus (ckkt_damp _ _ _ _) (steps_ok h hf hc ht _ _ ?_)
    intro j hj
    have hjN : t.nc + j < t.N := by unfold CTab.N; omega
    refine ⟨?_, fun i hi => ?_⟩
    · rw [fill_D t s data ms d hj]
      unfold ckkt symUpper
      rw [if_neg (by omega), if_neg (by omega), if_pos le_rfl, show t.nc + j - t.nc = j by omega]
    · have := hi.1
      rw [fill_U ht data d i _ (by omega) hjN, if_pos (by omega)]
      unfold ckkt symUpper
      by_cases h1 : i < t.nc
      · rw [if_pos h1, if_pos h1, if_neg (by omega)]
      · rw [if_neg h1, if_neg h1, if_neg (by omega), if_pos (by omega), if_pos this]
  have hsp : UnitSp t.N t.sz (t.updateDamping mus (downTo t.step t.nv (t.fill s data ms d))).U := by
    intro r hr c hcN hb
    rw [hok.out r c (fun z => hb z.2.2), fill_U ht data d r c hr hcN]
    by_cases h1 : t.nc ≤ c
    · rw [if_pos h1]
      by_cases h2 : r < t.nc
      · exfalso; apply hb
        unfold Below CTab.sz
        rw [if_pos h2]; omega
      · rw [if_neg h2]
        by_cases h3 : r < c
        · rw [if_pos h3, if_neg (by omega)]
          unfold CTab.N at hr hcN
          apply branch_below h hf hc h0 (by omega) (by omega)
          rintro ⟨a, b⟩
          apply hb
          unfold Below CTab.sz
          rw [if_neg h2]
          have := ht.nvt (r - t.nc) (by omega)
          rw [show t.nc + (r - t.nc) = r by omega] at this
          rw [this]; omega
        · rw [if_neg h3]; exact hd r hr c (by omega)
    · rw [if_neg h1]
      by_cases h3 : r < c
      · exfalso; apply hb
        unfold Below CTab.sz
        rw [if_pos (by omega)]; omega
      · exact hd r hr c (by omega)
  exact ⟨⟨_, hok⟩, hsp, sp_of_ok h hf hc ht hm hok hsp⟩

theorem CTab.Fac.damp (h : s.Packed) (hf : s.Full) (hc : Compact s.par s.n) (ht : t.Ok s ms) (hm : ∀ m ∈ ms, m.Ok s)
    {mus : ℕ → K} {x : Chol K} {M : ℕ → ℕ → K} (hx : t.Fac (ckkt t.nc M (stackJac s data ms) mus) x) (mus' : ℕ → K) :
    t.Fac (ckkt t.nc M (stackJac s data ms) mus') (t.updateDamping mus' x) := by
  obtain ⟨⟨U0, ok⟩, sp, -⟩ := hx
  have h1 : CholOk t.N t.sz (ckkt t.nc M (stackJac s data ms) mus') t.nc x.U x := by
    refine ⟨?_, fun j a b => ok.Dinv j (by omega) b, ?_, fun _ _ _ => rfl⟩
    · intro j a b
      rw [ckkt_col t.nc _ _ mus' mus a]; exact ok.D j (by omega) b
    · intro i j a b hb
      rw [ckkt_col t.nc _ _ mus' mus a]; exact ok.U i j (by omega) b hb
  have h2 := damp_ok t x.U _ mus' (ckkt_damp _ _ _ _) h1
  have h3 : UnitSp t.N t.sz (t.updateDamping mus' x).U := by
    intro r hr c hcN hb
    rw [h2.out r c (fun z => hb z.2.2)]
    exact sp r hr c hcN hb
  exact ⟨⟨_, h2⟩, h3, sp_of_ok h hf hc ht hm h2 h3⟩

theorem CTab.Fac.triangular {A : ℕ → ℕ → K} {x : Chol K} (hx : t.Fac A x) : UnitTri t.N x.U := by
  intro r hr c hc
  rw [hx.sp r hr c (by omega) (by unfold Below; omega)]

theorem CTab.Fac.unique (ht : Seg t.N t.sz) {A : ℕ → ℕ → K} {x y : Chol K} (hx : t.Fac A x) (hy : t.Fac A y) :
    ∀ r < t.N, x.D r = y.D r ∧ x.Dinv r = y.Dinv r ∧ ∀ i < t.N, x.U i r = y.U i r := by
  obtain ⟨_, a⟩ := hx.ok
  obtain ⟨_, b⟩ := hy.ok
  exact CholOk.unique ht a b hx.sp hy.sp

end

end
end Pin
