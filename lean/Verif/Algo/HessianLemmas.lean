import Verif.Algo.Hessian
import Verif.Algo.KinDerLemmas
import Verif.Algo.JacobianLemmas

/-! # What the loops on the kinematic Hessians write -/

namespace Pin
open Finset
universe u
variable {K : Type u}

theorem upd2_self (H : Hess K) (a b : ℕ) (m : Motion K) : upd2 H a b m a b = m := by
  unfold upd2; rw [upd_self, upd_self]

theorem upd2_row (H : Hess K) (a b : ℕ) (m : Motion K) {c : ℕ} (h : c ≠ a) : upd2 H a b m c = H c := by
  unfold upd2; rw [upd_ne _ _ h]

theorem upd2_col (H : Hess K) (a b : ℕ) (m : Motion K) {b' : ℕ} (h : b' ≠ b) : upd2 H a b m a b' = H a b' := by
  unfold upd2; rw [upd_self, upd_ne _ _ h]

/-- slice `a` of `H'` is that of `H` with the columns in `l` replaced by those of `g`, other slices are the same -/
structure RowW (a : ℕ) (g : ℕ → Motion K) (l : ℕ → Prop) (H H' : Hess K) : Prop where
  row : ∀ c, c ≠ a → H' c = H c
  mem : ∀ b, l b → H' a b = g b
  out : ∀ b, ¬ l b → H' a b = H a b

theorem RowW.refl (a : ℕ) (g : ℕ → Motion K) (H : Hess K) : RowW a g (fun _ => False) H H :=
  ⟨fun _ _ => rfl, fun _ h => h.elim, fun _ _ => rfl⟩

theorem RowW.trans {a : ℕ} {g : ℕ → Motion K} {l l' : ℕ → Prop} {H H' H'' : Hess K} (h : RowW a g l H H')
    (h' : RowW a g l' H' H'') : RowW a g (fun b => l b ∨ l' b) H H'' := by
  refine ⟨fun c hc => (h'.row c hc).trans (h.row c hc), fun b hb => ?_, fun b hb => ?_⟩
  · by_cases e : l' b
    · exact h'.mem b e
    · rw [h'.out b e]; exact h.mem b (hb.resolve_right e)
  · rw [h'.out b (fun e => hb (Or.inr e)), h.out b (fun e => hb (Or.inl e))]

theorem RowW.congr {a : ℕ} {g : ℕ → Motion K} {l l' : ℕ → Prop} {H H' : Hess K} (h : RowW a g l H H')
    (e : ∀ b, l b ↔ l' b) : RowW a g l' H H' :=
  ⟨h.row, fun b hb => h.mem b ((e b).2 hb), fun b hb => h.out b (fun x => hb ((e b).1 x))⟩

/-- a loop that writes slice `a`, from a tensor `H` that is `H0` changed on slice `a` only -/
theorem rowW_loop {a : ℕ} {g : ℕ → Motion K} {f : ℕ → Hess K → Motion K} {H : Hess K} {P : ℕ → Prop} {H0 : Hess K}
    (h0 : RowW a g P H0 H) (l : List ℕ)
    (hf : ∀ b ∈ l, ∀ H' : Hess K, (∀ c, c ≠ a → H' c = H0 c) → (H' a b = H0 a b ∨ H' a b = g b) → f b H' = g b) :
    RowW a g (fun b => P b ∨ b ∈ l) H0 (l.foldl (fun H b => upd2 H a b (f b H)) H) := by
  induction l generalizing H P with
  | nil => exact h0.congr (by simp)
  | cons b l ih =>
    rw [List.foldl_cons]
    refine (ih (P := fun x => P x ∨ x = b) ?_ (fun c hc => hf c (List.mem_cons_of_mem _ hc))).congr
      (by intro x; simp [or_assoc])
    have e : f b H = g b := hf b List.mem_cons_self H h0.row (by
      by_cases e : P b
      · exact Or.inr (h0.mem b e)
      · exact Or.inl (h0.out b e))
    refine ⟨fun c hc => (upd2_row _ _ _ _ hc).trans (h0.row c hc), fun x hx => ?_, fun x hx => ?_⟩
    · by_cases ex : x = b
      · subst ex; rw [upd2_self, e]
      · rw [upd2_col _ _ _ _ ex]; exact h0.mem x (hx.resolve_right ex)
    · rw [upd2_col _ _ _ _ (fun e => hx (Or.inr e))]; exact h0.out x (fun e => hx (Or.inl e))

variable [CommRing K] {s : Sys K} {T : HTab}

omit [CommRing K] in
theorem mem_rowsOfJoint {i r : ℕ} : r ∈ rowsOfJoint s i ↔ ∃ k, k < s.jnv i ∧ r = s.iv i + k := by
  unfold rowsOfJoint
  simp only [List.mem_map, List.mem_range]
  exact ⟨fun ⟨k, a, b⟩ => ⟨k, a, b.symm⟩, fun ⟨k, a, b⟩ => ⟨k, a, b.symm⟩⟩

theorem pairwise_head {l : List ℕ} (h : l.Pairwise (· < ·)) {m : ℕ} (hm : m ∈ l) (hmin : ∀ x ∈ l, m ≤ x) :
    ∀ x, x ∈ l.tail ↔ x ∈ l ∧ x ≠ m := by
  cases l with
  | nil => simp at hm
  | cons a l =>
    rw [List.pairwise_cons] at h
    have ea : m = a := by
      rcases List.mem_cons.1 hm with e | e
      · exact e
      · have := h.1 m e; have := hmin a List.mem_cons_self; omega
    subst ea
    intro x
    simp only [List.tail_cons, List.mem_cons]
    constructor
    · intro hx; exact ⟨Or.inr hx, fun e => by have := h.1 x hx; omega⟩
    · rintro ⟨a | a, b⟩
      · exact absurd a b
      · exact a

theorem pairwise_last {l : List ℕ} (h : l.Pairwise (· < ·)) {m : ℕ} (hm : m ∈ l) (hmax : ∀ x ∈ l, x ≤ m) :
    ∀ x, x ∈ l.dropLast ↔ x ∈ l ∧ x ≠ m := by
  have hne : l ≠ [] := List.ne_nil_of_mem hm
  have e := List.dropLast_append_getLast hne
  rw [← e] at h hm hmax
  rw [List.pairwise_append] at h
  have el : m = l.getLast hne := by
    have h1 := hmax (l.getLast hne) (by simp)
    rcases List.mem_append.1 hm with a | a
    · have := h.2.2 m a (l.getLast hne) (by simp); omega
    · simpa using a
  intro x
  constructor
  · intro hx
    refine ⟨List.mem_of_mem_dropLast hx, fun ex => ?_⟩
    have := h.2.2 x hx (l.getLast hne) (by simp); omega
  · rintro ⟨hx, hxm⟩
    rw [← e] at hx
    rcases List.mem_append.1 hx with a | a
    · exact a
    · exact absurd (by simpa [el] using a) hxm

omit [CommRing K] in
/-- the joints before `j` in its support -/
theorem HTab.Ok.mem_sup (hT : T.Ok s) (hp : ParOk s.par s.n) {j : ℕ} (j1 : 1 ≤ j) (hj : j < s.n) (i : ℕ) :
    i ∈ (T.sup j).dropLast.tail ↔ 1 ≤ i ∧ i ≠ j ∧ anc s.par i j := by
  obtain ⟨hs, hm⟩ := hT.sup j j1 hj
  have hd := pairwise_last hs ((hm j).2 ⟨hj, anc_refl hp hj⟩) (fun x hx => anc_le hp j hj ((hm x).1 hx).2)
  have h0 : 0 ∈ (T.sup j).dropLast := (hd 0).2 ⟨(hm 0).2 ⟨by omega, anc_root hp j hj⟩, by omega⟩
  rw [pairwise_head (hs.sublist (List.dropLast_sublist _)) h0 (fun x _ => Nat.zero_le x), hd, hm]
  constructor
  · rintro ⟨⟨⟨a, b⟩, c⟩, d⟩; exact ⟨by omega, c, b⟩
  · rintro ⟨a, b, c⟩
    exact ⟨⟨⟨by have := anc_le hp j hj c; omega, c⟩, b⟩, by omega⟩

omit [CommRing K] in
/-- the joints after `j` in its subtree -/
theorem HTab.Ok.mem_sub (hT : T.Ok s) (hp : ParOk s.par s.n) {j : ℕ} (j1 : 1 ≤ j) (hj : j < s.n) (i : ℕ) :
    i ∈ (T.sub j).tail ↔ i < s.n ∧ i ≠ j ∧ anc s.par j i := by
  obtain ⟨hs, hm⟩ := hT.sub j j1 hj
  rw [pairwise_head hs ((hm j).2 ⟨hj, anc_refl hp hj⟩) (fun x hx => by
    obtain ⟨a, b⟩ := (hm x).1 hx; exact anc_le hp x a b), hm]
  constructor
  · rintro ⟨⟨a, b⟩, c⟩; exact ⟨a, c, b⟩
  · rintro ⟨a, b, c⟩; exact ⟨⟨a, c⟩, b⟩

theorem cross_swap (a b : Motion K) : -(a.cross b) = b.cross a := by
  ext <;> simp [Motion.cross] <;> ring

theorem cross_self (a : Motion K) : a.cross a = 0 := by
  ext <;> simp [Motion.cross] <;> ring

/-- rows of comparable joints, but not the same row -/
def Rel (s : Sys K) (i k i' k' : ℕ) : Prop := (anc s.par i i' ∨ anc s.par i' i) ∧ ¬ (i = i' ∧ k = k')

/-- `H` holds `S_outer × S_inner` for the pairs of related rows with `outer` before row `m` of joint `j` -/
def HessOk (s : Sys K) (J : ℕ → Motion K) (j m : ℕ) (H : Hess K) : Prop :=
  ∀ i k i' k', 1 ≤ i → i < s.n → k < s.jnv i → 1 ≤ i' → i' < s.n → k' < s.jnv i' → (i < j ∨ i = j ∧ k < m) →
    Rel s i k i' k' → H (s.iv i + k) (s.iv i' + k') = (J (s.iv i + k)).cross (J (s.iv i' + k'))

theorem foldl_nest {D : Type*} (f : ℕ → List ℕ) (g : D → ℕ → D) (l : List ℕ) (d : D) :
    l.foldl (fun d i => (f i).foldl g d) d = (l.flatMap f).foldl g d := by
  induction l generalizing d with
  | nil => rfl
  | cons a l ih => rw [List.foldl_cons, List.flatMap_cons, List.foldl_append, ih]

/-- the slice written by one turn of the loop on the rows -/
theorem hessRow_ok (h : s.Packed) (hT : T.Ok s) (J : ℕ → Motion K) {j row : ℕ} (j1 : 1 ≤ j) (hj : j < s.n)
    (hr : row < s.jnv j) {H : Hess K} (hH : HessOk s J j row H) :
    RowW (s.iv j + row) (fun b => (J (s.iv j + row)).cross (J b))
      (fun b => ∃ i k, 1 ≤ i ∧ i < s.n ∧ k < s.jnv i ∧ b = s.iv i + k ∧ Rel s j row i k) H
      (hessRow s T J j row H) := by
  have hneg : ∀ b i k, 1 ≤ i → i < s.n → k < s.jnv i → b = s.iv i + k → Rel s j row i k → (i < j ∨ i = j ∧ k < row) →
      ∀ H' : Hess K, (∀ c, c ≠ s.iv j + row → H' c = H c) →
        -(H' b (s.iv j + row)) = (J (s.iv j + row)).cross (J b) := by
    intro b i k i1 hi hk hb hrel hlt H' hrow
    subst hb
    have hne : s.iv i + k ≠ s.iv j + row := by
      intro e
      have := h.inj i1 hi j1 hj hk hr e
      omega
    rw [hrow _ hne, hH i k j row i1 hi hk j1 hj hr hlt ⟨hrel.1.symm, fun e => hrel.2 ⟨e.1.symm, e.2.symm⟩⟩]
    exact cross_swap _ _
  unfold hessRow
  dsimp only
  -- the joints before
  have w1 := rowW_loop (g := fun b => (J (s.iv j + row)).cross (J b)) (f := fun b H => -(H b (s.iv j + row)))
    (RowW.refl (s.iv j + row) _ H) ((T.sup j).dropLast.tail.flatMap (rowsOfJoint s)) (by
      intro b hb H' hrow _
      obtain ⟨i, hi, hb⟩ := List.mem_flatMap.1 hb
      obtain ⟨i1, hne, ha⟩ := (hT.mem_sup h.par j1 hj i).1 hi
      obtain ⟨k, hk, e⟩ := mem_rowsOfJoint.1 hb
      have hle := anc_le h.par j hj ha
      exact hneg b i k i1 (by omega) hk e ⟨Or.inr ha, fun e => hne e.1.symm⟩ (Or.inl (by omega)) H' hrow)
  rw [← foldl_nest] at w1
  have w2 := rowW_loop (f := fun b H => -(H b (s.iv j + row))) w1 ((List.range row).map (fun k => s.iv j + k)) (by
      intro b hb H' hrow _
      simp only [List.mem_map, List.mem_range] at hb
      obtain ⟨k, hk, e⟩ := hb
      exact hneg b j k j1 hj (by omega) e.symm ⟨Or.inl (anc_refl h.par hj), by omega⟩ (Or.inr ⟨rfl, hk⟩) H' hrow)
  have w3 := rowW_loop (f := fun b _ => (J (s.iv j + row)).cross (J b)) w2
    ((List.range' (row + 1) (s.jnv j - (row + 1))).map (fun k => s.iv j + k)) (fun _ _ _ _ _ => rfl)
  have w4 := rowW_loop (f := fun b _ => (J (s.iv j + row)).cross (J b)) w3
    ((T.sub j).tail.flatMap (rowsOfJoint s)) (fun _ _ _ _ _ => rfl)
  rw [← foldl_nest] at w4
  refine w4.congr ?_
  intro b
  simp only [false_or, List.mem_flatMap, List.mem_map, List.mem_range, List.mem_range'_1, hT.mem_sup h.par j1 hj,
    hT.mem_sub h.par j1 hj, mem_rowsOfJoint]
  constructor
  · rintro (((⟨i, ⟨i1, hne, ha⟩, k, hk, e⟩ | ⟨k, hk, e⟩) | ⟨k, hk, e⟩) | ⟨i, ⟨hi, hne, ha⟩, k, hk, e⟩)
    · have := anc_le h.par j hj ha
      exact ⟨i, k, i1, by omega, hk, e, Or.inr ha, fun e => hne e.1.symm⟩
    · exact ⟨j, k, j1, hj, by omega, e.symm, Or.inl (anc_refl h.par hj), by omega⟩
    · exact ⟨j, k, j1, hj, by omega, e.symm, Or.inl (anc_refl h.par hj), by omega⟩
    · have := anc_le h.par i hi ha
      exact ⟨i, k, by omega, hi, hk, e, Or.inl ha, fun e => hne e.1.symm⟩
  · rintro ⟨i, k, i1, hi, hk, e, ha, hne⟩
    by_cases ei : i = j
    · subst ei
      rcases lt_trichotomy k row with hlt | heq | hgt
      · exact Or.inl (Or.inl (Or.inr ⟨k, hlt, e.symm⟩))
      · exact absurd ⟨rfl, heq.symm⟩ hne
      · exact Or.inl (Or.inr ⟨k, by omega, e.symm⟩)
    · rcases ha with ha | ha
      · exact Or.inr ⟨i, ⟨hi, ei, ha⟩, k, hk, e⟩
      · exact Or.inl (Or.inl (Or.inl ⟨i, ⟨i1, ei, ha⟩, k, hk, e⟩))

theorem hessians_ok (h : s.Packed) (hT : T.Ok s) (J : ℕ → Motion K) (H : Hess K) :
    HessOk s J s.n 0 (computeJointKinematicHessians s T J H) := by
  unfold computeJointKinematicHessians
  apply fwd_ind (P := fun j H => HessOk s J j 0 H) h.par.1
  · intro i k i' k' i1 _ _ _ _ _ hlt; omega
  · intro j H j1 hj ih
    have key : ∀ m, m ≤ s.jnv j →
        HessOk s J j m ((List.range m).foldl (fun H row => hessRow s T J j row H) H) := by
      intro m
      induction m with
      | zero => intro _; exact ih
      | succ m ihm =>
        intro hm
        rw [List.range_succ, List.foldl_append, List.foldl_cons, List.foldl_nil]
        have hw := hessRow_ok h hT J j1 hj (show m < s.jnv j by omega) (ihm (by omega))
        intro i k i' k' i1 hi hk i1' hi' hk' hlt hrel
        by_cases e : i = j ∧ k = m
        · obtain ⟨rfl, rfl⟩ := e
          exact hw.mem _ ⟨i', k', i1', hi', hk', rfl, hrel⟩
        · rw [hw.row _ (fun x => e (h.inj i1 hi j1 hj hk (by omega) x))]
          exact ihm (by omega) i k i' k' i1 hi hk i1' hi' hk' (by omega) hrel
    have := key (s.jnv j) le_rfl
    intro i k i' k' i1 hi hk i1' hi' hk' hlt hrel
    refine this i k i' k' i1 hi hk i1' hi' hk' ?_ hrel
    rcases (show i < j ∨ i = j by omega) with e | e
    · exact Or.inl e
    · subst e; exact Or.inr ⟨rfl, hk⟩

omit [CommRing K] in
/-- what a loop on a list without repetition leaves in slice `a` -/
theorem laterLoop_row {step : ℕ → List ℕ → Hess K → Hess K}
    (hloc : ∀ a l (H : Hess K), ∀ c, c ≠ a → step a l H c = H c) :
    ∀ (L : List ℕ) (H : Hess K), (∀ a, a ∉ L → laterLoop step L H a = H a) ∧
      (L.Nodup → ∀ pre a post, L = pre ++ a :: post →
        ∃ H' : Hess K, H' a = H a ∧ laterLoop step L H a = step a post H' a) := by
  intro L
  induction L with
  | nil => intro H; exact ⟨fun _ _ => rfl, fun _ pre a post e => by simp at e⟩
  | cons x L ih =>
    intro H
    obtain ⟨i1, i2⟩ := ih (step x L H)
    refine ⟨fun a ha => ?_, fun hn pre a post e => ?_⟩
    · rw [List.mem_cons, not_or] at ha
      change laterLoop step L (step x L H) a = _
      rw [i1 a ha.2, hloc _ _ _ a ha.1]
    · rw [List.nodup_cons] at hn
      cases pre with
      | nil =>
        rw [List.nil_append, List.cons.injEq] at e
        obtain ⟨rfl, rfl⟩ := e
        exact ⟨H, rfl, i1 x hn.1⟩
      | cons y pre =>
        rw [List.cons_append, List.cons.injEq] at e
        obtain ⟨rfl, e⟩ := e
        obtain ⟨H', e1, e2⟩ := i2 hn.2 pre a post e
        refine ⟨H', ?_, e2⟩
        rw [e1]
        refine hloc _ _ _ a (fun ea => hn.1 ?_)
        rw [e, ← ea]; simp

/-! ## The slices `getJointKinematicHessian` fills -/

omit [CommRing K] in
theorem HTab.Ok.mem_row (hT : T.Ok s) (hf : s.Full) {j : ℕ} (j1 : 1 ≤ j) (hj : j < s.n) :
    (T.supRow (s.iv j + s.jnv j - 1)).Pairwise (· < ·) ∧ ∀ r, r ∈ T.supRow (s.iv j + s.jnv j - 1) ↔
      ∃ i l, 1 ≤ i ∧ i < s.n ∧ l < s.jnv i ∧ r = s.iv i + l ∧ anc s.par i j := by
  have hp := hf j j1 hj
  have e : s.iv j + s.jnv j - 1 = s.iv j + (s.jnv j - 1) := by omega
  rw [e]
  obtain ⟨a, b⟩ := hT.supRow j (s.jnv j - 1) j1 hj (by omega)
  refine ⟨a, fun r => (b r).trans ?_⟩
  constructor
  · rintro ⟨i, l, x1, x2, x3, x4, x5, -⟩; exact ⟨i, l, x1, x2, x3, x4, x5⟩
  · rintro ⟨i, l, x1, x2, x3, x4, x5⟩
    exact ⟨i, l, x1, x2, x3, x4, x5, fun e => by subst e; omega⟩

theorem HTab.Ok.mem_row' (h : s.Packed) (hT : T.Ok s) (hf : s.Full) {j : ℕ} (j1 : 1 ≤ j) (hj : j < s.n) {i l : ℕ}
    (i1 : 1 ≤ i) (hi : i < s.n) (hl : l < s.jnv i) :
    s.iv i + l ∈ T.supRow (s.iv j + s.jnv j - 1) ↔ anc s.par i j := by
  rw [(hT.mem_row hf j1 hj).2]
  constructor
  · rintro ⟨i', l', x1, x2, x3, x4, x5⟩
    rw [(h.inj i1 hi x1 x2 hl x3 x4).1]; exact x5
  · intro ha; exact ⟨i, l, i1, hi, hl, rfl, ha⟩

/-- a sorted list cut at one of its elements -/
theorem sorted_cut {pre post : List ℕ} {a : ℕ} (h : (pre ++ a :: post).Pairwise (· < ·)) (b : ℕ) :
    (b ∈ post ↔ b ∈ pre ++ a :: post ∧ a < b) ∧ (b ∈ pre ↔ b ∈ pre ++ a :: post ∧ b < a) := by
  rw [List.pairwise_append, List.pairwise_cons] at h
  obtain ⟨-, ⟨h2, -⟩, h3⟩ := h
  simp only [List.mem_append, List.mem_cons]
  constructor
  · constructor
    · intro hb; exact ⟨Or.inr (Or.inr hb), h2 b hb⟩
    · rintro ⟨x | x | x, hlt⟩
      · have := h3 b x a List.mem_cons_self; omega
      · omega
      · exact x
  · constructor
    · intro hb; exact ⟨Or.inl hb, h3 b hb a List.mem_cons_self⟩
    · rintro ⟨x | x | x, hlt⟩
      · exact x
      · omega
      · have := h2 b x; omega

/-- order of the rows of two joints one of which supports the other -/
theorem Packed.row_le (h : s.Packed) {i k i' k' : ℕ} (i1 : 1 ≤ i) (hi : i < s.n) (i1' : 1 ≤ i') (hi' : i' < s.n)
    (hk : k < s.jnv i) (hk' : k' < s.jnv i') :
    (s.iv i + k < s.iv i' + k' ↔ i < i' ∨ i = i' ∧ k < k') := by
  rcases lt_trichotomy i i' with e | e | e
  · have := h.mono i1 e hi'; omega
  · subst e; omega
  · have := h.mono i1' e hi; omega

omit [CommRing K] in
theorem anc_order (hp : ParOk s.par s.n) {i i' j : ℕ} (hi : i < s.n) (hi' : i' < s.n) (hj : j < s.n)
    (ha : anc s.par i j) (ha' : anc s.par i' j) : anc s.par i i' ↔ i ≤ i' := by
  constructor
  · exact anc_le hp i' hi'
  · intro hle
    rcases anc_total hp j hj ha ha' with e | e
    · exact e
    · have := anc_le hp i hi e
      have : i = i' := by omega
      subst this; exact e

section cols
variable (h : s.Packed) (hf : s.Full) (hT : T.Ok s) {J : ℕ → Motion K} {Hs : Hess K} (hH : HessOk s J s.n 0 Hs) {j : ℕ}
  (j1 : 1 ≤ j) (hj : j < s.n) {i k i' k' : ℕ} (i1 : 1 ≤ i) (hi : i < s.n) (hk : k < s.jnv i) (i1' : 1 ≤ i')
  (hi' : i' < s.n) (hk' : k' < s.jnv i')

include h i1 hi hk i1' hi' hk' in
/-- rows of the same joint that come before -/
theorem mem_before : s.iv i' + k' ∈ List.range' (s.iv i) (s.iv i + k - s.iv i) ↔ i' = i ∧ k' < k := by
  rw [List.mem_range'_1]
  constructor
  · rintro ⟨a, b⟩
    have e := h.inj i1' hi' i1 hi hk' (show s.iv i' + k' - s.iv i < s.jnv i by omega) (by omega)
    exact ⟨e.1, by omega⟩
  · rintro ⟨rfl, b⟩; omega

include h i1 hi hk i1' hi' hk' in
/-- rows of the same joint that come after -/
theorem mem_after : s.iv i' + k' ∈ List.range' (s.iv i + k + 1) (s.iv i + s.jnv i - 1 - (s.iv i + k)) ↔
    i' = i ∧ k < k' := by
  rw [List.mem_range'_1]
  constructor
  · rintro ⟨a, b⟩
    have e := h.inj i1' hi' i1 hi hk' (show s.iv i' + k' - s.iv i < s.jnv i by omega) (by omega)
    exact ⟨e.1, by omega⟩
  · rintro ⟨rfl, b⟩; omega

include hH i1 hi hk i1' hi' hk' in
theorem hs_eq (hr : Rel s i k i' k') : Hs (s.iv i + k) (s.iv i' + k') = (J (s.iv i + k)).cross (J (s.iv i' + k')) :=
  hH i k i' k' i1 hi hk i1' hi' hk' (Or.inl hi) hr

include h hf hT hH j1 hj i1 hi hk i1' hi' hk'

theorem hess_world_at (d : Data K) [Decidable (anc s.par i j ∧ anc s.par i' j ∧ anc s.par i i')] :
    getJointKinematicHessian s T d Hs j .WORLD (fun _ _ => 0) (s.iv i + k) (s.iv i' + k')
      = if anc s.par i j ∧ anc s.par i' j ∧ anc s.par i i' then (J (s.iv i + k)).cross (J (s.iv i' + k')) else 0 := by
  unfold getJointKinematicHessian
  dsimp only
  obtain ⟨hsort, -⟩ := hT.mem_row hf j1 hj
  have hmem := fun {i l : ℕ} (i1 : 1 ≤ i) (hi : i < s.n) (hl : l < s.jnv i) => hT.mem_row' h hf j1 hj i1 hi hl
  generalize T.supRow (s.iv j + s.jnv j - 1) = L at hsort hmem
  have hw : ∀ a l (H : Hess K), RowW a (Hs a) (fun b => b ∈ List.range' (T.start a) (a - T.start a) ∨ b ∈ l) H
      (hessWorldStep T Hs a l H) := by
    intro a l H
    exact (rowW_loop (f := fun b _ => Hs a b) (rowW_loop (f := fun b _ => Hs a b) (RowW.refl a (Hs a) H) _
      (fun _ _ _ _ _ => rfl)) l (fun _ _ _ _ _ => rfl)).congr (by simp)
  obtain ⟨l1, l2⟩ := laterLoop_row (fun a l H => (hw a l H).row) L (fun _ _ => (0 : Motion K))
  by_cases ha : anc s.par i j
  · obtain ⟨pre, post, e⟩ := List.mem_iff_append.1 ((hmem i1 hi hk).2 ha)
    obtain ⟨H', e1, e2⟩ := l2 hsort.nodup pre _ post e
    rw [e2]
    have hw := hw (s.iv i + k) post H'
    rw [hT.start i k i1 hi hk] at hw
    have hpost := (sorted_cut (e ▸ hsort) (s.iv i' + k')).1
    rw [← e, hmem i1' hi' hk', Packed.row_le h i1 hi i1' hi' hk hk'] at hpost
    have hbef := mem_before h i1 hi hk i1' hi' hk'
    split
    · rename_i hc
      obtain ⟨-, ha', haa⟩ := hc
      have hle := anc_le h.par i' hi' haa
      by_cases ee : i = i' ∧ k = k'
      · obtain ⟨rfl, rfl⟩ := ee
        rw [hw.out _ (by rw [hpost, hbef]; omega), e1, cross_self]
      · rw [hw.mem _ (by rw [hpost, hbef]; simp only [ha', true_and]; omega)]
        exact hs_eq hH i1 hi hk i1' hi' hk' ⟨Or.inl haa, ee⟩
    · rename_i hc
      rw [hw.out _ (by
        rw [hpost, hbef]
        rintro (⟨rfl, -⟩ | ⟨ha', hlt⟩)
        · exact hc ⟨ha, ha, anc_refl h.par hi⟩
        · exact hc ⟨ha, ha', (anc_order h.par hi hi' hj ha ha').2 (by omega)⟩), e1]
  · rw [if_neg (fun x => ha x.1), l1 _ (fun x => ha ((hmem i1 hi hk).1 x))]

theorem hess_lwa_at {d : Data K} (hJ : d.J = J) [Decidable (anc s.par i j ∧ anc s.par i' j)]
    [Decidable (anc s.par i i')] :
    getJointKinematicHessian s T d Hs j .LOCAL_WORLD_ALIGNED (fun _ _ => 0) (s.iv i + k) (s.iv i' + k')
      = if anc s.par i j ∧ anc s.par i' j then
          (if anc s.par i i' then
            translateCol (d.oMi j) ((J (s.iv i + k)).cross (J (s.iv i' + k'))) .LOCAL_WORLD_ALIGNED else 0)
          - ⟨(translateCol (d.oMi j) (J (s.iv i + k)) .LOCAL_WORLD_ALIGNED).lin.cross (J (s.iv i' + k')).ang, 0⟩
        else 0 := by
  subst hJ
  unfold getJointKinematicHessian
  dsimp only
  obtain ⟨hsort, -⟩ := hT.mem_row hf j1 hj
  have hmem := fun {i l : ℕ} (i1 : 1 ≤ i) (hi : i < s.n) (hl : l < s.jnv i) => hT.mem_row' h hf j1 hj i1 hi hl
  generalize T.supRow (s.iv j + s.jnv j - 1) = L at hsort hmem
  set p := (d.oMi j).trans with hp
  have hloc : ∀ a l (H : Hess K), ∀ c, c ≠ a → hessLwaStep T p d.J Hs L a l H c = H c := by
    intro a l H c hc
    have aux : ∀ (l : List ℕ) (f : ℕ → Hess K → Motion K) (H : Hess K),
        l.foldl (fun H b => upd2 H a b (f b H)) H c = H c := by
      intro l f
      induction l with
      | nil => intro H; rfl
      | cons b l ih => intro H; rw [List.foldl_cons, ih, upd2_row _ _ _ _ hc]
    unfold hessLwaStep
    rw [aux l (fun inner _ => hessLwaCol p d.J Hs a inner), upd2_row _ _ _ _ hc,
      aux _ (fun inner _ => hessLwaCol p d.J Hs a inner),
      aux _ (fun inner H => hessLwaLin p d.J a inner (H a inner))]
  obtain ⟨l1, l2⟩ := laterLoop_row hloc L (fun _ _ => (0 : Motion K))
  by_cases ha : anc s.par i j
  · obtain ⟨pre, post, e⟩ := List.mem_iff_append.1 ((hmem i1 hi hk).2 ha)
    obtain ⟨H', e1, e2⟩ := l2 hsort.nodup pre _ post e
    rw [e2]
    have hpost := fun b => (sorted_cut (e ▸ hsort) b).1
    have hpre := fun b => (sorted_cut (e ▸ hsort) b).2
    rw [← e] at hpost hpre
    -- the rows of the joints before
    have htw : ∀ b, b ∈ L.takeWhile (fun inner => decide (inner < T.start (s.iv i + k))) ↔ b ∈ L ∧ b < s.iv i := by
      rw [hT.start i k i1 hi hk]
      intro b
      clear e2 hpost hpre e l1 l2 hloc hmem
      induction L with
      | nil => simp
      | cons x L ih =>
        rw [List.pairwise_cons] at hsort
        rw [List.takeWhile_cons]
        by_cases hx : x < s.iv i
        · rw [if_pos (by simpa using hx), List.mem_cons, ih hsort.2, List.mem_cons]
          constructor
          · rintro (rfl | ⟨a, b⟩)
            · exact ⟨Or.inl rfl, hx⟩
            · exact ⟨Or.inr a, b⟩
          · rintro ⟨a | a, b⟩
            · exact Or.inl a
            · exact Or.inr ⟨a, b⟩
        · rw [if_neg (by simpa using hx)]
          constructor
          · intro hb; simp at hb
          · rintro ⟨hb, hlt⟩
            rcases List.mem_cons.1 hb with rfl | hb
            · exact absurd hlt hx
            · have := hsort.1 b hb; omega
    set g : ℕ → Motion K := fun b => if b < s.iv i ∨ b = s.iv i + k then hessLwaLin p d.J (s.iv i + k) b 0
      else hessLwaCol p d.J Hs (s.iv i + k) b with hg
    have hlin : ∀ b, (b < s.iv i ∨ b = s.iv i + k) → ∀ H'' : Hess K,
        (H'' (s.iv i + k) b = H' (s.iv i + k) b ∨ H'' (s.iv i + k) b = g b) →
        hessLwaLin p d.J (s.iv i + k) b (H'' (s.iv i + k) b) = g b := by
      intro b hb H'' hor
      rw [hg]
      simp only [if_pos hb]
      rcases hor with x | x
      · rw [x, e1]
      · rw [x, hg]; simp only [if_pos hb]; rfl
    have w1 := rowW_loop (f := fun b H => hessLwaLin p d.J (s.iv i + k) b (H (s.iv i + k) b))
      (RowW.refl (s.iv i + k) g H')
      (L.takeWhile (fun inner => decide (inner < T.start (s.iv i + k))))
      (fun b hb H'' _ hor => hlin b (Or.inl ((htw b).1 hb).2) H'' hor)
    have w2 := rowW_loop (f := fun b _ => hessLwaCol p d.J Hs (s.iv i + k) b) w1
      (List.range' (T.start (s.iv i + k)) (s.iv i + k - T.start (s.iv i + k))) (by
        intro b hb _ _ _
        rw [hT.start i k i1 hi hk, List.mem_range'_1] at hb
        rw [hg]
        simp only
        rw [if_neg (by omega)])
    have w3 := rowW_loop (f := fun b H => hessLwaLin p d.J (s.iv i + k) b (H (s.iv i + k) b)) w2 [s.iv i + k] (by
        intro b hb H'' _ hor
        rw [List.mem_singleton] at hb
        exact hlin b (Or.inr hb) H'' hor)
    have w4 := rowW_loop (f := fun b _ => hessLwaCol p d.J Hs (s.iv i + k) b) w3 post (by
        intro b hb _ _ _
        have := ((hpost b).1 hb).2
        rw [hg]
        simp only
        rw [if_neg (by omega)])
    have hw : RowW (s.iv i + k) g (fun b => ((b ∈ L ∧ b < s.iv i) ∨ b ∈ List.range' (s.iv i) (s.iv i + k - s.iv i)
        ∨ b = s.iv i + k) ∨ b ∈ post) H' (hessLwaStep T p d.J Hs L (s.iv i + k) post H') :=
      w4.congr (fun b => by
        rw [hT.start i k i1 hi hk] at htw ⊢
        rw [htw b]
        simp only [false_or, List.mem_singleton, or_assoc])
    have hbef := mem_before h i1 hi hk i1' hi' hk'
    have hord := Packed.row_le h i1' hi' i1 hi hk' (show 0 < s.jnv i by omega)
    rw [Nat.add_zero] at hord
    have hiff : (((s.iv i' + k' ∈ L ∧ s.iv i' + k' < s.iv i) ∨
        s.iv i' + k' ∈ List.range' (s.iv i) (s.iv i + k - s.iv i) ∨ s.iv i' + k' = s.iv i + k) ∨ s.iv i' + k' ∈ post)
        ↔ anc s.par i' j := by
      rw [hpost, hmem i1' hi' hk', hbef, Packed.row_le h i1 hi i1' hi' hk hk', hord]
      constructor
      · rintro ((⟨x, -⟩ | ⟨rfl, -⟩ | x) | ⟨x, -⟩)
        · exact x
        · exact ha
        · rw [(h.inj i1' hi' i1 hi hk' hk x).1]; exact ha
        · exact x
      · intro ha'
        by_cases e1 : i = i' ∧ k = k'
        · obtain ⟨rfl, rfl⟩ := e1; exact Or.inl (Or.inr (Or.inr rfl))
        · simp only [ha', true_and]; omega
    by_cases ha' : anc s.par i' j
    · rw [hw.mem _ (hiff.2 ha'), if_pos ⟨ha, ha'⟩, hg]
      simp only
      have hao := anc_order h.par hi hi' hj ha ha'
      by_cases hlt : s.iv i' + k' < s.iv i
      · have : ¬ anc s.par i i' := by rw [hao]; rw [hord] at hlt; omega
        rw [if_pos (Or.inl hlt), if_neg this]
        ext <;> simp [hessLwaLin, translateCol, hp]
      · have haa : anc s.par i i' := by rw [hao]; rw [hord] at hlt; by_contra hcon; exact hlt (Or.inl (by omega))
        rw [if_pos haa]
        by_cases hd : s.iv i' + k' = s.iv i + k
        · rw [if_pos (Or.inr hd), hd, cross_self]
          ext <;> simp [hessLwaLin, translateCol, hp, V3.cross]
        · rw [if_neg (by omega)]
          have := hs_eq hH i1 hi hk i1' hi' hk' ⟨Or.inl haa, fun x => hd (by rw [x.1, x.2])⟩
          simp only [hessLwaCol, this]
          ext <;> simp [translateCol, hp] <;> ring
    · rw [hw.out _ (fun x => ha' (hiff.1 x)), if_neg (fun x => ha' x.2), e1]
  · rw [if_neg (fun x => ha x.1), l1 _ (fun x => ha ((hmem i1 hi hk).1 x))]

theorem hess_local_at (d : Data K)
    [Decidable (anc s.par i j ∧ anc s.par i' j ∧ s.par i ≠ 0 ∧ anc s.par i' i)] :
    getJointKinematicHessian s T d Hs j .LOCAL (fun _ _ => 0) (s.iv i + k) (s.iv i' + k')
      = if anc s.par i j ∧ anc s.par i' j ∧ s.par i ≠ 0 ∧ anc s.par i' i then
          (d.oMi j).actInv ((J (s.iv i' + k')).cross (J (s.iv i + k)))
        else 0 := by
  unfold getJointKinematicHessian
  dsimp only
  obtain ⟨hsort, -⟩ := hT.mem_row hf j1 hj
  have hmem := fun {i l : ℕ} (i1 : 1 ≤ i) (hi : i < s.n) (hl : l < s.jnv i) => hT.mem_row' h hf j1 hj i1 hi hl
  generalize T.supRow (s.iv j + s.jnv j - 1) = L at hsort hmem
  have hw : ∀ a l (H : Hess K), RowW a (fun b => (d.oMi j).actInv (Hs b a))
      (fun b => 0 ≤ parentsFromRow s (T.start a) ∧
        (b ∈ List.range' (a + 1) (T.stop a - a) ∨ b ∈ l)) H
      (hessLocalStep s T (d.oMi j) Hs a l H) := by
    intro a l H
    unfold hessLocalStep
    split
    · rename_i hneg
      exact (RowW.refl a _ H).congr (fun b => ⟨fun x => x.elim, fun x => by omega⟩)
    · rename_i hneg
      refine (rowW_loop (f := fun b _ => (d.oMi j).actInv (Hs b a)) (rowW_loop
        (f := fun b _ => (d.oMi j).actInv (Hs b a)) (RowW.refl a (fun b => (d.oMi j).actInv (Hs b a)) H) _
        (fun _ _ _ _ _ => rfl)) l (fun _ _ _ _ _ => rfl)).congr (fun b => ?_)
      simp only [false_or, List.mem_reverse]
      constructor
      · intro x; exact ⟨by omega, x⟩
      · exact fun x => x.2
  obtain ⟨l1, l2⟩ := laterLoop_row (fun a l H => (hw a l H).row) L.reverse (fun _ _ => (0 : Motion K))
  by_cases ha : anc s.par i j
  · obtain ⟨pre, post, e⟩ := List.mem_iff_append.1 ((hmem i1 hi hk).2 ha)
    have er : L.reverse = post.reverse ++ (s.iv i + k) :: pre.reverse := by rw [e]; simp
    obtain ⟨H', e1, e2⟩ := l2 (List.nodup_reverse.2 hsort.nodup) post.reverse _ pre.reverse er
    rw [e2]
    have hw := hw (s.iv i + k) pre.reverse H'
    rw [hT.start i k i1 hi hk, hT.stop i k i1 hi hk, (parentsFromRow_spec h hf i i1 hi).1] at hw
    have hpre := (sorted_cut (e ▸ hsort) (s.iv i' + k')).2
    rw [← e, hmem i1' hi' hk', Packed.row_le h i1' hi' i1 hi hk' hk] at hpre
    have haft := mem_after h i1 hi hk i1' hi' hk'
    have hpos : (0 : ℤ) ≤ (if s.par i > 0 then (s.iv (s.par i) : ℤ) + s.jnv (s.par i) - 1 else -1) ↔ s.par i ≠ 0 := by
      split
      · rename_i hz
        have := hf (s.par i) hz (by have := h.par.2 i i1 hi; omega)
        omega
      · omega
    split
    · rename_i hc
      obtain ⟨-, ha', hz, haa⟩ := hc
      have hle := anc_le h.par i hi haa
      by_cases ee : i' = i ∧ k' = k
      · obtain ⟨rfl, rfl⟩ := ee
        rw [hw.out _ (by rw [List.mem_reverse, hpre, haft]; omega), e1, cross_self]
        ext <;> simp [SE3.actInv, M3.mulVec]
      · rw [hw.mem _ (by rw [List.mem_reverse, hpre, haft, hpos]; simp only [ha', true_and]; omega)]
        rw [hs_eq hH i1' hi' hk' i1 hi hk ⟨Or.inl haa, ee⟩]
    · rename_i hc
      rw [hw.out _ (by
        rw [List.mem_reverse, hpre, haft, hpos]
        rintro ⟨hz, ⟨rfl, -⟩ | ⟨ha', hlt⟩⟩
        · exact hc ⟨ha, ha, hz, anc_refl h.par hi⟩
        · exact hc ⟨ha, ha', hz, (anc_order h.par hi' hi hj ha' ha).2 (by omega)⟩), e1]
  · rw [if_neg (fun x => ha x.1), l1 _ (fun x => ha ((hmem i1 hi hk).1 (List.mem_reverse.1 x)))]

end cols

end Pin
