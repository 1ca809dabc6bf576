import Verif.Par.Defs
import Verif.Algo.Passes
import Mathlib.Data.Set.Insert

/-! # Lemmas on parallel loops and pools -/

namespace Pin
open Relation

/-- invariant of a parallel loop: what is written is the output of all the steps of the iteration, from some data -/
structure PInv {D R : Type*} (T n : ℕ) (steps : ℕ → ℕ → List (D → D)) (out : D → R) (s : PState D R) : Prop where
  range : ∀ i ∈ s.todo, i < n
  /-- a working thread is somewhere in the steps of its iteration -/
  work : ∀ t i l, s.th t = .work i l → t < T ∧ i < n ∧ ∃ d m, steps t i = m ++ l ∧ s.datas t = m.foldl (fun d f => f d) d
  /-- an iteration is to be done, being done, or done -/
  cover : ∀ i < n, i ∈ s.todo ∨ (∃ t l, s.th t = .work i l) ∨
    ∃ t < T, ∃ d, s.res i = out ((steps t i).foldl (fun d f => f d) d)

theorem PInv.init {D R : Type*} {T n : ℕ} {steps : ℕ → ℕ → List (D → D)} {out : D → R} {s : PState D R} (h : s.Init n) :
    PInv T n steps out s := by
  refine ⟨?_, ?_, ?_⟩
  · intro i hi; rw [h.1] at hi; exact hi
  · intro t i l ht; rw [h.2 t] at ht; cases ht
  · intro i hi; left; rw [h.1]; exact hi

theorem PInv.step {D R : Type*} {T n : ℕ} {steps : ℕ → ℕ → List (D → D)} {out : D → R} {s s' : PState D R}
    (h : PInv T n steps out s) (hs : PStep T steps out s s') : PInv T n steps out s' := by
  cases hs with
  | take t i ht hidle hi =>
    refine ⟨fun j hj => h.range j hj.1, ?_, ?_⟩
    · intro t' j l hw
      by_cases e : t' = t
      · subst e
        simp only [upd_self] at hw
        cases hw
        exact ⟨ht, h.range i hi, s.datas t', [], rfl, rfl⟩
      · simp only [upd_ne _ _ e] at hw
        exact h.work t' j l hw
    · intro j hj
      rcases h.cover j hj with hc | ⟨t', l, hw⟩ | hr
      · by_cases e : j = i
        · subst e; exact Or.inr (Or.inl ⟨t, steps t j, upd_self ..⟩)
        · exact Or.inl ⟨hc, e⟩
      · have e : t' ≠ t := by rintro rfl; rw [hidle] at hw; cases hw
        exact Or.inr (Or.inl ⟨t', l, by simp only [upd_ne _ _ e]; exact hw⟩)
      · exact Or.inr (Or.inr hr)
  | work t i f l ht hw =>
    refine ⟨h.range, ?_, ?_⟩
    · intro t' j l' hw'
      by_cases e : t' = t
      · subst e
        simp only [upd_self] at hw'
        cases hw'
        obtain ⟨h1, h2, d, m, h3, h4⟩ := h.work t' i (f :: l) hw
        refine ⟨h1, h2, d, m ++ [f], by rw [h3]; simp, ?_⟩
        simp only [upd_self, h4, List.foldl_append, List.foldl_cons, List.foldl_nil]
      · simp only [upd_ne _ _ e] at hw' ⊢
        exact h.work t' j l' hw'
    · intro j hj
      rcases h.cover j hj with hc | ⟨t', l', hw'⟩ | hr
      · exact Or.inl hc
      · by_cases e : t' = t
        · subst e
          rw [hw] at hw'; cases hw'
          exact Or.inr (Or.inl ⟨t', l, upd_self ..⟩)
        · exact Or.inr (Or.inl ⟨t', l', by simp only [upd_ne _ _ e]; exact hw'⟩)
      · exact Or.inr (Or.inr hr)
  | write t i ht hw =>
    obtain ⟨h1, h2, d, m, h3, h4⟩ := h.work t i [] hw
    rw [List.append_nil] at h3
    refine ⟨h.range, ?_, ?_⟩
    · intro t' j l' hw'
      by_cases e : t' = t
      · subst e
        simp only [upd_self] at hw'
        cases hw'
      · simp only [upd_ne _ _ e] at hw'
        exact h.work t' j l' hw'
    · intro j hj
      by_cases ej : j = i
      · subst ej
        refine Or.inr (Or.inr ⟨t, ht, d, ?_⟩)
        simp only [upd_self, h4, h3]
      · rcases h.cover j hj with hc | ⟨t', l', hw'⟩ | ⟨t', ht', d', hr⟩
        · exact Or.inl hc
        · by_cases e : t' = t
          · subst e
            rw [hw] at hw'; cases hw'; exact absurd rfl ej
          · exact Or.inr (Or.inl ⟨t', l', by simp only [upd_ne _ _ e]; exact hw'⟩)
        · exact Or.inr (Or.inr ⟨t', ht', d', by simp only [upd_ne _ _ ej]; exact hr⟩)

theorem PInv.reach {D R : Type*} {T n : ℕ} {steps : ℕ → ℕ → List (D → D)} {out : D → R} {s s' : PState D R}
    (h : s.Init n) (hs : ReflTransGen (PStep T steps out) s s') : PInv T n steps out s' := by
  induction hs with
  | refl => exact PInv.init h
  | tail _ hst ih => exact ih.step hst

theorem PInv.final {D R : Type*} {T n : ℕ} {steps : ℕ → ℕ → List (D → D)} {out : D → R} {s : PState D R}
    (h : PInv T n steps out s) (hf : s.Final) {i : ℕ} (hi : i < n) :
    ∃ t < T, ∃ d, s.res i = out ((steps t i).foldl (fun d f => f d) d) := by
  rcases h.cover i hi with hc | ⟨t, l, hw⟩ | hr
  · rw [hf.1] at hc; exact absurd hc (Set.notMem_empty _)
  · rw [hf.2 t] at hw; cases hw
  · exact hr

/-- entries beyond the batch are not written -/
theorem PState.outside {D R : Type*} {T n : ℕ} {steps : ℕ → ℕ → List (D → D)} {out : D → R} {s s' : PState D R}
    (h : s.Init n) (hs : ReflTransGen (PStep T steps out) s s') {i : ℕ} (hi : n ≤ i) : s'.res i = s.res i := by
  induction hs with
  | refl => rfl
  | tail hr hst ih =>
    rw [← ih]
    have hinv := PInv.reach h hr
    cases hst with
    | take => rfl
    | work => rfl
    | write t j ht hw =>
      have := (hinv.work t j [] hw).2.1
      exact upd_ne _ _ (by omega)

/-- nobody touches the data of threads that do not exist -/
theorem PState.other_data {D R : Type*} {T : ℕ} {steps : ℕ → ℕ → List (D → D)} {out : D → R} {s s' : PState D R}
    (hs : ReflTransGen (PStep T steps out) s s') {t : ℕ} (ht : T ≤ t) : s'.datas t = s.datas t := by
  induction hs with
  | refl => rfl
  | tail _ hst ih =>
    rw [← ih]
    cases hst with
    | take => rfl
    | work t' _ _ _ ht' _ => exact upd_ne _ _ (by omega)
    | write => rfl

/-- no deadlock -/
theorem PState.progress {D R : Type*} {T : ℕ} (hT : 0 < T) {steps : ℕ → ℕ → List (D → D)} {out : D → R} {s : PState D R}
    (hw : ∀ t i l, s.th t = .work i l → t < T) (hf : ¬ s.Final) : ∃ s', PStep T steps out s s' := by
  by_cases hid : ∀ t, s.th t = .idle
  · have hne : s.todo.Nonempty := by
      rw [Set.nonempty_iff_ne_empty]
      intro e; exact hf ⟨e, hid⟩
    obtain ⟨i, hi⟩ := hne
    exact ⟨_, PStep.take s 0 i hT (hid 0) hi⟩
  · push Not at hid
    obtain ⟨t, ht⟩ := hid
    cases hth : s.th t with
    | idle => exact absurd hth ht
    | work i l =>
      have htT := hw t i l hth
      cases l with
      | nil => exact ⟨_, PStep.write s t i htT hth⟩
      | cons f l => exact ⟨_, PStep.work s t i f l htT hth⟩

theorem foldl_map_fwd {D : Type*} (step : ℕ → D → D) (n : ℕ) (d : D) :
    ((List.range' 1 (n - 1)).map step).foldl (fun d f => f d) d = fwd step n d := by
  unfold fwd
  rw [List.foldl_map]

theorem foldl_map_bwd {D : Type*} (step : ℕ → D → D) (n : ℕ) (d : D) :
    ((List.range' 1 (n - 1)).reverse.map step).foldl (fun d f => f d) d = bwd step n d := by
  unfold bwd
  rw [List.foldl_map, List.foldl_reverse]

theorem rneaSteps_eq {K : Type*} [CommRing K] (s : Sys K) (q v a : ℕ → K) (d : Data K) :
    (rneaSteps s q v a).foldl (fun d f => f d) d = rnea s d q v a := by
  unfold rneaSteps rnea
  simp only [List.foldl_append, foldl_map_fwd, foldl_map_bwd, List.foldl_cons, List.foldl_nil]

theorem abaSteps_eq {K : Type*} [Field K] (s : Sys K) (q v tau : ℕ → K) (d : Data K) :
    (abaSteps s q v tau).foldl (fun d f => f d) d = abaWorld s d q v tau := by
  unfold abaSteps abaWorld
  simp only [List.foldl_append, foldl_map_fwd, foldl_map_bwd, List.foldl_cons, List.foldl_nil]

/-! ## collisions -/

/-- the sequential loop -/
theorem ccLoop_spec (enabled col : ℕ → Bool) (stop : Bool) : ∀ (l : List ℕ) (c : CState),
    let r := ccLoop enabled col stop l c
    (r.colliding = true ↔ c.colliding = true ∨ ∃ k ∈ l, enabled k = true ∧ col k = true) ∧
    (c.colliding = true → r.idx = c.idx) ∧
    (c.colliding = false → (∀ k, l.find? (fun k => enabled k && col k) = some k → r.idx = k) ∧
      (l.find? (fun k => enabled k && col k) = none → r.idx = c.idx)) ∧
    (stop = false → ∀ k, (k ∈ l ∧ enabled k = true → r.results k = col k)) ∧
    (∀ k, ¬ (k ∈ l ∧ enabled k = true) → r.results k = c.results k) ∧
    (stop = true → c.colliding = false → ∀ k, r.results k = if enabled k = true ∧ k ∈ l.take ((l.findIdx (fun k => enabled k && col k)) + 1)
      then col k else c.results k) := by
  intro l
  induction l with
  | nil => intro c; simp [ccLoop]
  | cons j l ih =>
    intro c
    unfold ccLoop
    by_cases he : enabled j = true
    · simp only [he, if_true]
      by_cases hc : (!c.colliding && col j) = true
      · simp only [hc, if_true]
        obtain ⟨hc1, hc2⟩ : c.colliding = false ∧ col j = true := by simpa using hc
        by_cases hs : stop = true
        · simp only [hs, if_true]
          refine ⟨?_, ?_, ?_, ?_, ?_, ?_⟩
          · simp [he, hc2]
          · simp [hc1]
          · intro _; simp [he, hc2]
          · simp
          · intro k hk
            have : k ≠ j := by rintro rfl; exact hk ⟨List.mem_cons_self .., he⟩
            exact upd_ne _ _ this
          · intro _ _ k
            have : (j :: l).findIdx (fun k => enabled k && col k) = 0 := by simp [List.findIdx_cons, he, hc2]
            rw [this]
            by_cases e : k = j
            · subst e; simp [he]
            · simp [e, upd_ne _ _ e]
        · obtain rfl : stop = false := by simpa using hs
          obtain ⟨i1, i2, i3, i4, i5, i6⟩ := ih { c with results := upd c.results j (col j), colliding := true, idx := j }
          refine ⟨?_, ?_, ?_, ?_, ?_, ?_⟩
          · simp only [Bool.false_eq_true, if_false]
            rw [i1]; simp [he, hc2]
          · simp [hc1]
          · intro _
            simp only [Bool.false_eq_true, if_false]
            rw [i2 rfl]; simp [he, hc2]
          · intro h0 k hk
            simp only [Bool.false_eq_true, if_false]
            by_cases hkl : k ∈ l
            · exact i4 rfl k ⟨hkl, hk.2⟩
            · have ekj : k = j := by
                rcases List.mem_cons.1 hk.1 with e | e
                · exact e
                · exact absurd e hkl
              subst ekj
              rw [i5 k (fun hh => hkl hh.1)]
              exact upd_self ..
          · intro k hk
            simp only [Bool.false_eq_true, if_false]
            have e : k ≠ j := by rintro rfl; exact hk ⟨List.mem_cons_self .., he⟩
            rw [i5 k (fun hh => hk ⟨List.mem_cons_of_mem _ hh.1, hh.2⟩)]
            exact upd_ne _ _ e
          · intro h0; simp at h0
      · simp only [hc]
        obtain ⟨i1, i2, i3, i4, i5, i6⟩ := ih { c with results := upd c.results j (col j) }
        simp only [Bool.false_eq_true, if_false]
        refine ⟨?_, ?_, ?_, ?_, ?_, ?_⟩
        · rw [i1]
          simp only [List.mem_cons, exists_eq_or_imp, he, true_and]
          cases hcc : c.colliding with
          | true => simp
          | false =>
            have : col j = false := by simpa [hcc] using hc
            simp [this]
        · intro h0; exact i2 h0
        · intro h0
          have hcj : col j = false := by simpa [h0] using hc
          have hf : (j :: l).find? (fun k => enabled k && col k) = l.find? (fun k => enabled k && col k) := by
            simp [List.find?_cons, he, hcj]
          rw [hf]; exact i3 h0
        · intro h0 k hk
          by_cases hkl : k ∈ l
          · exact i4 h0 k ⟨hkl, hk.2⟩
          · have ekj : k = j := by
              rcases List.mem_cons.1 hk.1 with e | e
              · exact e
              · exact absurd e hkl
            subst ekj
            rw [i5 k (fun hh => hkl hh.1)]
            exact upd_self ..
        · intro k hk
          have e : k ≠ j := by rintro rfl; exact hk ⟨List.mem_cons_self .., he⟩
          rw [i5 k (fun hh => hk ⟨List.mem_cons_of_mem _ hh.1, hh.2⟩)]
          exact upd_ne _ _ e
        · intro hs h0 k
          have hcj : col j = false := by simpa [h0] using hc
          have hf : (j :: l).findIdx (fun k => enabled k && col k) = l.findIdx (fun k => enabled k && col k) + 1 := by
            simp [List.findIdx_cons, hcj]
          rw [hf, List.take_succ_cons, i6 hs h0 k]
          by_cases hkl : enabled k = true ∧ k ∈ l.take (l.findIdx (fun k => enabled k && col k) + 1)
          · rw [if_pos hkl, if_pos ⟨hkl.1, List.mem_cons_of_mem _ hkl.2⟩]
          · rw [if_neg hkl]
            by_cases e : k = j
            · subst e; simp [he]
            · have h1 : upd c.results j (col j) k = c.results k := upd_ne _ _ e
              rw [if_neg]; exact h1
              rintro ⟨h1, h2⟩
              rcases List.mem_cons.1 h2 with h2 | h2
              · exact e h2
              · exact hkl ⟨h1, h2⟩
    · simp only [he]
      have he' : enabled j = false := by simpa using he
      obtain ⟨i1, i2, i3, i4, i5, i6⟩ := ih c
      simp only [Bool.false_eq_true, if_false]
      refine ⟨?_, i2, ?_, ?_, ?_, ?_⟩
      · rw [i1]; simp [he']
      · intro h0
        have hf : (j :: l).find? (fun k => enabled k && col k) = l.find? (fun k => enabled k && col k) := by
          simp [List.find?_cons, he']
        rw [hf]; exact i3 h0
      · intro h0 k hk
        have e : k ≠ j := by rintro rfl; exact he hk.2
        exact i4 h0 k ⟨(List.mem_cons.1 hk.1).resolve_left e, hk.2⟩
      · intro k hk
        exact i5 k (fun hh => hk ⟨List.mem_cons_of_mem _ hh.1, hh.2⟩)
      · intro hs h0 k
        have hf : (j :: l).findIdx (fun k => enabled k && col k) = l.findIdx (fun k => enabled k && col k) + 1 := by
          simp [List.findIdx_cons, he']
        rw [hf, List.take_succ_cons, i6 hs h0 k]
        by_cases hkl : enabled k = true ∧ k ∈ l.take (l.findIdx (fun k => enabled k && col k) + 1)
        · rw [if_pos hkl, if_pos ⟨hkl.1, List.mem_cons_of_mem _ hkl.2⟩]
        · rw [if_neg hkl, if_neg]
          rintro ⟨h1, h2⟩
          rcases List.mem_cons.1 h2 with h2 | h2
          · subst h2; exact he h1
          · exact hkl ⟨h1, h2⟩

/-- a thread is somewhere in iteration `k` -/
def At35.On (k : ℕ) (a : At35) : Prop :=
  a = .start k ∨ a = .passed k ∨ (∃ b, a = .computed k b) ∨ a = .saw k ∨ a = .flagged k

/-- invariant of the parallel loop over pairs -/
structure CInv (n : ℕ) (enabled col : ℕ → Bool) (stop : Bool) (r0 : ℕ → Bool) (s : CPar) : Prop where
  todo : ∀ k ∈ s.todo, k < n
  on : ∀ t k, (s.th t).On k → k < n
  /-- the thread carries the right answer -/
  carry : ∀ t k b, s.th t = .computed k b → enabled k = true ∧ b = col k
  hit : ∀ t k, (s.th t = .saw k ∨ s.th t = .flagged k) → enabled k = true ∧ col k = true
  sound : s.colliding = true → ∃ k < n, enabled k = true ∧ col k = true
  index : s.colliding = true → (s.idx < n ∧ enabled s.idx = true ∧ col s.idx = true) ∨ ∃ t k, s.th t = .flagged k
  flagged : ∀ t k, s.th t = .flagged k → s.colliding = true
  cover : ∀ k < n, k ∈ s.todo ∨ (∃ t, (s.th t).On k) ∨ s.colliding = true ∨ ¬ (enabled k = true ∧ col k = true)
  /-- results -/
  res : ∀ k, (s.results k = r0 k) ∨ (k < n ∧ enabled k = true ∧ s.results k = col k)
  /-- a pair that is over has its result, unless it was skipped -/
  done : ∀ k < n, enabled k = true → k ∈ s.todo ∨ (∃ t, s.th t = .start k ∨ s.th t = .passed k) ∨ s.results k = col k ∨
    (stop = true ∧ s.colliding = true)

theorem CInv.init {n : ℕ} {enabled col : ℕ → Bool} {stop : Bool} {s : CPar} (h : s.Init n) :
    CInv n enabled col stop s.results s := by
  obtain ⟨h1, h2, h3⟩ := h
  refine ⟨fun k hk => by rw [h1] at hk; exact hk, ?_, ?_, ?_, ?_, ?_, ?_, ?_, fun k => Or.inl rfl, ?_⟩
  · intro t k hk; rw [h3 t] at hk; simp [At35.On] at hk
  · intro t k b hk; rw [h3 t] at hk; cases hk
  · intro t k hk; rw [h3 t] at hk; simp at hk
  · intro hc; rw [h2] at hc; cases hc
  · intro hc; rw [h2] at hc; cases hc
  · intro t k hk; rw [h3 t] at hk; cases hk
  · intro k hk; left; rw [h1]; exact hk
  · intro k hk _; left; rw [h1]; exact hk

/-- one step -/
theorem CInv.step {T n : ℕ} {enabled col : ℕ → Bool} {stop recheck : Bool} {r0 : ℕ → Bool} {s s' : CPar}
    (h : CInv n enabled col stop r0 s) (hs : CStep T enabled col stop recheck s s') : CInv n enabled col stop r0 s' := by
  -- the threads other than the one that moves are as they were
  have oth : ∀ {t t' : ℕ} {a : At35} {k : ℕ} {P : At35 → Prop}, t' ≠ t → P (s.th t') → P (upd s.th t a t') := by
    intro t t' a k P hne hp
    rw [upd_ne _ _ hne]; exact hp
  cases hs with
  | take t k ht hid hk =>
    have hne : ∀ {t' : ℕ} {a : At35}, s.th t' = a → a ≠ .idle → t' ≠ t := by
      rintro t' a ha hai rfl; rw [hid] at ha; exact hai ha.symm
    refine ⟨fun j hj => h.todo j hj.1, ?_, ?_, ?_, h.sound, ?_, ?_, ?_, h.res, ?_⟩
    · intro t' j hj
      by_cases e : t' = t
      · subst e
        simp only [upd_self] at hj
        have : j = k := by simpa [At35.On, eq_comm] using hj
        subst this; exact h.todo j hk
      · simp only [upd_ne _ _ e] at hj; exact h.on t' j hj
    · intro t' j b hj
      by_cases e : t' = t
      · subst e; simp at hj
      · simp only [upd_ne _ _ e] at hj; exact h.carry t' j b hj
    · intro t' j hj
      by_cases e : t' = t
      · subst e; simp at hj
      · simp only [upd_ne _ _ e] at hj; exact h.hit t' j hj
    · intro hc
      rcases h.index hc with hi | ⟨t', j, hj⟩
      · exact Or.inl hi
      · exact Or.inr ⟨t', j, by simp only [upd_ne _ _ (hne hj (by simp))]; exact hj⟩
    · intro t' j hj
      by_cases e : t' = t
      · subst e; simp at hj
      · simp only [upd_ne _ _ e] at hj; exact h.flagged t' j hj
    · intro j hj
      rcases h.cover j hj with hc | ⟨t', ht'⟩ | hc | hc
      · by_cases e : j = k
        · subst e; exact Or.inr (Or.inl ⟨t, by simp [At35.On]⟩)
        · exact Or.inl ⟨hc, e⟩
      · have e : t' ≠ t := by rintro rfl; rw [hid] at ht'; simp [At35.On] at ht'
        exact Or.inr (Or.inl ⟨t', by simp only [upd_ne _ _ e]; exact ht'⟩)
      · exact Or.inr (Or.inr (Or.inl hc))
      · exact Or.inr (Or.inr (Or.inr hc))
    · intro j hj he
      rcases h.done j hj he with hc | ⟨t', ht'⟩ | hc | hc
      · by_cases e : j = k
        · subst e; exact Or.inr (Or.inl ⟨t, by simp⟩)
        · exact Or.inl ⟨hc, e⟩
      · have e : t' ≠ t := by rintro rfl; rw [hid] at ht'; simp at ht'
        exact Or.inr (Or.inl ⟨t', by simp only [upd_ne _ _ e]; exact ht'⟩)
      · exact Or.inr (Or.inr (Or.inl hc))
      · exact Or.inr (Or.inr (Or.inr hc))
  | skip t k ht hth hc0 =>
    refine ⟨h.todo, ?_, ?_, ?_, h.sound, ?_, ?_, ?_, h.res, ?_⟩
    · intro t' j hj
      by_cases e : t' = t
      · subst e; simp [At35.On] at hj
      · simp only [upd_ne _ _ e] at hj; exact h.on t' j hj
    · intro t' j b hj
      by_cases e : t' = t
      · subst e; simp at hj
      · simp only [upd_ne _ _ e] at hj; exact h.carry t' j b hj
    · intro t' j hj
      by_cases e : t' = t
      · subst e; simp at hj
      · simp only [upd_ne _ _ e] at hj; exact h.hit t' j hj
    · intro hc
      rcases h.index hc with hi | ⟨t', j, hj⟩
      · exact Or.inl hi
      · have e : t' ≠ t := by rintro rfl; rw [hth] at hj; cases hj
        exact Or.inr ⟨t', j, by simp only [upd_ne _ _ e]; exact hj⟩
    · intro t' j hj
      by_cases e : t' = t
      · subst e; simp at hj
      · simp only [upd_ne _ _ e] at hj; exact h.flagged t' j hj
    · intro j hj; exact Or.inr (Or.inr (Or.inl hc0.2))
    · intro j hj he; exact Or.inr (Or.inr (Or.inr hc0))
  | pass t k ht hth hc0 =>
    have hk : k < n := h.on t k (by rw [hth]; simp [At35.On])
    refine ⟨h.todo, ?_, ?_, ?_, h.sound, ?_, ?_, ?_, h.res, ?_⟩
    · intro t' j hj
      by_cases e : t' = t
      · subst e
        simp only [upd_self] at hj
        have : j = k := by simpa [At35.On, eq_comm] using hj
        subst this; exact hk
      · simp only [upd_ne _ _ e] at hj; exact h.on t' j hj
    · intro t' j b hj
      by_cases e : t' = t
      · subst e; simp at hj
      · simp only [upd_ne _ _ e] at hj; exact h.carry t' j b hj
    · intro t' j hj
      by_cases e : t' = t
      · subst e; simp at hj
      · simp only [upd_ne _ _ e] at hj; exact h.hit t' j hj
    · intro hc
      rcases h.index hc with hi | ⟨t', j, hj⟩
      · exact Or.inl hi
      · have e : t' ≠ t := by rintro rfl; rw [hth] at hj; cases hj
        exact Or.inr ⟨t', j, by simp only [upd_ne _ _ e]; exact hj⟩
    · intro t' j hj
      by_cases e : t' = t
      · subst e; simp at hj
      · simp only [upd_ne _ _ e] at hj; exact h.flagged t' j hj
    · intro j hj
      rcases h.cover j hj with hc | ⟨t', ht'⟩ | hc | hc
      · exact Or.inl hc
      · by_cases e : t' = t
        · subst e
          rw [hth] at ht'
          have : j = k := by simpa [At35.On, eq_comm] using ht'
          subst this
          exact Or.inr (Or.inl ⟨t', by simp [At35.On]⟩)
        · exact Or.inr (Or.inl ⟨t', by simp only [upd_ne _ _ e]; exact ht'⟩)
      · exact Or.inr (Or.inr (Or.inl hc))
      · exact Or.inr (Or.inr (Or.inr hc))
    · intro j hj he
      rcases h.done j hj he with hc | ⟨t', ht'⟩ | hc | hc
      · exact Or.inl hc
      · by_cases e : t' = t
        · subst e
          rw [hth] at ht'
          have : j = k := by simpa [eq_comm] using ht'
          subst this
          exact Or.inr (Or.inl ⟨t', by simp⟩)
        · exact Or.inr (Or.inl ⟨t', by simp only [upd_ne _ _ e]; exact ht'⟩)
      · exact Or.inr (Or.inr (Or.inl hc))
      · exact Or.inr (Or.inr (Or.inr hc))
  | disabled t k ht hth he0 =>
    refine ⟨h.todo, ?_, ?_, ?_, h.sound, ?_, ?_, ?_, h.res, ?_⟩
    · intro t' j hj
      by_cases e : t' = t
      · subst e; simp [At35.On] at hj
      · simp only [upd_ne _ _ e] at hj; exact h.on t' j hj
    · intro t' j b hj
      by_cases e : t' = t
      · subst e; simp at hj
      · simp only [upd_ne _ _ e] at hj; exact h.carry t' j b hj
    · intro t' j hj
      by_cases e : t' = t
      · subst e; simp at hj
      · simp only [upd_ne _ _ e] at hj; exact h.hit t' j hj
    · intro hc
      rcases h.index hc with hi | ⟨t', j, hj⟩
      · exact Or.inl hi
      · have e : t' ≠ t := by rintro rfl; rw [hth] at hj; cases hj
        exact Or.inr ⟨t', j, by simp only [upd_ne _ _ e]; exact hj⟩
    · intro t' j hj
      by_cases e : t' = t
      · subst e; simp at hj
      · simp only [upd_ne _ _ e] at hj; exact h.flagged t' j hj
    · intro j hj
      rcases h.cover j hj with hc | ⟨t', ht'⟩ | hc | hc
      · exact Or.inl hc
      · by_cases e : t' = t
        · subst e
          rw [hth] at ht'
          have : j = k := by simpa [At35.On, eq_comm] using ht'
          subst this
          exact Or.inr (Or.inr (Or.inr (by simp [he0])))
        · exact Or.inr (Or.inl ⟨t', by simp only [upd_ne _ _ e]; exact ht'⟩)
      · exact Or.inr (Or.inr (Or.inl hc))
      · exact Or.inr (Or.inr (Or.inr hc))
    · intro j hj he
      rcases h.done j hj he with hc | ⟨t', ht'⟩ | hc | hc
      · exact Or.inl hc
      · by_cases e : t' = t
        · subst e
          rw [hth] at ht'
          have : j = k := by simpa [eq_comm] using ht'
          subst this
          rw [he0] at he; cases he
        · exact Or.inr (Or.inl ⟨t', by simp only [upd_ne _ _ e]; exact ht'⟩)
      · exact Or.inr (Or.inr (Or.inl hc))
      · exact Or.inr (Or.inr (Or.inr hc))
  | compute t k ht hth he0 =>
    have hk : k < n := h.on t k (by rw [hth]; simp [At35.On])
    refine ⟨h.todo, ?_, ?_, ?_, h.sound, ?_, ?_, ?_, ?_, ?_⟩
    · intro t' j hj
      by_cases e : t' = t
      · subst e
        simp only [upd_self] at hj
        have : j = k := by
          simp only [At35.On, reduceCtorEq, false_or, At35.computed.injEq, or_false, exists_and_left] at hj
          exact hj.1.symm
        subst this; exact hk
      · simp only [upd_ne _ _ e] at hj; exact h.on t' j hj
    · intro t' j b hj
      by_cases e : t' = t
      · subst e
        simp only [upd_self, At35.computed.injEq] at hj
        obtain ⟨rfl, rfl⟩ := hj
        exact ⟨he0, rfl⟩
      · simp only [upd_ne _ _ e] at hj; exact h.carry t' j b hj
    · intro t' j hj
      by_cases e : t' = t
      · subst e; simp at hj
      · simp only [upd_ne _ _ e] at hj; exact h.hit t' j hj
    · intro hc
      rcases h.index hc with hi | ⟨t', j, hj⟩
      · exact Or.inl hi
      · have e : t' ≠ t := by rintro rfl; rw [hth] at hj; cases hj
        exact Or.inr ⟨t', j, by simp only [upd_ne _ _ e]; exact hj⟩
    · intro t' j hj
      by_cases e : t' = t
      · subst e; simp at hj
      · simp only [upd_ne _ _ e] at hj; exact h.flagged t' j hj
    · intro j hj
      rcases h.cover j hj with hc | ⟨t', ht'⟩ | hc | hc
      · exact Or.inl hc
      · by_cases e : t' = t
        · subst e
          rw [hth] at ht'
          have : j = k := by simpa [At35.On, eq_comm] using ht'
          subst this
          exact Or.inr (Or.inl ⟨t', by simp [At35.On]⟩)
        · exact Or.inr (Or.inl ⟨t', by simp only [upd_ne _ _ e]; exact ht'⟩)
      · exact Or.inr (Or.inr (Or.inl hc))
      · exact Or.inr (Or.inr (Or.inr hc))
    · intro j
      by_cases e : j = k
      · subst e; right; exact ⟨hk, he0, upd_self ..⟩
      · simp only [upd_ne _ _ e]; exact h.res j
    · intro j hj he
      by_cases ej : j = k
      · subst ej; exact Or.inr (Or.inr (Or.inl (upd_self ..)))
      · rcases h.done j hj he with hc | ⟨t', ht'⟩ | hc | hc
        · exact Or.inl hc
        · by_cases e : t' = t
          · subst e
            rw [hth] at ht'
            have : j = k := by simpa [eq_comm] using ht'
            exact absurd this ej
          · exact Or.inr (Or.inl ⟨t', by simp only [upd_ne _ _ e]; exact ht'⟩)
        · exact Or.inr (Or.inr (Or.inl (by simp only [upd_ne _ _ ej]; exact hc)))
        · exact Or.inr (Or.inr (Or.inr hc))
  | see t k b ht hth hb =>
    have hk : k < n := h.on t k (by rw [hth]; simp [At35.On])
    obtain ⟨ec, eb⟩ := h.carry t k b hth
    have ecol : col k = true := by rw [← eb]; exact hb.1
    refine ⟨h.todo, ?_, ?_, ?_, h.sound, ?_, ?_, ?_, h.res, ?_⟩
    · intro t' j hj
      by_cases e : t' = t
      · subst e
        simp only [upd_self] at hj
        have : j = k := by simpa [At35.On, eq_comm] using hj
        subst this; exact hk
      · simp only [upd_ne _ _ e] at hj; exact h.on t' j hj
    · intro t' j b hj
      by_cases e : t' = t
      · subst e; simp at hj
      · simp only [upd_ne _ _ e] at hj; exact h.carry t' j b hj
    · intro t' j hj
      by_cases e : t' = t
      · subst e
        simp only [upd_self, At35.saw.injEq, reduceCtorEq, or_false] at hj
        subst hj; exact ⟨ec, ecol⟩
      · simp only [upd_ne _ _ e] at hj; exact h.hit t' j hj
    · intro hc
      rcases h.index hc with hi | ⟨t', j, hj⟩
      · exact Or.inl hi
      · have e : t' ≠ t := by rintro rfl; rw [hth] at hj; cases hj
        exact Or.inr ⟨t', j, by simp only [upd_ne _ _ e]; exact hj⟩
    · intro t' j hj
      by_cases e : t' = t
      · subst e; simp at hj
      · simp only [upd_ne _ _ e] at hj; exact h.flagged t' j hj
    · intro j hj
      rcases h.cover j hj with hc | ⟨t', ht'⟩ | hc | hc
      · exact Or.inl hc
      · by_cases e : t' = t
        · subst e
          rw [hth] at ht'
          have : j = k := by
            simp only [At35.On, reduceCtorEq, false_or, At35.computed.injEq, or_false, exists_and_left] at ht'
            exact ht'.1.symm
          subst this
          exact Or.inr (Or.inl ⟨t', by simp [At35.On]⟩)
        · exact Or.inr (Or.inl ⟨t', by simp only [upd_ne _ _ e]; exact ht'⟩)
      · exact Or.inr (Or.inr (Or.inl hc))
      · exact Or.inr (Or.inr (Or.inr hc))
    · intro j hj he
      rcases h.done j hj he with hc | ⟨t', ht'⟩ | hc | hc
      · exact Or.inl hc
      · have e : t' ≠ t := by rintro rfl; rw [hth] at ht'; simp at ht'
        exact Or.inr (Or.inl ⟨t', by simp only [upd_ne _ _ e]; exact ht'⟩)
      · exact Or.inr (Or.inr (Or.inl hc))
      · exact Or.inr (Or.inr (Or.inr hc))
  | pass2 t k b ht hth hb =>
    obtain ⟨ec, eb⟩ := h.carry t k b hth
    refine ⟨h.todo, ?_, ?_, ?_, h.sound, ?_, ?_, ?_, h.res, ?_⟩
    · intro t' j hj
      by_cases e : t' = t
      · subst e; simp [At35.On] at hj
      · simp only [upd_ne _ _ e] at hj; exact h.on t' j hj
    · intro t' j b hj
      by_cases e : t' = t
      · subst e; simp at hj
      · simp only [upd_ne _ _ e] at hj; exact h.carry t' j b hj
    · intro t' j hj
      by_cases e : t' = t
      · subst e; simp at hj
      · simp only [upd_ne _ _ e] at hj; exact h.hit t' j hj
    · intro hc
      rcases h.index hc with hi | ⟨t', j, hj⟩
      · exact Or.inl hi
      · have e : t' ≠ t := by rintro rfl; rw [hth] at hj; cases hj
        exact Or.inr ⟨t', j, by simp only [upd_ne _ _ e]; exact hj⟩
    · intro t' j hj
      by_cases e : t' = t
      · subst e; simp at hj
      · simp only [upd_ne _ _ e] at hj; exact h.flagged t' j hj
    · intro j hj
      rcases h.cover j hj with hc | ⟨t', ht'⟩ | hc | hc
      · exact Or.inl hc
      · by_cases e : t' = t
        · subst e
          rw [hth] at ht'
          have : j = k := by
            simp only [At35.On, reduceCtorEq, false_or, At35.computed.injEq, or_false, exists_and_left] at ht'
            exact ht'.1.symm
          subst this
          by_cases hcol : col j = true
          · right; right; left
            by_contra hnc
            apply hb
            refine ⟨by rw [eb]; exact hcol, fun _ => ?_⟩
            simpa using hnc
          · exact Or.inr (Or.inr (Or.inr (fun hh => hcol hh.2)))
        · exact Or.inr (Or.inl ⟨t', by simp only [upd_ne _ _ e]; exact ht'⟩)
      · exact Or.inr (Or.inr (Or.inl hc))
      · exact Or.inr (Or.inr (Or.inr hc))
    · intro j hj he
      rcases h.done j hj he with hc | ⟨t', ht'⟩ | hc | hc
      · exact Or.inl hc
      · have e : t' ≠ t := by rintro rfl; rw [hth] at ht'; simp at ht'
        exact Or.inr (Or.inl ⟨t', by simp only [upd_ne _ _ e]; exact ht'⟩)
      · exact Or.inr (Or.inr (Or.inl hc))
      · exact Or.inr (Or.inr (Or.inr hc))
  | flag t k ht hth =>
    have hk : k < n := h.on t k (by rw [hth]; simp [At35.On])
    have hh := h.hit t k (Or.inl hth)
    refine ⟨h.todo, ?_, ?_, ?_, fun _ => ⟨k, hk, hh⟩, ?_, ?_, ?_, h.res, ?_⟩
    · intro t' j hj
      by_cases e : t' = t
      · subst e
        simp only [upd_self] at hj
        have : j = k := by simpa [At35.On, eq_comm] using hj
        subst this; exact hk
      · simp only [upd_ne _ _ e] at hj; exact h.on t' j hj
    · intro t' j b hj
      by_cases e : t' = t
      · subst e; simp at hj
      · simp only [upd_ne _ _ e] at hj; exact h.carry t' j b hj
    · intro t' j hj
      by_cases e : t' = t
      · subst e
        simp only [upd_self, At35.flagged.injEq, reduceCtorEq, false_or] at hj
        subst hj; exact hh
      · simp only [upd_ne _ _ e] at hj; exact h.hit t' j hj
    · intro _; exact Or.inr ⟨t, k, upd_self ..⟩
    · intro t' j hj; rfl
    · intro j hj; exact Or.inr (Or.inr (Or.inl rfl))
    · intro j hj he
      rcases h.done j hj he with hc | ⟨t', ht'⟩ | hc | hc
      · exact Or.inl hc
      · have e : t' ≠ t := by rintro rfl; rw [hth] at ht'; simp at ht'
        exact Or.inr (Or.inl ⟨t', by simp only [upd_ne _ _ e]; exact ht'⟩)
      · exact Or.inr (Or.inr (Or.inl hc))
      · exact Or.inr (Or.inr (Or.inr ⟨hc.1, rfl⟩))
  | index t k ht hth =>
    have hk : k < n := h.on t k (by rw [hth]; simp [At35.On])
    have hh := h.hit t k (Or.inr hth)
    refine ⟨h.todo, ?_, ?_, ?_, h.sound, fun _ => Or.inl ⟨hk, hh⟩, ?_, ?_, h.res, ?_⟩
    · intro t' j hj
      by_cases e : t' = t
      · subst e; simp [At35.On] at hj
      · simp only [upd_ne _ _ e] at hj; exact h.on t' j hj
    · intro t' j b hj
      by_cases e : t' = t
      · subst e; simp at hj
      · simp only [upd_ne _ _ e] at hj; exact h.carry t' j b hj
    · intro t' j hj
      by_cases e : t' = t
      · subst e; simp at hj
      · simp only [upd_ne _ _ e] at hj; exact h.hit t' j hj
    · intro t' j hj
      by_cases e : t' = t
      · subst e; simp at hj
      · simp only [upd_ne _ _ e] at hj; exact h.flagged t' j hj
    · intro j hj; exact Or.inr (Or.inr (Or.inl (h.flagged t k hth)))
    · intro j hj he
      rcases h.done j hj he with hc | ⟨t', ht'⟩ | hc | hc
      · exact Or.inl hc
      · have e : t' ≠ t := by rintro rfl; rw [hth] at ht'; simp at ht'
        exact Or.inr (Or.inl ⟨t', by simp only [upd_ne _ _ e]; exact ht'⟩)
      · exact Or.inr (Or.inr (Or.inl hc))
      · exact Or.inr (Or.inr (Or.inr hc))

theorem CInv.reach {T n : ℕ} {enabled col : ℕ → Bool} {stop recheck : Bool} {s s' : CPar} (h : s.Init n)
    (hs : ReflTransGen (CStep T enabled col stop recheck) s s') : CInv n enabled col stop s.results s' := by
  induction hs with
  | refl => exact CInv.init h
  | tail _ hst ih => exact ih.step hst

end Pin

namespace Pin
open Relation Finset

/-! ## termination -/

theorem sum_upd {A : Type*} (f : A → ℕ) (g : ℕ → A) (T t : ℕ) (ht : t < T) (x : A) :
    (∑ i ∈ range T, f (upd g t x i)) + f (g t) = (∑ i ∈ range T, f (g i)) + f x := by
  rw [← add_sum_erase _ _ (mem_range.2 ht), ← add_sum_erase _ (fun i => f (g i)) (mem_range.2 ht), upd_self]
  rw [sum_congr rfl (g := fun i => f (g i)) (fun i hi => by rw [upd_ne _ _ (mem_erase.1 hi).1])]
  omega

open Classical in
theorem sum_todo (w : ℕ → ℕ) (S S' : Set ℕ) (n i : ℕ) (hi : i < n) (hS : i ∈ S) (hS' : ∀ j, j ∈ S' ↔ j ∈ S ∧ j ≠ i) :
    (∑ j ∈ range n, if j ∈ S' then w j else 0) + w i = ∑ j ∈ range n, if j ∈ S then w j else 0 := by
  rw [← add_sum_erase _ _ (mem_range.2 hi), ← add_sum_erase _ (fun j => if j ∈ S then w j else 0) (mem_range.2 hi)]
  rw [sum_congr rfl (g := fun j => if j ∈ S then w j else 0) (fun j hj => by
    have : j ≠ i := (mem_erase.1 hj).1
    simp [hS', this])]
  have : i ∉ S' := by rw [hS']; exact fun hh => hh.2 rfl
  rw [if_pos hS, if_neg this]; omega

/-- steps a thread has left -/
def Doing.left {D : Type*} : Doing D → ℕ
  | .idle => 0
  | .work _ l => l.length + 1

open Classical in
/-- what is left to be done -/
noncomputable def PState.left {D R : Type*} (T n : ℕ) (steps : ℕ → ℕ → List (D → D)) (s : PState D R) : ℕ :=
  (∑ i ∈ range n, if i ∈ s.todo then ((∑ t ∈ range T, (steps t i).length) + 2) else 0) + ∑ t ∈ range T, (s.th t).left

theorem PState.left_lt {D R : Type*} {T n : ℕ} {steps : ℕ → ℕ → List (D → D)} {out : D → R} {s s' : PState D R}
    (h : ∀ i ∈ s.todo, i < n) (hs : PStep T steps out s s') : s'.left T n steps < s.left T n steps := by
  cases hs with
  | take t i ht hidle hi =>
    unfold PState.left
    have h1 := sum_todo (fun i => (∑ t ∈ range T, (steps t i).length) + 2) s.todo (s.todo \ {i}) n i (h i hi) hi (fun _ => Iff.rfl)
    have h2 := sum_upd Doing.left s.th T t ht (.work i (steps t i))
    have h3 : (steps t i).length ≤ ∑ t ∈ range T, (steps t i).length :=
      single_le_sum (f := fun t => (steps t i).length) (fun _ _ => Nat.zero_le _) (mem_range.2 ht)
    rw [hidle] at h2
    simp only [Doing.left] at h1 h2 h3 ⊢
    omega
  | work t i f l ht hw =>
    unfold PState.left
    have h2 := sum_upd Doing.left s.th T t ht (.work i l)
    rw [hw] at h2
    simp only [Doing.left, List.length_cons] at h2 ⊢
    omega
  | write t i ht hw =>
    unfold PState.left
    have h2 := sum_upd Doing.left s.th T t ht .idle
    rw [hw] at h2
    simp only [Doing.left, List.length_nil] at h2 ⊢
    omega

/-- steps a thread has left -/
def At35.left : At35 → ℕ
  | .idle => 0
  | .flagged _ => 1
  | .saw _ => 2
  | .computed _ _ => 3
  | .passed _ => 4
  | .start _ => 5

open Classical in
/-- what is left to be done -/
noncomputable def CPar.left (T n : ℕ) (s : CPar) : ℕ :=
  (∑ i ∈ range n, if i ∈ s.todo then 6 else 0) + ∑ t ∈ range T, (s.th t).left

theorem CPar.left_lt {T n : ℕ} {enabled col : ℕ → Bool} {stop recheck : Bool} {s s' : CPar}
    (h : ∀ i ∈ s.todo, i < n) (hs : CStep T enabled col stop recheck s s') : s'.left T n < s.left T n := by
  cases hs with
  | take t i ht hidle hi =>
    unfold CPar.left
    have h1 := sum_todo (fun _ => 6) s.todo (s.todo \ {i}) n i (h i hi) hi (fun _ => Iff.rfl)
    have h2 := sum_upd At35.left s.th T t ht (.start i)
    rw [hidle] at h2
    simp only [At35.left] at h1 h2 ⊢
    omega
  | skip t k ht hth => 
    unfold CPar.left
    have h2 := sum_upd At35.left s.th T t ht .idle
    rw [hth] at h2
    simp only [At35.left] at h2 ⊢
    omega
  | pass t k ht hth => 
    unfold CPar.left
    have h2 := sum_upd At35.left s.th T t ht (.passed k)
    rw [hth] at h2
    simp only [At35.left] at h2 ⊢
    omega
  | disabled t k ht hth => 
    unfold CPar.left
    have h2 := sum_upd At35.left s.th T t ht .idle
    rw [hth] at h2
    simp only [At35.left] at h2 ⊢
    omega
  | compute t k ht hth => 
    unfold CPar.left
    have h2 := sum_upd At35.left s.th T t ht (.computed k (col k))
    rw [hth] at h2
    simp only [At35.left] at h2 ⊢
    omega
  | see t k b ht hth => 
    unfold CPar.left
    have h2 := sum_upd At35.left s.th T t ht (.saw k)
    rw [hth] at h2
    simp only [At35.left] at h2 ⊢
    omega
  | pass2 t k b ht hth => 
    unfold CPar.left
    have h2 := sum_upd At35.left s.th T t ht .idle
    rw [hth] at h2
    simp only [At35.left] at h2 ⊢
    omega
  | flag t k ht hth => 
    unfold CPar.left
    have h2 := sum_upd At35.left s.th T t ht (.flagged k)
    rw [hth] at h2
    simp only [At35.left] at h2 ⊢
    omega
  | index t k ht hth => 
    unfold CPar.left
    have h2 := sum_upd At35.left s.th T t ht .idle
    rw [hth] at h2
    simp only [At35.left] at h2 ⊢
    omega

/-- a sequence that decreases for ever does not exist -/
theorem no_descent {A : Type*} {r : A → A → Prop} {P : A → Prop} (μ : A → ℕ) (hP : ∀ a b, P a → r a b → P b)
    (hμ : ∀ a b, P a → r a b → μ b < μ a) {a : A} (ha : P a) : ¬ ∃ f : ℕ → A, f 0 = a ∧ ∀ k, r (f k) (f (k + 1)) := by
  rintro ⟨f, h0, hf⟩
  have hk : ∀ k, P (f k) ∧ μ (f k) + k ≤ μ (f 0) := by
    intro k
    induction k with
    | zero => rw [h0]; exact ⟨ha, le_refl _⟩
    | succ k ih =>
      have := hμ _ _ ih.1 (hf k)
      exact ⟨hP _ _ ih.1 (hf k), by omega⟩
  have := (hk (μ (f 0) + 1)).2
  omega

/-- only threads that exist are working -/
theorem CPar.live {T n : ℕ} {enabled col : ℕ → Bool} {stop recheck : Bool} {s s' : CPar} (h : s.Init n)
    (hs : ReflTransGen (CStep T enabled col stop recheck) s s') : ∀ t, s'.th t ≠ .idle → t < T := by
  induction hs with
  | refl => intro t ht; exact absurd (h.2.2 t) ht
  | tail _ hst ih =>
    intro t ht
    cases hst with
    | take u k hu _ _ | skip u k hu _ _ | pass u k hu _ _ | disabled u k hu _ _ | compute u k hu _ _ | see u k _ hu _ _
    | pass2 u k _ hu _ _ | flag u k hu _ | index u k hu _ =>
      by_cases e : t = u
      · exact e ▸ hu
      · simp only [upd_ne _ _ e] at ht; exact ih t ht

/-- no deadlock -/
theorem CPar.progress {T : ℕ} (hT : 0 < T) {enabled col : ℕ → Bool} {stop recheck : Bool} {s : CPar}
    (hl : ∀ t, s.th t ≠ .idle → t < T) (hf : ¬ s.Final) : ∃ s', CStep T enabled col stop recheck s s' := by
  by_cases hid : ∀ t, s.th t = .idle
  · have hne : s.todo.Nonempty := by
      rw [Set.nonempty_iff_ne_empty]
      intro e; exact hf ⟨e, hid⟩
    obtain ⟨i, hi⟩ := hne
    exact ⟨_, CStep.take s 0 i hT (hid 0) hi⟩
  · push Not at hid
    obtain ⟨t, ht⟩ := hid
    have htT := hl t ht
    cases hth : s.th t with
    | idle => exact absurd hth ht
    | start k =>
      by_cases hc : stop = true ∧ s.colliding = true
      · exact ⟨_, CStep.skip s t k htT hth hc⟩
      · exact ⟨_, CStep.pass s t k htT hth hc⟩
    | passed k =>
      cases he : enabled k with
      | false => exact ⟨_, CStep.disabled s t k htT hth he⟩
      | true => exact ⟨_, CStep.compute s t k htT hth he⟩
    | computed k b =>
      by_cases hb : b = true ∧ (recheck = true → s.colliding = false)
      · exact ⟨_, CStep.see s t k b htT hth hb⟩
      · exact ⟨_, CStep.pass2 s t k b htT hth hb⟩
    | saw k => exact ⟨_, CStep.flag s t k htT hth⟩
    | flagged k => exact ⟨_, CStep.index s t k htT hth⟩

/-- when the flag is raised some result is positive -/
structure CInv2 (col : ℕ → Bool) (s : CPar) : Prop where
  seen : ∀ t k b, s.th t = .computed k b → s.results k = col k ∧ b = col k
  saw : ∀ t k, s.th t = .saw k → s.results k = true ∧ col k = true
  raised : s.colliding = true → ∃ k, s.results k = true ∧ col k = true

theorem CInv2.reach {T n : ℕ} {enabled col : ℕ → Bool} {stop recheck : Bool} {s s' : CPar} (h : s.Init n)
    (hs : ReflTransGen (CStep T enabled col stop recheck) s s') : CInv2 col s' := by
  induction hs with
  | refl =>
    refine ⟨?_, ?_, ?_⟩
    · intro t k b e; rw [h.2.2 t] at e; cases e
    · intro t k e; rw [h.2.2 t] at e; cases e
    · intro e; rw [h.2.1] at e; cases e
  | @tail s1 s2 _ hst ih =>
    have keep : ∀ (u : ℕ) (a : At35), (∀ k b, a ≠ .computed k b) → (∀ k, a = .saw k → s1.results k = true ∧ col k = true) →
        (∀ t k b, upd s1.th u a t = .computed k b → s1.results k = col k ∧ b = col k) ∧
        (∀ t k, upd s1.th u a t = .saw k → s1.results k = true ∧ col k = true) := by
      intro u a ha hs
      refine ⟨fun t k b e => ?_, fun t k e => ?_⟩
      · by_cases et : t = u
        · subst et; rw [upd_self] at e; exact absurd e (ha k b)
        · rw [upd_ne _ _ et] at e; exact ih.seen t k b e
      · by_cases et : t = u
        · subst et; rw [upd_self] at e; exact hs k e
        · rw [upd_ne _ _ et] at e; exact ih.saw t k e
    cases hst with
    | take u k hu _ _ =>
      obtain ⟨a, b⟩ := keep u (.start k) (by simp) (by simp); exact ⟨a, b, ih.raised⟩
    | skip u k hu _ _ => obtain ⟨a, b⟩ := keep u .idle (by simp) (by simp); exact ⟨a, b, ih.raised⟩
    | pass u k hu _ _ => obtain ⟨a, b⟩ := keep u (.passed k) (by simp) (by simp); exact ⟨a, b, ih.raised⟩
    | disabled u k hu _ _ => obtain ⟨a, b⟩ := keep u .idle (by simp) (by simp); exact ⟨a, b, ih.raised⟩
    | compute u k hu hth he =>
      have hres : ∀ j, upd s1.results k (col k) j = col j ∨ upd s1.results k (col k) j = s1.results j := by
        intro j
        by_cases e : j = k
        · subst e; exact Or.inl (upd_self ..)
        · exact Or.inr (upd_ne _ _ e)
      refine ⟨?_, ?_, ?_⟩
      · intro t j b e
        by_cases et : t = u
        · subst et; simp only [upd_self, At35.computed.injEq] at e
          obtain ⟨rfl, rfl⟩ := e
          exact ⟨upd_self .., rfl⟩
        · simp only [upd_ne _ _ et] at e
          have := ih.seen t j b e
          refine ⟨?_, this.2⟩
          rcases hres j with hh | hh
          · exact hh
          · exact hh.trans this.1
      · intro t j e
        by_cases et : t = u
        · subst et; simp at e
        · simp only [upd_ne _ _ et] at e
          have := ih.saw t j e
          refine ⟨?_, this.2⟩
          rcases hres j with hh | hh
          · exact hh.trans this.2
          · exact hh.trans this.1
      · intro e
        obtain ⟨j, h1, h2⟩ := ih.raised e
        refine ⟨j, ?_, h2⟩
        rcases hres j with hh | hh
        · exact hh.trans h2
        · exact hh.trans h1
    | see u k b hu hth hb =>
      obtain ⟨e1, e2⟩ := ih.seen u k b hth
      obtain ⟨a, b⟩ := keep u (.saw k) (by simp) (by
        intro j e; cases e
        rw [e1, ← e2]; exact ⟨hb.1, hb.1⟩)
      exact ⟨a, b, ih.raised⟩
    | pass2 u k b hu _ _ => obtain ⟨a, b⟩ := keep u .idle (by simp) (by simp); exact ⟨a, b, ih.raised⟩
    | flag u k hu hth =>
      obtain ⟨a, b⟩ := keep u (.flagged k) (by simp) (by simp)
      exact ⟨a, b, fun _ => ⟨k, ih.saw u k hth⟩⟩
    | index u k hu _ => obtain ⟨a, b⟩ := keep u .idle (by simp) (by simp); exact ⟨a, b, ih.raised⟩

/-! ## pools -/

theorem Pool.getElem?_resizeVec {α : Type*} (dflt : α) (l : List α) (n k : ℕ) :
    (Pool.resizeVec dflt l n)[k]? = if k < n then some (l[k]?.getD dflt) else none := by
  unfold Pool.resizeVec
  rw [List.getElem?_append, List.length_take]
  by_cases h1 : k < min n l.length
  · rw [if_pos h1, List.getElem?_take, if_pos (by omega), if_pos (by omega)]
    rw [List.getElem?_eq_getElem (by omega)]; rfl
  · rw [if_neg h1, List.getElem?_replicate]
    by_cases h2 : k < n
    · rw [if_pos (by omega), if_pos h2, List.getElem?_eq_none (by omega)]; rfl
    · rw [if_neg (by omega), if_neg h2]

theorem Pool.length_resizeVec {α : Type*} (dflt : α) (l : List α) (n : ℕ) : (Pool.resizeVec dflt l n).length = n := by
  unfold Pool.resizeVec
  rw [List.length_append, List.length_take, List.length_replicate]; omega

theorem Pool.getElem?_fillFrom {α : Type*} (k : ℕ) (l : List α) (j : ℕ) :
    (Pool.fillFrom k l)[j]? = if j < l.length then (if k ≤ j then l[0]? else l[j]?) else none := by
  unfold Pool.fillFrom
  cases l with
  | nil => simp
  | cons x l =>
    simp only
    rw [List.getElem?_append, List.length_take]
    by_cases hj : j < (x :: l).length
    · rw [if_pos hj]
      by_cases h : k ≤ j
      · rw [if_neg (by omega), if_pos h, List.getElem?_replicate, if_pos (by omega)]; rfl
      · rw [if_pos (by omega), if_neg h, List.getElem?_take, if_pos (by omega)]
    · rw [if_neg hj]
      by_cases h : j < min k (x :: l).length
      · omega
      · rw [if_neg h, List.getElem?_replicate, if_neg (by omega)]

theorem Pool.length_fillFrom {α : Type*} (k : ℕ) (l : List α) : (Pool.fillFrom k l).length = l.length := by
  unfold Pool.fillFrom
  cases l with
  | nil => rfl
  | cons x l => simp only [List.length_append, List.length_take, List.length_replicate]; omega

end Pin
