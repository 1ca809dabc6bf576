import Verif.Algo.SpecLemmas

/-! # World-frame view of the kinematics, packed velocity segments, mass matrix entries -/

set_option linter.unusedSectionVars false

namespace Pin
open Finset
variable {K : Type*} [CommRing K]

open Classical in
/-- joints on the path from the universe to `b` (universe excluded, `b` included) -/
noncomputable def supp (par : ℕ → ℕ) (n b : ℕ) : Finset ℕ := (Ico 1 n).filter (fun i => anc par i b)

theorem mem_supp {par : ℕ → ℕ} {n i b : ℕ} : i ∈ supp par n b ↔ (1 ≤ i ∧ i < n) ∧ anc par i b := by
  simp [supp]

theorem supp_zero {par : ℕ → ℕ} {n : ℕ} : supp par n 0 = ∅ := by
  ext i; simp [mem_supp, anc_zero]; omega

theorem supp_step {par : ℕ → ℕ} {n : ℕ} (hp : ParOk par n) {b : ℕ} (h1 : 1 ≤ b) (hb : b < n) :
    supp par n b = insert b (supp par n (par b)) := by
  have := hp.2 b h1 hb
  ext i
  simp only [mem_supp, mem_insert, anc_step h1 this]
  constructor
  · rintro ⟨a, rfl | c⟩
    · exact Or.inl rfl
    · exact Or.inr ⟨a, c⟩
  · rintro (rfl | ⟨a, c⟩)
    · exact ⟨⟨h1, hb⟩, Or.inl rfl⟩
    · exact ⟨a, Or.inr c⟩

theorem not_mem_supp_par {par : ℕ → ℕ} {n : ℕ} (hp : ParOk par n) {b : ℕ} (h1 : 1 ≤ b) (hb : b < n) :
    b ∉ supp par n (par b) := by
  have := hp.2 b h1 hb
  intro h
  have := anc_le hp _ (by omega) (mem_supp.1 h).2
  omega

/-- a recursion along parents is the sum over the support -/
theorem sum_supp {α : Type*} [AddCommMonoid α] {par : ℕ → ℕ} {n : ℕ} (hp : ParOk par n) {f s : ℕ → α}
    (h0 : f 0 = 0) (hs : ∀ b, 1 ≤ b → b < n → f b = s b + f (par b)) :
    ∀ b, b < n → f b = ∑ i ∈ supp par n b, s i := by
  intro b
  induction b using Nat.strong_induction_on with
  | _ b ih =>
    intro hb
    rcases Nat.eq_zero_or_pos b with rfl | h1
    · rw [h0, supp_zero, sum_empty]
    · have := hp.2 b h1 hb
      rw [hs b h1 hb, supp_step hp h1 hb, sum_insert (not_mem_supp_par hp h1 hb), ih _ this (by omega)]

theorem M6.sum_mulMF {ι : Type*} (t : Finset ι) (g : ι → M6 K) (v : Motion K) :
    (∑ i ∈ t, g i).mulMF v = ∑ i ∈ t, (g i).mulMF v := by
  classical
  induction t using Finset.induction_on with
  | empty => simp
  | insert a t ha ih => rw [sum_insert ha, sum_insert ha, M6.add_mulMF, ih]
theorem M6.isSymm_sum {ι : Type*} (t : Finset ι) (g : ι → M6 K) (h : ∀ i ∈ t, (g i).IsSymm) :
    (∑ i ∈ t, g i).IsSymm := by
  classical
  induction t using Finset.induction_on with
  | empty => simpa using M6.isSymm_zero
  | insert a t ha ih =>
    rw [sum_insert ha]
    exact M6.isSymm_add (h a (mem_insert_self ..)) (ih fun i hi => h i (mem_insert_of_mem hi))

namespace Sys
variable (s : Sys K)

/-- Velocity segments of the joints are laid out one after the other in `[0, nv)`. This is what
`addJoint` produces when there is no mimic joint (`Model.toSys_packed`). -/
structure Packed : Prop where
  par : ParOk s.par s.n
  iv : ∀ i, 1 ≤ i → i < s.n → s.iv i = ∑ j ∈ Ico 1 i, s.jnv j
  nv : s.nv = ∑ j ∈ Ico 1 s.n, s.jnv j

/-- velocity of body `i` in the world frame -/
def oV (q w : ℕ → K) (i : ℕ) : Motion K := (s.oM q i).act (s.V q w i)

/-- column `k` of joint `i` in the world frame -/
def Jc (q : ℕ → K) (i k : ℕ) : Motion K := (s.oM q i).act (s.S q i k)

/-- the inertia matrix of body `i` in the world frame -/
def oI (q : ℕ → K) (i : ℕ) : M6 K := ((s.Y i).act (s.oM q i)).matrix

/-- the inertia matrix in the world frame of the subtree of `i` (all bodies when `i = 0`) -/
noncomputable def oYm (q : ℕ → K) (i : ℕ) : M6 K := ∑ b ∈ subtree s.par s.n i, s.oI q b

variable {s}

theorem Packed.mono (h : s.Packed) {i j : ℕ} (h1 : 1 ≤ i) (hij : i < j) (hj : j < s.n) :
    s.iv i + s.jnv i ≤ s.iv j := by
  rw [h.iv i h1 (by omega), h.iv j (by omega) hj, ← sum_Ico_succ_top h1]
  exact sum_le_sum_of_subset (Ico_subset_Ico_right (by omega))

theorem Packed.le_nv (h : s.Packed) {i : ℕ} (h1 : 1 ≤ i) (hi : i < s.n) : s.iv i + s.jnv i ≤ s.nv := by
  rw [h.iv i h1 hi, h.nv, ← sum_Ico_succ_top h1]
  exact sum_le_sum_of_subset (Ico_subset_Ico_right (by omega))

theorem Packed.wf (h : s.Packed) : s.WF := ⟨h.par, fun _ h1 hi => h.le_nv h1 hi⟩

/-- a velocity index belongs to one joint only -/
theorem Packed.inj (h : s.Packed) {i j k l : ℕ} (hi1 : 1 ≤ i) (hi : i < s.n) (hj1 : 1 ≤ j) (hj : j < s.n)
    (hk : k < s.jnv i) (hl : l < s.jnv j) (e : s.iv i + k = s.iv j + l) : i = j ∧ k = l := by
  rcases lt_trichotomy i j with hh | hh | hh
  · have := h.mono hi1 hh hj; omega
  · subst hh; omega
  · have := h.mono hj1 hh hi; omega

/-- every velocity index belongs to a joint -/
theorem Packed.cover (h : s.Packed) {r : ℕ} (hr : r < s.nv) :
    ∃ i k, 1 ≤ i ∧ i < s.n ∧ k < s.jnv i ∧ r = s.iv i + k := by
  have key : ∀ m, 1 ≤ m → m ≤ s.n → r < ∑ j ∈ Ico 1 m, s.jnv j →
      ∃ i k, 1 ≤ i ∧ i < m ∧ k < s.jnv i ∧ r = s.iv i + k := by
    intro m hm
    induction m, hm using Nat.le_induction with
    | base => intro _ h; simp at h
    | succ m hm ih =>
      intro hmn hlt
      rw [sum_Ico_succ_top hm] at hlt
      by_cases hc : r < ∑ j ∈ Ico 1 m, s.jnv j
      · obtain ⟨i, k, a, b, c, e⟩ := ih (by omega) hc
        exact ⟨i, k, a, by omega, c, e⟩
      · refine ⟨m, r - s.iv m, hm, by omega, ?_, ?_⟩ <;> rw [h.iv m hm (by omega)] <;> omega
  rw [h.nv] at hr
  exact key s.n h.par.1 le_rfl hr

theorem jvel_unit (h : s.Packed) (q : ℕ → K) {i k b : ℕ} (hi1 : 1 ≤ i) (hi : i < s.n) (hk : k < s.jnv i)
    (hb1 : 1 ≤ b) (hb : b < s.n) :
    s.jvel q (unit (s.iv i + k)) b = if b = i then s.S q i k else 0 := by
  unfold jvel comb vs seg unit
  split
  · rename_i e
    subst e
    rw [sum_eq_single k]
    · simp
    · intro l _ hl
      rw [if_neg (by omega), zero_smul]
    · intro hk'; exact absurd (mem_range.2 hk) hk'
  · rename_i e
    apply sum_eq_zero
    intro l hl
    rw [if_neg, zero_smul]
    intro e'
    exact e (h.inj hb1 hb hi1 hi (mem_range.1 hl) hk e').1

theorem oV_step (hp : ParOk s.par s.n) {q : ℕ → K} (hq : s.At q) (w : ℕ → K) {i : ℕ} (h1 : 1 ≤ i)
    (hi : i < s.n) : s.oV q w i = (s.oM q i).act (s.jvel q w i) + s.oV q w (s.par i) := by
  have hpi := hp.2 i h1 hi
  unfold oV
  rw [V_step s h1 hpi, SE3.act_add]
  congr 1
  rw [oM_step s h1 hpi, SE3.mul_act (s.oM_valid hp hq _ (by omega)), SE3.act_actInv (s.X_valid hq h1 hi)]

theorem oV_zero (q w : ℕ → K) : s.oV q w 0 = 0 := by unfold oV; rw [V_zero]; simp

/-- the velocity of a body in the world frame is the sum of the joint velocities along its support -/
theorem oV_eq (hp : ParOk s.par s.n) {q : ℕ → K} (hq : s.At q) (w : ℕ → K) : ∀ b, b < s.n →
    s.oV q w b = ∑ i ∈ supp s.par s.n b, (s.oM q i).act (s.jvel q w i) :=
  sum_supp hp (oV_zero q w) (fun _ h1 hb => oV_step hp hq w h1 hb)

theorem oV_unit (h : s.Packed) {q : ℕ → K} (hq : s.At q) {i k : ℕ} (hi1 : 1 ≤ i) (hi : i < s.n)
    (hk : k < s.jnv i) {b : ℕ} (hb : b < s.n) [Decidable (anc s.par i b)] :
    s.oV q (unit (s.iv i + k)) b = if anc s.par i b then s.Jc q i k else 0 := by
  rw [oV_eq h.par hq _ b hb]
  split
  · rename_i ha
    rw [sum_eq_single i]
    · rw [jvel_unit h q hi1 hi hk hi1 hi, if_pos rfl]; rfl
    · intro j hj hji
      obtain ⟨⟨j1, jn⟩, -⟩ := mem_supp.1 hj
      rw [jvel_unit h q hi1 hi hk j1 jn, if_neg hji]; simp
    · intro hn; exact absurd (mem_supp.2 ⟨⟨hi1, hi⟩, ha⟩) hn
  · rename_i ha
    apply sum_eq_zero
    intro j hj
    obtain ⟨⟨j1, jn⟩, hja⟩ := mem_supp.1 hj
    rw [jvel_unit h q hi1 hi hk j1 jn, if_neg]
    · simp
    · rintro rfl; exact ha hja

/-- power of a body inertia in the world frame -/
theorem dot_mul_world (hp : ParOk s.par s.n) {q : ℕ → K} (hq : s.At q) (w a : ℕ → K) {b : ℕ} (hb : b < s.n) :
    (s.V q w b).dot ((s.Y b).mul (s.V q a b)) = (s.oV q w b).dot ((s.oI q b).mulMF (s.oV q a b)) := by
  have hv := s.oM_valid hp hq b hb
  unfold oV oI
  rw [Inertia.matrix_mulMF, Inertia.act_mul hv, SE3.actInv_act hv, SE3.dot_act_actF hv]

/-- entry of the mass matrix for a joint and one of its descendants -/
theorem massForm_entry (h : s.Packed) {q : ℕ → K} (hq : s.At q) {i k j l : ℕ} (hi1 : 1 ≤ i) (hi : i < s.n)
    (hk : k < s.jnv i) (hj1 : 1 ≤ j) (hj : j < s.n) (hl : l < s.jnv j) (ha : anc s.par i j) :
    s.massForm q (unit (s.iv i + k)) (unit (s.iv j + l))
      = (s.Jc q i k).dot ((s.oYm q j).mulMF (s.Jc q j l))
        + if s.iv i + k = s.iv j + l then s.arm (s.iv i + k) else 0 := by
  classical
  unfold massForm
  congr 1
  · unfold oYm
    rw [M6.sum_mulMF, Motion.dot_sum]
    unfold subtree
    rw [sum_filter]
    apply sum_congr rfl
    intro b hb
    rw [mem_Ico] at hb
    rw [dot_mul_world h.par hq _ _ hb.2, oV_unit h hq hi1 hi hk hb.2, oV_unit h hq hj1 hj hl hb.2]
    by_cases hjb : anc s.par j b
    · rw [if_pos hjb, if_pos hjb, if_pos (anc_trans h.par ha b hb.2 hjb)]
    · rw [if_neg hjb, if_neg hjb]; simp
  · rw [dotv_unit (by have := h.le_nv hi1 hi; omega)]
    simp only [unit]
    split <;> simp

/-- entries for unrelated joints vanish -/
theorem massForm_unrelated (h : s.Packed) {q : ℕ → K} (hq : s.At q) {i k j l : ℕ} (hi1 : 1 ≤ i) (hi : i < s.n)
    (hk : k < s.jnv i) (hj1 : 1 ≤ j) (hj : j < s.n) (hl : l < s.jnv j) (ha : ¬ anc s.par i j)
    (hb : ¬ anc s.par j i) :
    s.massForm q (unit (s.iv i + k)) (unit (s.iv j + l)) = 0 := by
  classical
  unfold massForm
  rw [sum_eq_zero, dotv_unit (by have := h.le_nv hi1 hi; omega)]
  · simp only [unit]
    rw [if_neg]
    · simp
    · intro e
      have := (h.inj hi1 hi hj1 hj hk hl e).1
      subst this
      exact ha (anc_refl h.par hi)
  · intro b hbm
    rw [mem_Ico] at hbm
    rw [dot_mul_world h.par hq _ _ hbm.2, oV_unit h hq hi1 hi hk hbm.2, oV_unit h hq hj1 hj hl hbm.2]
    by_cases hjb : anc s.par j b
    · by_cases hib : anc s.par i b
      · rcases anc_total h.par b hbm.2 hib hjb with h' | h'
        · exact absurd h' ha
        · exact absurd h' hb
      · rw [if_neg hib]; simp
    · rw [if_neg hjb]; simp

theorem oI_symm (q : ℕ → K) (i : ℕ) : (s.oI q i).IsSymm := Inertia.matrix_symm _
theorem oYm_symm (q : ℕ → K) (i : ℕ) : (s.oYm q i).IsSymm := M6.isSymm_sum _ _ fun b _ => oI_symm q b
end Sys

section putSeg
variable {s : Sys K}

theorem putSeg_in {α : Type*} (x : ℕ → α) {i n r : ℕ} (y : ℕ → α) (h : i ≤ r ∧ r < i + n) :
    putSeg x i n y r = y (r - i) := if_pos h
theorem putSeg_out {α : Type*} (x : ℕ → α) {i n r : ℕ} (y : ℕ → α) (h : ¬ (i ≤ r ∧ r < i + n)) :
    putSeg x i n y r = x r := if_neg h
theorem putSeg_at {α : Type*} (x : ℕ → α) {i n l : ℕ} (y : ℕ → α) (h : l < n) :
    putSeg x i n y (i + l) = y l := by
  rw [putSeg_in x y (by omega)]; congr 1; omega

/-- columns written for joint `i` do not touch those of joint `j` -/
theorem Sys.Packed.putSeg_ne {α : Type*} (h : s.Packed) (x : ℕ → α) (y : ℕ → α) {i j l : ℕ} (hi1 : 1 ≤ i)
    (hi : i < s.n) (hj1 : 1 ≤ j) (hj : j < s.n) (hl : l < s.jnv j) (hij : j ≠ i) :
    putSeg x (s.iv i) (s.jnv i) y (s.iv j + l) = x (s.iv j + l) := by
  apply putSeg_out
  rintro ⟨a, b⟩
  exact hij (h.inj hj1 hj hi1 hi hl (k := l) (l := s.iv j + l - s.iv i) (by omega) (by omega)).1

end putSeg
end Pin
